import Verif.Model.RsBxes

/-! Specification vocabulary for BXES files in the backend. -/

namespace Ficus.Spec.Bx
open Rs.Bx
open RsXes (Extension Classifier)

variable {F U : Type}

/-! ### Writing -/

/-- What comes back of a value: numbers of nanoseconds come back as dates. -/
def comesBack : Value F U → Value F U
  | .timestamp n => .date n
  | v => v

/-- Equal values; floats are compared as such. -/
def SameValue (x : Ext F) (a b : Value F U) : Prop :=
  (∃ f g, a = .float32 f ∧ b = .float32 g ∧ x.floatEq f g = true)
  ∨ (∃ f g, a = .float64 f ∧ b = .float64 g ∧ x.floatEq f g = true)
  ∨ (a = b ∧ ∀ f, a ≠ .float32 f ∧ a ≠ .float64 f)

/-- The attribute of an event. -/
def valueOfKey (e : Event F U) (key : String) : Option (Value F U) := e.payload.bind (·.get? key)

/-- The value is the default of the attribute in the log. -/
def IsDefault (x : Ext F) (l : Log F U) (key : String) (v : Value F U) : Prop :=
  ∃ defaults d, l.globals.get? "event" = some defaults ∧ defaults.get? key = some d ∧ SameValue x d v

/-- Keys are different, as in a map. -/
def LogKeys (l : Log F U) : Prop :=
  Dict.WF l.globals ∧ (∀ g ∈ l.globals, Dict.WF g.2) ∧ ∀ t ∈ l.traces, ∀ e ∈ t, ∀ p, e.payload = some p → Dict.WF p

/-- A date in range, or no date. -/
def ValueFits (x : Ext F) (v : Value F U) : Prop := ∀ d, v = .date d → x.fits d = true

/-- The scopes that a BXES file has globals for. -/
def KnownScope (s : String) : Prop := s = "event" ∨ s = "trace" ∨ s = "log"

/-- What can be written. -/
structure Writable (x : Ext F) (l : Log F U) : Prop where
  scopes : ∀ g ∈ l.globals, KnownScope g.1
  globals : ∀ g ∈ l.globals, ∀ kv ∈ g.2, ValueFits x kv.2
  properties : ∀ p ∈ l.properties, ValueFits x p.2
  dates : ∀ t ∈ l.traces, ∀ e ∈ t, x.fits e.date = true
  attributes : ∀ t ∈ l.traces, ∀ e ∈ t, ∀ key v, valueOfKey e key = some v → ¬ IsDefault x l key v → ValueFits x v

/-- An event as it comes back. -/
structure EventBack (x : Ext F) (l : Log F U) (e e' : Event F U) : Prop where
  name : e'.name = e.name
  date : e'.date = e.date
  payload : ∃ p, e'.payload = some p
  attributes : ∀ key w, valueOfKey e' key = some w ↔ ∃ v, valueOfKey e key = some v ∧ ¬ IsDefault x l key v ∧ w = comesBack v

/-- A log as it comes back. -/
structure LogBack (x : Ext F) (l l' : Log F U) : Prop where
  classifiers : l'.classifiers = l.classifiers
  extensions : l'.extensions = l.extensions
  properties : l'.properties = l.properties.map fun p => (p.1, comesBack p.2)
  scopes : ∀ scope, (∃ m, l'.globals.get? scope = some m) ↔ ∃ m, l.globals.get? scope = some m
  globals : ∀ scope key w, (∃ m, l'.globals.get? scope = some m ∧ m.get? key = some w) ↔
    ∃ m v, l.globals.get? scope = some m ∧ m.get? key = some v ∧ w = comesBack v
  traces : List.Forall₂ (List.Forall₂ (EventBack x l)) l.traces l'.traces

/-! ### Reading -/

/-- What a value of a file stands for; lifecycles are listed in the same order on both sides. -/
inductive Means : BValue F U → Value F U → Prop
  | int32 (n) : Means (.int32 n) (.int32 n)
  | int64 (n) : Means (.int64 n) (.int64 n)
  | uint32 (n) : Means (.uint32 n) (.uint32 n)
  | uint64 (n) : Means (.uint64 n) (.uint64 n)
  | float32 (f) : Means (.float32 f) (.float32 f)
  | float64 (f) : Means (.float64 f) (.float64 f)
  | str (s) : Means (.str s) (.str s)
  | bool (b) : Means (.bool b) (.bool b)
  | guid (u) : Means (.guid u) (.guid u)
  | timestamp (n) : Means (.timestamp n) (.date n)
  | braf (b : BBraf) (l : Braf) (h : b.ctorIdx = l.ctorIdx) : Means (.braf b) (.lifecycle (.braf l))
  | standard (b : BStandard) (l : Standard) (h : b.ctorIdx = l.ctorIdx) : Means (.standard b) (.lifecycle (.standard l))

/-- A text. -/
def IsText (v : BValue F U) : Prop := ∃ s, v = .str s

/-- A value that the reader has a meaning for. -/
def Supported (v : BValue F U) : Prop := v ≠ .artifact ∧ v ≠ .drivers ∧ v ≠ .softwareEventType

/-- The last value with the key. -/
def LastPair (vs : List (BValue F U × BValue F U)) (key : String) (v : BValue F U) : Prop :=
  ∃ before after, vs = before ++ (.str key, v) :: after ∧ ∀ u ∈ after, u.1 ≠ .str key

/-- The map of the pairs. -/
def MapOf (vs : List (BValue F U × BValue F U)) (m : Dict String (Value F U)) : Prop :=
  ∀ key w, m.get? key = some w ↔ ∃ v, LastPair vs key v ∧ Means v w

/-- The scope of a kind of globals. -/
def scopeOf : Kind → String
  | .event => "event"
  | .trace => "trace"
  | .log => "log"

/-- Keys are texts, values are supported. -/
def PairsReadable (vs : List (BValue F U × BValue F U)) : Prop := ∀ kv ∈ vs, IsText kv.1 ∧ Supported kv.2

/-- The event that an event of a file stands for. -/
structure EventRead (b : BEvent F U) (e : Event F U) : Prop where
  name : b.name = .str e.name
  date : e.date = b.timestamp
  payload : Option.Rel MapOf b.attributes e.payload

/-- What can be read. -/
structure Readable (b : BLog F U) : Prop where
  classifiers : ∀ cs, b.classifiers = some cs → ∀ c ∈ cs, IsText c.name ∧ ∀ k ∈ c.keys, IsText k
  properties : ∀ ps, b.properties = some ps → PairsReadable ps
  extensions : ∀ es, b.extensions = some es → ∀ e ∈ es, IsText e.name ∧ IsText e.uri ∧ IsText e.pre
  globals : ∀ gs, b.globals = some gs → ∀ g ∈ gs, PairsReadable g.globals
  events : ∀ v ∈ b.variants, ∀ e ∈ v.events, IsText e.name ∧ ∀ vs, e.attributes = some vs → PairsReadable vs

/-- The log that a file stands for; there is one trace for a variant, whatever its number of traces. -/
structure LogRead (b : BLog F U) (l : Log F U) : Prop where
  classifiers : List.Forall₂ (fun c c' => c.name = .str c'.name ∧ c.keys = c'.keys.map .str) (b.classifiers.getD []) l.classifiers
  properties : List.Forall₂ (fun p p' => p.1 = .str p'.1 ∧ Means p.2 p'.2) (b.properties.getD []) l.properties
  extensions : List.Forall₂ (fun e e' => e.name = .str e'.name ∧ e.pre = .str e'.pre ∧ e.uri = .str e'.uri) (b.extensions.getD []) l.extensions
  globals : ∀ scope m, l.globals.get? scope = some m →
    ∃ before g after, b.globals.getD [] = before ++ g :: after ∧ scopeOf g.kind = scope ∧ (∀ h ∈ after, scopeOf h.kind ≠ scope) ∧ MapOf g.globals m
  scopes : ∀ g ∈ b.globals.getD [], ∃ m, l.globals.get? (scopeOf g.kind) = some m
  traces : List.Forall₂ (fun v t => List.Forall₂ EventRead v.events t) b.variants l.traces

/-- The transitions of the standard model of the lifecycle extension of XES, by their names in the standard. -/
def xesTransitions : List String :=
  ["assign", "ate_abort", "autoskip", "complete", "manualskip", "pi_abort", "reassign", "resume", "schedule", "start", "suspend", "unknown",
    "withdraw"]

end Ficus.Spec.Bx
