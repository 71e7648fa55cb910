import Verif.Model.Xes
import Mathlib.Data.List.Forall2

/-! Specification for the XES round trip. -/

namespace Ficus.Spec

/-- Two dictionaries are the same mapping. -/
def SameMapping {V : Type} (d e : Dict String V) : Prop := ∀ k, d.get? k = e.get? k

/-- Two traces have the same attributes and, event by event, the same payloads. -/
def SameTrace (t u : Trace Payload) : Prop :=
  SameMapping t.attributes u.attributes ∧ List.Forall₂ SameMapping t.events u.events

/-- Two logs have the same content. -/
def SameLog (l m : Log Payload) : Prop :=
  SameMapping l.attributes m.attributes ∧ (∀ n, Option.Rel SameMapping (l.extensions.get? n) (m.extensions.get? n)) ∧
  SameMapping l.classifiers m.classifiers ∧
  SameMapping l.properties m.properties ∧ SameMapping l.globals m.globals ∧ List.Forall₂ SameTrace l.traces m.traces

/-- The external parser reads back the printed form of the value. -/
def ParsesBack (P : Parsers) : Val → Prop
  | .int i => P.int (toString i) = .ok i
  | .float t => P.float t = .ok (.float t)
  | .date t => P.date t = .ok (.date t)
  | _ => True

/-- The payloads for which the round trip is claimed: proper dictionary, serialisable values other than `False`, external
parsers faithful on them, and every key that has a global default is present. -/
structure SafePayload (P : Parsers) (defaults : Option (Dict String Val)) (d : Dict String Val) : Prop where
  wf : d.WF
  notOther : ∀ k v, (k, v) ∈ d → ∀ t, v ≠ .other t
  notFalse : ∀ k v, (k, v) ∈ d → v ≠ .bool false
  parses : ∀ k v, (k, v) ∈ d → ParsesBack P v
  defaultsPresent : ∀ g, defaults = some g → ∀ k, k ∈ g.keys → k ∈ d.keys

/-- The logs for which the round trip is claimed. -/
structure SafeLog (P : Parsers) (log : Log Payload) : Prop where
  attributes : log.attributes.WF
  extensions : log.extensions.WF
  extensionsShape : ∀ n c, (n, c) ∈ log.extensions → c.WF ∧ ∃ p u, SameMapping c [("prefix", p), ("uri", u)]
  classifiers : log.classifiers.WF
  classifierKeys : ∀ n ks, (n, ks) ∈ log.classifiers → ks ≠ [] ∧ ∀ k ∈ ks, ' ' ∉ k.toList
  noProperties : log.properties = []
  globals : log.globals.WF
  globalScopes : ∀ s d, (s, d) ∈ log.globals → d.WF ∧ ∀ k v, (k, v) ∈ d → ∃ t, v = .str t
  traces : ∀ t ∈ log.traces, SafePayload P (log.globals.get? "trace") t.attributes ∧
    ∀ e ∈ t.events, SafePayload P (log.globals.get? "event") e

/-- All dictionaries of the log have every key once, as python's dictionaries have. -/
structure ProperLog (log : Log Payload) : Prop where
  attributes : log.attributes.WF
  extensions : log.extensions.WF
  extensionConfs : ∀ n c, (n, c) ∈ log.extensions → c.WF
  classifiers : log.classifiers.WF
  properties : log.properties.WF
  globals : log.globals.WF
  globalScopes : ∀ s d, (s, d) ∈ log.globals → d.WF
  traces : ∀ t ∈ log.traces, t.attributes.WF ∧ ∀ e ∈ t.events, e.WF

/-- What the round trip needs of a value: it is not `False`, and the external parser reads back its printed form. -/
def SafeValues (P : Parsers) (d : Dict String Val) : Prop := ∀ k v, (k, v) ∈ d → v ≠ .bool false ∧ ParsesBack P v

/-- Python's `float` gives floats, and the parser of dates gives dates. -/
def TypedParsers (P : Parsers) : Prop :=
  (∀ s v, P.float s = .ok v → ∃ t, v = .float t) ∧ ∀ s v, P.date s = .ok v → ∃ t, v = .date t

/-- The parsers read back what they gave, once it is printed. -/
structure StableParsers (P : Parsers) : Prop where
  typed : TypedParsers P
  int : ∀ i : Int, P.int (toString i) = .ok i
  float : ∀ s v, P.float s = .ok v → ParsesBack P v
  date : ∀ s v, P.date s = .ok v → ParsesBack P v

/-- Python's `==` on values: equal values of one type, or a truth value and the number that it is. -/
def EqualValues (v w : Val) : Prop :=
  v = w ∨ (v = .bool true ∧ w = .int 1) ∨ (v = .int 1 ∧ w = .bool true) ∨ (v = .bool false ∧ w = .int 0) ∨
    (v = .int 0 ∧ w = .bool false)

/-- The value that the key has if it is not written, for a scope. -/
def Default (globals : Dict String (Dict String Val)) (scope k : String) (w : Val) : Prop :=
  ∃ g, globals.get? scope = some g ∧ g.get? k = some w

/-- The type of the value is one that XES has. -/
def Typed (v : Val) : Prop := ∀ t, v ≠ .other t

/-- The elements for a payload: one for each entry of a known type that is not equal to its default, in the order of the
entries, with the tag of the type, the key and the text of the value. -/
def WrittenAs (globals : Dict String (Dict String Val)) (scope : String) (d : Dict String Val) (els : List XElem) : Prop :=
  ∃ kept : Dict String Val, kept.Sublist d ∧
    (∀ k v, (k, v) ∈ kept ↔ (k, v) ∈ d ∧ Typed v ∧ ¬ ∃ w, Default globals scope k w ∧ EqualValues w v) ∧
    List.Forall₂ (fun kv el => ∃ tag, kv.2.tagName = some tag ∧ el = .mk tag [("key", kv.1), ("value", kv.2.toStr)] []) kept els

end Ficus.Spec
