import Verif.Model.RsXes

/-! Specification vocabulary for XES files in the backend: documents as trees. -/

namespace Ficus.Spec
open RsXes

variable {D F U : Type}

/-- A part of a document: an element with a start and an end tag, a self-closing element, something else. -/
inductive XesNode
  | node (tag : String) (attrs : List (String × String)) (children : List XesNode)
  | empty (tag : String) (attrs : List (String × String))
  | other

mutual
/-- The tokens of a document. -/
def XesNode.tokens : XesNode → List Token
  | .node tag attrs children => .start tag attrs :: (forestTokens children ++ [.stop tag])
  | .empty tag attrs => [.empty tag attrs]
  | .other => [.other]
def forestTokens : List XesNode → List Token
  | [] => []
  | x :: xs => x.tokens ++ forestTokens xs
end

mutual
/-- All self-closing elements, at any depth, in the order of the document. -/
def XesNode.empties : XesNode → List (String × List (String × String))
  | .node _ _ children => emptiesOf children
  | .empty tag attrs => [(tag, attrs)]
  | .other => []
def emptiesOf : List XesNode → List (String × List (String × String))
  | [] => []
  | x :: xs => x.empties ++ emptiesOf xs
end

mutual
/-- The contents of all outermost elements `event`, at any depth, in the order of the document. -/
def XesNode.eventElements : XesNode → List (List XesNode)
  | .node tag _ children => if tag = "event" then [children] else eventElementsOf children
  | .empty _ _ => []
  | .other => []
def eventElementsOf : List XesNode → List (List XesNode)
  | [] => []
  | x :: xs => x.eventElements ++ eventElementsOf xs
end

mutual
/-- There is no element of that name with an end tag, at any depth. -/
def XesNode.Without (tag : String) : XesNode → Prop
  | .node t _ children => t ≠ tag ∧ ForestWithout tag children
  | .empty _ _ => True
  | .other => True
def ForestWithout (tag : String) : List XesNode → Prop
  | [] => True
  | x :: xs => x.Without tag ∧ ForestWithout tag xs
end

mutual
/-- No event inside of an event. -/
def XesNode.EventsFlat : XesNode → Prop
  | .node t _ children => if t = "event" then ForestWithout "event" children else EventsFlatAll children
  | .empty _ _ => True
  | .other => True
def EventsFlatAll : List XesNode → Prop
  | [] => True
  | x :: xs => x.EventsFlat ∧ EventsFlatAll xs
end

/-- What counts of a document for the log, in its order. -/
inductive Item
  | trace (children : List XesNode)
  | global (scope : String) (children : List XesNode)
  | tag (name : String) (attrs : List (String × String))

mutual
/-- Traces, globals with a scope, and all other tags outside of those. -/
def XesNode.items : XesNode → List Item
  | .node t attrs children =>
    if t = "trace" then [.trace children]
    else match (if t = "global" then attr? attrs "scope" else none) with
      | some scope => [.global scope children]
      | none => .tag t attrs :: itemsOf children
  | .empty t attrs => [.tag t attrs]
  | .other => []
def itemsOf : List XesNode → List Item
  | [] => []
  | x :: xs => x.items ++ itemsOf xs
end

mutual
/-- Traces have no traces in them and no events in events; globals have no globals in them. -/
def XesNode.Proper : XesNode → Prop
  | .node t attrs children =>
    if t = "trace" then ForestWithout "trace" children ∧ EventsFlatAll children
    else match (if t = "global" then attr? attrs "scope" else none) with
      | some _ => ForestWithout "global" children
      | none => ProperAll children
  | .empty _ _ => True
  | .other => True
def ProperAll : List XesNode → Prop
  | [] => True
  | x :: xs => x.Proper ∧ ProperAll xs
end

/-- All texts of attributes can be unescaped. -/
def AttrsReadable (c : Codec D F U) (attrs : List (String × String)) : Prop := ∀ a ∈ attrs, ∃ s, c.unescape a.2 = some s

mutual
def XesNode.Readable (c : Codec D F U) : XesNode → Prop
  | .node _ attrs children => AttrsReadable c attrs ∧ ForestReadable c children
  | .empty _ attrs => AttrsReadable c attrs
  | .other => True
def ForestReadable (c : Codec D F U) : List XesNode → Prop
  | [] => True
  | x :: xs => x.Readable c ∧ ForestReadable c xs
end

/-- The key and the text of a value, unescaped. -/
def keyText (c : Codec D F U) (attrs : List (String × String)) : Option (String × String) := do
  let k ← attr? attrs "key"
  let v ← attr? attrs "value"
  return (← c.unescape k, ← c.unescape v)

/-- The key and the value that a tag gives, if it gives one. -/
def field (c : Codec D F U) (x : String × List (String × String)) : Option (String × Value D F U) := do
  let (k, text) ← keyText c x.2
  return (k, ← extractValue c x.1 text)

/-- The values of the self-closing elements at any depth. -/
def fieldsOf (c : Codec D F U) (children : List XesNode) : List (String × Value D F U) := (emptiesOf children).filterMap (field c)

/-- The last of the values under a key that is of the right kind. -/
def lastName (fields : List (String × Value D F U)) : Option String :=
  (fields.filterMap (fun e => match e.2 with | .str s => if e.1 = "concept:name" then some s else none | _ => none)).getLast?

def lastDate (fields : List (String × Value D F U)) : Option D :=
  (fields.filterMap (fun e => match e.2 with | .date d => if e.1 = "time:timestamp" then some d else none | _ => none)).getLast?

/-- The last value under a key. -/
def lastField (fields : List (String × Value D F U)) (key : String) : Option (Value D F U) :=
  (fields.filterMap (fun e => if e.1 = key then some e.2 else none)).getLast?

/-- The name among own fields, else the default, if it is a string. -/
def nameOf (defaults own : List (String × Value D F U)) : Option String :=
  (lastName own).or (match lastField defaults "concept:name" with | some (.str s) => some s | _ => none)

/-- The date among own fields, else the default, if it is a date. -/
def dateOf (defaults own : List (String × Value D F U)) : Option D :=
  (lastDate own).or (match lastField defaults "time:timestamp" with | some (.date d) => some d | _ => none)

/-- The event with these defaults and these values of its own: its name, its date, and under every other key the last value. -/
def EventOf (f : List (String × Value D F U) × List (String × Value D F U)) (e : Event D F U) : Prop :=
  nameOf f.1 f.2 = some e.name ∧ dateOf f.1 f.2 = some e.date ∧
    ∀ key, e.payload.get? key =
      if key = "concept:name" ∨ key = "time:timestamp" then none else (lastField f.2 key).or (lastField f.1 key)

/-- There is a name and a date. -/
def Complete (f : List (String × Value D F U) × List (String × Value D F U)) : Bool := (nameOf f.1 f.2).isSome && (dateOf f.1 f.2).isSome

/-- The first global of a scope in which there is something with a key and a value. -/
def firstGlobal (c : Codec D F U) (items : List Item) (scope : String) : Option (List XesNode) :=
  (items.filterMap (fun i => match i with
    | .global s children => if s = scope ∧ (emptiesOf children).any (fun x => (keyText c x.2).isSome) then some children else none
    | _ => none)).head?

/-- The defaults of events that the items give. -/
def defaultsOf (c : Codec D F U) (items : List Item) : List (String × Value D F U) :=
  match firstGlobal c items "event" with
  | some children => fieldsOf c children
  | none => []

/-- The traces with the items before them. -/
def tracesIn (before : List Item) : List Item → List (List Item × List XesNode)
  | [] => []
  | .trace children :: rest => (before, children) :: tracesIn (before ++ [.trace children]) rest
  | i :: rest => tracesIn (before ++ [i]) rest

/-- The fields of the events of a trace: the defaults known before the trace, and those of the event itself. -/
def eventFields (c : Codec D F U) (t : List Item × List XesNode) :
    List (List (String × Value D F U) × List (String × Value D F U)) :=
  (eventElementsOf t.2).map (fun children => (defaultsOf c t.1, fieldsOf c children))

/-- The log of a document. -/
structure LogOf (c : Codec D F U) (items : List Item) (l : Log D F U) : Prop where
  traces : List.Forall₂ (fun t trace => List.Forall₂ EventOf ((eventFields c t).filter Complete) trace) (tracesIn [] items) l.traces
  globals : ∀ scope, (l.globals.get? scope).map (fun d key => d.get? key) =
    (firstGlobal c items scope).map (fun children key => lastField (fieldsOf c children) key)
  extensions : l.extensions = items.filterMap (fun i => match i with
    | .tag name attrs => if name = "extension" then readExtension attrs else none
    | _ => none)
  classifiers : l.classifiers = items.filterMap (fun i => match i with
    | .tag name attrs => if name = "classifier" then readClassifier attrs else none
    | _ => none)
  properties : l.properties = items.filterMap (fun i => match i with
    | .tag name attrs => field c (name, attrs)
    | _ => none)

/-! ### Written and read again -/

/-- What is escaped is unescaped again; `event` needs no escaping. -/
structure Escapes (c : Codec D F U) : Prop where
  unescape : ∀ s, c.unescape (c.escape s) = some s
  event : c.escape "event" = "event"

/-- What was once read from a text is read again from the text that is written for it. -/
structure Parses (c : Codec D F U) : Prop where
  date : ∀ s d, c.parseDate s = some d → c.parseDate (c.showDate d) = some d
  int : ∀ s n, c.parseInt s = some n → c.parseInt (c.showInt n) = some n
  float : ∀ s f, c.parseFloat s = some f → c.parseFloat (c.showFloat f) = some f
  guid : ∀ s u, c.parseGuid s = some u → c.parseGuid (c.showGuid u) = some u

/-- A value as it is read back from its tag and its text. -/
def back (c : Codec D F U) (v : Value D F U) : Option (Value D F U) := extractValue c v.tag (v.text c)

/-- Maps have different keys, and the name and the date are not in the payload. -/
structure LogWF (l : Log D F U) : Prop where
  globals : Dict.WF l.globals
  defaults : ∀ g ∈ l.globals, Dict.WF g.2
  payload : ∀ t ∈ l.traces, ∀ e ∈ t, Dict.WF e.payload ∧ e.payload.get? "concept:name" = none ∧ e.payload.get? "time:timestamp" = none

/-- The default of events under a key, as it is read back. -/
def defaultBack (c : Codec D F U) (l : Log D F U) (key : String) : Option (Value D F U) :=
  (l.globals.get? "event").bind (fun d => (d.get? key).bind (back c))

/-- The date of an event, as it is read back. -/
def dateBack (c : Codec D F U) (l : Log D F U) (e : Event D F U) : Option D :=
  (c.parseDate (c.showDate e.date)).or (match defaultBack c l "time:timestamp" with | some (.date d) => some d | _ => none)

/-- An event as it is read back. -/
def EventBack (c : Codec D F U) (l : Log D F U) (e e' : Event D F U) : Prop :=
  e'.name = e.name ∧ some e'.date = dateBack c l e ∧
    ∀ key, e'.payload.get? key =
      if key = "concept:name" ∨ key = "time:timestamp" then none
      else ((e.payload.get? key).bind (back c)).or (defaultBack c l key)

/-- A log as it is read back. -/
structure LogBack (c : Codec D F U) (l l' : Log D F U) : Prop where
  traces : List.Forall₂ (fun t t' => List.Forall₂ (EventBack c l) (t.filter (fun e => (dateBack c l e).isSome)) t')
    (l.traces.filter (fun t => !t.isEmpty)) l'.traces
  globals : ∀ scope, (l'.globals.get? (c.escape scope)).map (fun d key => d.get? key) =
    (l.globals.get? scope).bind (fun d => if d.isEmpty then none else some (fun key => (d.get? key).bind (back c)))
  scopes : ∀ s d, l'.globals.get? s = some d → ∃ scope, l.globals.contains scope = true ∧ s = c.escape scope
  extensions : l'.extensions = l.extensions.map (fun x => ⟨c.escape x.name, c.escape x.pre, c.escape x.uri⟩)
  classifiers : l'.classifiers = l.classifiers.map (fun x => ⟨c.escape x.name, splitSpaces (c.escape (" ".intercalate x.keys))⟩)
  properties : ∃ p : List (String × Value D F U), p.Perm l.properties ∧ p.Pairwise (fun a b => a.1 ≤ b.1) ∧
    l'.properties = p.filterMap (fun e => (back c e.2).map (fun v => (e.1, v)))

/-- The same event, whatever the order in the payload. -/
def SameEvent (e e' : Event D F U) : Prop := e'.name = e.name ∧ e'.date = e.date ∧ ∀ key, e'.payload.get? key = e.payload.get? key

end Ficus.Spec
