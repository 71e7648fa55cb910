import Verif.Model.Py

/-! Model of traces and logs as sequences: log/event_log.py:44-73 (`MyEventsSequence`) and 88-127 (`MyEventLog`), with the
methods that both inherit from `collections.abc.Sequence`. Items are of any type; `same` is the test
`item is value or item == value` of the inherited methods, where `==` compares hashes (log/event_log.py:34-35, 69-70, 114-115).
Simplification: indices are integers (no slices), and the hash of the value that is searched does not raise. -/

namespace Ficus
variable {α : Type}

/-- The position that an index of a python list refers to, as in log/event_log.py:49, 55, 73, 118, 121, 127;
negative indices count from the end. -/
def listPosition (n : Nat) (i : Int) : Option Nat :=
  if 0 ≤ i then (if i < n then some i.toNat else none)
  else (if 0 ≤ i + n then some (i + n).toNat else none)

/-- `__getitem__`, log/event_log.py:48-49 and 117-118. -/
def seqGet (items : List α) (i : Int) : Except PyErr α :=
  match listPosition items.length i with
  | some k =>
    match items[k]? with
    | some x => .ok x
    | none => .error .indexError
  | none => .error .indexError

/-- `__setitem__`, log/event_log.py:54-55 and 120-121. -/
def seqSet (items : List α) (i : Int) (x : α) : Except PyErr (List α) :=
  match listPosition items.length i with
  | some k => .ok (items.set k x)
  | none => .error .indexError

/-- `__delitem__`, log/event_log.py:72-73 and 126-127. -/
def seqDel (items : List α) (i : Int) : Except PyErr (List α) :=
  match listPosition items.length i with
  | some k => .ok (items.eraseIdx k)
  | none => .error .indexError

/-- `append`, log/event_log.py:60-61 and 103-104. -/
def seqAppend (items : List α) (x : α) : List α := items ++ [x]

/-- `insert(new_event, index)`, log/event_log.py:63-64: the arguments are in the other order than those of `list.insert`, which
moves an index outside of the list to the nearest end. -/
def seqInsert (items : List α) (x : α) (i : Int) : List α :=
  let k : Nat := if i < 0 then (i + items.length).toNat else min i.toNat items.length
  items.take k ++ x :: items.drop k

/-- The loop of `Sequence.__iter__`, which `MyEventLog` (log/event_log.py:88, 117-118) inherits: `__getitem__` with 0, 1, ..
until `IndexError`. The first argument bounds the number of steps. -/
def seqIterLoop (items : List α) : Nat → Nat → List α
  | 0, _ => []
  | fuel + 1, i =>
    match seqGet items i with
    | .ok x => x :: seqIterLoop items fuel (i + 1)
    | .error _ => []

/-- `iter(log)`: `Sequence.__iter__` with log/event_log.py:117-118. -/
def seqIter (items : List α) : List α := seqIterLoop items (items.length + 1) 0

/-- `value in sequence`: `Sequence.__contains__`, which `MyEventsSequence` and `MyEventLog` (log/event_log.py:44, 88) inherit. -/
def seqContains (same : α → α → Bool) (items : List α) (v : α) : Bool :=
  match items with
  | [] => false
  | x :: xs => if same x v then true else seqContains same xs v

/-- `sequence.count(value)`: `Sequence.count`, inherited in log/event_log.py:44, 88. -/
def seqCount (same : α → α → Bool) (items : List α) (v : α) : Nat :=
  (items.map (fun x => if same x v then 1 else 0)).sum

/-- The loop of `Sequence.index` (inherited in log/event_log.py:44, 88), from index `i` on; the first argument
bounds the number of steps. -/
def seqIndexLoop (same : α → α → Bool) (items : List α) (v : α) (stop : Option Int) : Nat → Nat → Except PyErr Nat
  | 0, _ => .error .valueError
  | fuel + 1, i =>
    if stop.all (fun s => decide ((i : Int) < s)) then
      match seqGet items i with
      | .error _ => .error .valueError
      | .ok x => if same x v then .ok i else seqIndexLoop same items v stop fuel (i + 1)
    else .error .valueError

/-- `sequence.index(value, start, stop)`: `Sequence.index`, inherited in log/event_log.py:44, 88; `stop` may be `None`. -/
def seqIndex (same : α → α → Bool) (items : List α) (v : α) (start : Int := 0) (stop : Option Int := none) :
    Except PyErr Nat :=
  let start : Nat := if start < 0 then (items.length + start).toNat else start.toNat
  let stop : Option Int := stop.map (fun s => if s < 0 then s + items.length else s)
  seqIndexLoop same items v stop (items.length + 1) start

/-- `reversed(sequence)`: `Sequence.__reversed__` (inherited in log/event_log.py:44, 88), `__getitem__` with the
indices from the last to the first. -/
def seqReversed (items : List α) : Except PyErr (List α) :=
  (List.range items.length).reverse.mapM (fun (i : Nat) => seqGet items i)

end Ficus
