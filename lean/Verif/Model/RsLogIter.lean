/-! Model of the iterators over a log, /repo/src/rust/ficus_backend/src/event_log/core/log_iterator.rs. Traces and events are shared by `Rc`
there; that somebody changes them between two calls is left out. -/

namespace Ficus.Rs.LogIter

/-- `TraceIterator`, log_iterator.rs:56-64. -/
structure TraceIter (E R : Type) where
  events : List E
  processor : E → R
  index : Nat

/-- `TraceIterator::new`, log_iterator.rs:92-98. -/
def TraceIter.new {E R : Type} (events : List E) (processor : E → R) : TraceIter E R := ⟨events, processor, 0⟩

/-- `next`, log_iterator.rs:73-84. -/
def TraceIter.next {E R : Type} (it : TraceIter E R) : Option R × TraceIter E R :=
  match it.events[it.index]? with
  | none => (none, it)
  | some e => (some (it.processor e), { it with index := it.index + 1 })

/-- `step_back`, log_iterator.rs:100-104. -/
def TraceIter.stepBack {E R : Type} (it : TraceIter E R) : TraceIter E R :=
  if 0 < it.index then { it with index := it.index - 1 } else it

/-- What is done with an iterator. -/
inductive Call where
  | next
  | back
  deriving DecidableEq, Repr

/-- The results of `next` for some calls, and the iterator after them. -/
def TraceIter.run {E R : Type} (it : TraceIter E R) : List Call → List (Option R) × TraceIter E R
  | [] => ([], it)
  | .next :: cs => let r := it.next.2.run cs; (it.next.1 :: r.1, r.2)
  | .back :: cs => it.stepBack.run cs

/-- `LogIterator`, log_iterator.rs:5-13. -/
structure LogIterator (E R : Type) where
  log : List (List E)
  processor : E → R
  index : Nat

/-- `LogIterator::new`, log_iterator.rs:20-26. -/
def LogIterator.new {E R : Type} (log : List (List E)) (processor : E → R) : LogIterator E R := ⟨log, processor, 0⟩

/-- `next`, log_iterator.rs:36-53. -/
def LogIterator.next {E R : Type} (it : LogIterator E R) : Option (TraceIter E R) × LogIterator E R :=
  match it.log[it.index]? with
  | none => (none, it)
  | some t => (some (TraceIter.new t it.processor), { it with index := it.index + 1 })

/-- A `for` loop over an iterator with the given `next`: the elements until there is none; `none` if the fuel is not enough. -/
def drain {S R : Type} (next : S → Option R × S) : Nat → S → Option (List R)
  | 0, _ => none
  | fuel + 1, s => match (next s).1 with
    | none => some []
    | some r => (drain next fuel (next s).2).map (r :: ·)

/-- Two loops, over the traces and their events. -/
def drainLog {E R : Type} (fuel : Nat) (log : List (List E)) (processor : E → R) : Option (List (List R)) :=
  (drain LogIterator.next fuel (LogIterator.new log processor)).bind (fun ts => ts.mapM (drain TraceIter.next fuel))

end Ficus.Rs.LogIter
