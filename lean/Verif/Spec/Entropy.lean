import Mathlib.Data.List.Basic
import Verif.Model.Entropy
import Verif.Spec.Log

/-! Specification for position entropies: what the two implementations have to count. -/

namespace Ficus.Spec

/-- In how many sequences the name `n` stands at position `i`. -/
def atPosition (ts : List (List String)) (n : String) (i : Nat) : Nat :=
  (ts.filter (fun t => decide (t[i]? = some n))).length

/-- The number of non-empty sequences. -/
def nonEmptyCount (ts : List (List String)) : Nat := (ts.filter (fun t => decide (t ≠ []))).length

/-- The length of the longest sequence, 0 if there is none. -/
def longest (ts : List (List String)) : Nat := (ts.map List.length).foldr max 0

/-- The counts of `n` for all positions of the longest sequence. -/
def positionTable (ts : List (List String)) (n : String) : List Nat := (List.range (longest ts)).map (atPosition ts n)

/-- The argument `events_to_ignore` as the code builds it: either absent (and the log has a trace), or with the trace
counts of the log. -/
def ProperIgnore {E : Type} [HasName E] (log : Log E) : Option IgnoredEvents → Prop
  | none => log.traces ≠ []
  | some g => g.ignored.Nodup ∧ g.tracesCounts = calculateEventsInEachTrace log

/-- The kept names of the log. -/
def keptOf {E : Type} [HasName E] (log : Log E) (ign : Option IgnoredEvents) : List (List String) := log.evs.map (kept (ignoredNames ign))

end Ficus.Spec
