import Verif.Model.Extract
import Verif.Spec.Activity

/-! Specification of instance lists: intervals of positions of a trace. -/

namespace Ficus.Spec

/-- The interval (start, length) of an instance. -/
def span (i : Instance) : Nat × Nat := (i.startPos, i.length)

/-- The intervals are non-empty, inside `[0, n)`, ordered and pairwise disjoint. -/
def WellPlaced (n : Nat) (l : List (Nat × Nat)) : Prop :=
  (∀ p ∈ l, 0 < p.2 ∧ p.1 + p.2 ≤ n) ∧ l.Pairwise (fun p q => p.1 + p.2 ≤ q.1)

/-- The position is inside one of the intervals. -/
def Covered (l : List (Nat × Nat)) (i : Nat) : Prop := ∃ p ∈ l, p.1 ≤ i ∧ i < p.1 + p.2

/-- The hashes of the classes of a sequence of events. -/
def classHashes {E : Type} (ext : E → String) (t : List E) : List Int := t.map (fun e => stringHash (ext e))

/-- Some activity of the family contains all the given events. -/
def Known {α : Type} (family : List (List α)) (es : List α) : Prop := ∃ s ∈ family, ∀ e ∈ es, e ∈ s

/-- The greedy segmentation of a word with respect to a family of event sets: the intervals are well placed, a position
is covered exactly if its event is known, some set contains all events of an interval, and no set contains these and the
next event. -/
structure Greedy {α : Type} (family : List (List α)) (t : List α) (l : List (Nat × Nat)) : Prop where
  placed : WellPlaced t.length l
  cover : ∀ i e, t[i]? = some e → (Covered l i ↔ Known family [e])
  known : ∀ p ∈ l, Known family ((t.drop p.1).take p.2)
  maximal : ∀ p ∈ l, ∀ e, t[p.1 + p.2]? = some e → ¬ Known family ((t.drop p.1).take p.2 ++ [e])

end Ficus.Spec
