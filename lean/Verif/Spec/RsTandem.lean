import Verif.Spec.Tandem
import Verif.Model.Tandem
import Verif.Spec.RsMutations
import Mathlib.Data.Nat.Find

/-! Specification of the reports of tandem arrays as a list. -/

namespace Ficus.Spec
variable {α : Type} [DecidableEq α]

instance repeatsDecidable (t : List α) (i l k : Nat) : Decidable (Repeats t i l k) := by
  unfold Repeats; infer_instance

instance firstOccurrenceDecidable (t : List α) (i l : Nat) : Decidable (FirstOccurrence t i l) := by
  unfold FirstOccurrence; infer_instance

/-- The tandem arrays of `t` with blocks of at least two and less than `maxLength` elements that start at the first
occurrence of their block, each with the greatest number of repetitions; by the length of the block, then by the start. -/
def firstTandems (t : List α) (maxLength : Nat) : List Tandem :=
  (List.range maxLength).flatMap (fun l => (List.range t.length).filterMap (fun i =>
    if 2 ≤ l ∧ Repeats t i l 2 ∧ FirstOccurrence t i l then
      some ⟨i, l, Nat.findGreatest (fun k => Repeats t i l k) t.length⟩
    else none))

/-- No square of a word of 2 to half of the length (rounded up) of an array starts where the array starts. -/
def NoInnerSquare (t : List α) (a : Tandem) : Prop :=
  ∀ m, 2 ≤ m → m ≤ (a.length + 1) / 2 → ¬ Repeats t a.firstPos m 2

instance (t : List α) (a : Tandem) : Decidable (NoInnerSquare t a) :=
  decidable_of_iff (∀ m < (a.length + 1) / 2 + 1, 2 ≤ m → ¬ Repeats t a.firstPos m 2)
    ⟨fun h m h1 h2 => h m (by omega) h1, fun h m h1 h2 => h m h2 (by omega)⟩

/-- The classes of the events of a log: their names, or for an expression of classes what `classOf` says. -/
def classLog {P : Type} (find : Option (String → Option (Option (Nat × Nat)))) (log : List (List (Rs.REvent P))) :
    List (List String) :=
  log.map (fun t => t.map (fun e => match find with | some f => classOf f e.name | none => e.name))

/-- A hash of words is defined on all factors of `t` and tells them apart. -/
def TellsFactors {β : Type} (hash : List β → Option Nat) (t : List β) : Prop :=
  (∀ i l, i + l ≤ t.length → hash (factor t i l) ≠ none) ∧
  ∀ i l j m, i + l ≤ t.length → j + m ≤ t.length → hash (factor t i l) = hash (factor t j m) → factor t i l = factor t j m

end Ficus.Spec
