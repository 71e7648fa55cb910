import Verif.Spec.RsNet
import Verif.Model.RsNfcSets

/-! What it means that a computation of the alpha algorithms ends, and over which names its sets are. -/

namespace Ficus.Spec.Ends
open Rs Rs.Nfc

/-- The computation, given enough steps, ends with the result. -/
def EndsWith {α : Type} (f : Nat → Option α) (r : α) : Prop := ∃ n, ∀ fuel, n ≤ fuel → f fuel = some r

/-- The sides of a set are sorted and have only given names. -/
def Sides (names : List String) (x : ASet) : Prop :=
  x.left.Pairwise (· < ·) ∧ x.right.Pairwise (· < ·) ∧ (∀ a ∈ x.left, a ∈ names) ∧ ∀ a ∈ x.right, a ∈ names

/-- The sets of a triple are sorted and have only given names. -/
def Columns (names : List String) (x : Triple) : Prop :=
  x.a.Pairwise (· < ·) ∧ x.b.Pairwise (· < ·) ∧ x.c.Pairwise (· < ·) ∧ ∀ a, a ∈ x.a ∨ a ∈ x.b ∨ a ∈ x.c → a ∈ names

/-- An extended set over given names. -/
def Extended (names : List String) (x : ESet) : Prop :=
  Sides names x.base ∧ x.left.Pairwise (· < ·) ∧ x.right.Pairwise (· < ·) ∧ ∀ a, a ∈ x.left ∨ a ∈ x.right → a ∈ names

end Ficus.Spec.Ends
