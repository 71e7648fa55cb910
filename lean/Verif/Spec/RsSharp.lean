import Verif.Model.RsSharp
import Verif.Spec.RsNfcNets

/-! What alpha sharp should find. -/

namespace Ficus.Spec.Sharp
open Rs Rs.Sharp

/-- `b` comes directly after `a`, and not the other way round or they form triangles both ways. -/
def Leads (log : List (List String)) (a b : String) : Prop :=
  Directly log a b ∧ (¬ Directly log b a ∨ (Triangle log a b ∧ Triangle log b a))

/-- Each comes directly after the other, but not in triangles both ways. -/
def Together (log : List (List String)) (a b : String) : Prop :=
  Directly log a b ∧ Directly log b a ∧ ¬ (Triangle log a b ∧ Triangle log b a)

/-- `a` leads to `b`, and there is room for an invisible task between them: `a` leads to some `x` and some `y` to `b` although `x` never
comes directly after `y`, `x` does not go together with `b` and `y` not with `a`. -/
def Advanced (log : List (List String)) (a b : String) : Prop :=
  Leads log a b ∧ ∃ x y, Leads log a x ∧ Leads log y b ∧ ¬ Directly log y x ∧ ¬ Together log x b ∧ ¬ Together log a y

/-- There are other classes `c` and `d` that say the same. -/
def Redundant (log : List (List String)) (a b : String) : Prop :=
  ∃ c d, c ≠ a ∧ d ≠ b ∧ Leads log c d ∧ Advanced log a d ∧ Advanced log c b

/-- A tuple is valid: the first classes of its input are in the advanced relation to the last of its output, the others do not go
together, and those of different pairs of a side do. -/
def Valid (log : List (List String)) (t : Tuple) : Prop :=
  (∀ i ∈ t.pin, ∀ o ∈ t.pout, (∀ a ∈ i.1, ∀ b ∈ o.2, Advanced log a b) ∧ ∀ x ∈ i.2, ∀ y ∈ o.1, ¬ Together log x y) ∧
  t.pin.Pairwise (fun s u => ∃ a ∈ s.1, ∃ b ∈ u.1, Together log a b) ∧
  t.pout.Pairwise (fun s u => ∃ a ∈ s.2, ∃ b ∈ u.2, Together log a b)

/-- A tuple in which the second set of each pair is the first once more. -/
def Doubled (t : Tuple) : Prop := ∀ s ∈ t.pin ++ t.pout, s.2 = s.1

/-- The tuple with the pairs of both. -/
def Union (m s t : Tuple) : Prop :=
  m.pin.Nodup ∧ m.pout.Nodup ∧ (∀ x, x ∈ m.pin ↔ x ∈ s.pin ∨ x ∈ t.pin) ∧ ∀ x, x ∈ m.pout ↔ x ∈ s.pout ∨ x ∈ t.pout

end Ficus.Spec.Sharp
