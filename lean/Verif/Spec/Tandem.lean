import Mathlib.Data.List.Basic
import Mathlib.Data.Set.Function
import Verif.Spec.Hash

/-! Specification of tandem arrays as powers of words, independent of the search. -/

namespace Ficus.Spec
variable {α : Type}

/-- The factor of `t` that starts at `i` and has length `l`. -/
def factor (t : List α) (i l : Nat) : List α := (t.drop i).take l

/-- The word `w` repeated `k` times. -/
def wordPow (w : List α) (k : Nat) : List α := (List.replicate k w).flatten

/-- At position `i` of `t` there are `k` equal consecutive blocks of length `l`, all inside `t`. -/
def Repeats (t : List α) (i l k : Nat) : Prop :=
  i + k * l ≤ t.length ∧ factor t i (k * l) = wordPow (factor t i l) k

/-- `i` is the first position at which the factor of length `l` at `i` occurs. -/
def FirstOccurrence (t : List α) (i l : Nat) : Prop :=
  ∀ j < i, factor t j l ≠ factor t i l

/-- A word is primitive: not a proper power of another word. -/
def Primitive (w : List α) : Prop := ∀ u k, 2 ≤ k → w ≠ wordPow u k

/-- The polynomial hash of a word of event hashes. -/
def windowHash (w : List Int) : Int := (1 + poly31 (w.map (fun x => 1 + x))) % 1000000007

/-- The polynomial hash distinguishes the factors of `t`. -/
def FaithfulHash (t : List Int) : Prop :=
  ∀ i l j m, i + l ≤ t.length → j + m ≤ t.length →
    windowHash (factor t i l) = windowHash (factor t j m) → factor t i l = factor t j m

end Ficus.Spec
