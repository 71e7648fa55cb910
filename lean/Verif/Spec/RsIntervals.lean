import Verif.Model.RsIntervals

/-! What the tree of intervals should give. -/

namespace Ficus.Spec.Itv
open Rs.Itv

variable {α δ : Type} [LinearOrder α]

/-- The result of a search: each interval that is asked for once, ordered by the left ends. -/
structure Found (intervals result : List (Interval α δ)) (P : Interval α δ → Prop) : Prop where
  mem : ∀ x, x ∈ result ↔ x ∈ intervals ∧ P x
  once : result.Nodup
  sorted : result.Pairwise (fun x y => x.left ≤ y.left)

/-- What rust says about `binary_search` on a sorted list: any position of the element; if there is none, where it belongs. -/
def BinarySearch (search : List α → α → Nat) : Prop := ∀ l : List α, l.Pairwise (· ≤ ·) → ∀ x,
  (x ∈ l → l[search l x]? = some x) ∧ (x ∉ l → search l x = (l.filter (fun y => decide (y < x))).length)

end Ficus.Spec.Itv
