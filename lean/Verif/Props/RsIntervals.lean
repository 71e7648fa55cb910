import Verif.Proofs.RsIntervals
import Mathlib.Data.Int.Order.Basic

/-! C168: the tree of intervals of the backend. -/

namespace Ficus.Rs.Itv
open Spec.Itv

variable {α δ : Type} [LinearOrder α] [DecidableEq δ]

/-- Four intervals; the last is a point. -/
def exIntervals : List (Interval Int Unit) := [⟨5, 6, none⟩, ⟨-5, 10, none⟩, ⟨0, 3, none⟩, ⟨6, 6, none⟩]

/-- Their tree. -/
def exTree : Tree Int Unit :=
  ⟨[⟨some 1, some 2, 5, [⟨-5, 10, none⟩, ⟨5, 6, none⟩]⟩, ⟨none, none, 0, [⟨0, 3, none⟩]⟩, ⟨none, none, 6, [⟨6, 6, none⟩]⟩],
    [-5, 10, 0, 3, 5, 6, 6, 6, 0, 3, 6, 6]⟩

theorem exTree_new : new 4 exIntervals = .tree exTree := by decide +kernel

/-- A tree is made of some intervals iff there is one and no interval ends before it begins. -/
theorem C168_tree_iff (intervals : List (Interval α δ)) :
    (∃ fuel t, new fuel intervals = .tree t) ↔ intervals ≠ [] ∧ ∀ x ∈ intervals, x.left ≤ x.right := by
  constructor
  · rintro ⟨fuel, t, h⟩
    exact valid_of_tree h
  · rintro ⟨he, hv⟩
    obtain ⟨t, ht⟩ := build_ends intervals.length [] [] [(none, intervals)] (by simp [load]) (by simpa using hv) (by simpa using he)
    exact ⟨_, t, ht⟩

example : exIntervals ≠ [] ∧ ∀ x ∈ exIntervals, x.left ≤ x.right := (C168_tree_iff _).mp ⟨4, exTree, exTree_new⟩

/-- It takes at most one round for each interval. -/
theorem C168_rounds (intervals : List (Interval α δ)) (he : intervals ≠ []) (hv : ∀ x ∈ intervals, x.left ≤ x.right) (fuel : Nat)
    (hf : intervals.length ≤ fuel) : ∃ t, new fuel intervals = .tree t :=
  build_ends fuel [] [] [(none, intervals)] (by simpa [load] using hf) (by simpa using hv) (by simpa using he)

example : ∃ t, new 4 exIntervals = .tree t := C168_rounds exIntervals (by decide) (by decide) 4 (by decide)

/-- No intervals: the first round panics. -/
theorem C168_panic_iff (intervals : List (Interval α δ)) : (∃ fuel, new fuel intervals = .panic) ↔ intervals = [] := by
  constructor
  · rintro ⟨fuel, h⟩
    by_contra he
    exact never_panics fuel [] [] [(none, intervals)] (by simpa using he) h
  · rintro rfl
    exact ⟨1, by rw [new, build]; simp [sortLeft]⟩

example : ∃ fuel, new fuel ([] : List (Interval Int Unit)) = .panic := (C168_panic_iff _).mpr rfl

/-- One interval that ends before it begins, and the loop never ends. -/
theorem C168_endless_iff (intervals : List (Interval α δ)) :
    (∀ fuel, new fuel intervals = .more) ↔ ∃ x ∈ intervals, x.right < x.left := by
  constructor
  · intro h
    by_contra hc
    have hv : ∀ x ∈ intervals, x.left ≤ x.right := fun x hx => not_lt.mp (fun hlt => hc ⟨x, hx, hlt⟩)
    by_cases he : intervals = []
    · subst he
      have := h 1
      rw [new, build] at this
      simp [sortLeft] at this
    · obtain ⟨t, ht⟩ := C168_rounds intervals he hv _ (Nat.le_refl _)
      rw [h] at ht
      cases ht
  · rintro ⟨x, hx, hlt⟩ fuel
    exact build_endless _ _ _ _ ⟨(none, intervals), by simp, x, hx, hlt⟩ (by simpa using List.ne_nil_of_mem hx)

example : ∀ fuel, new fuel ([⟨1, 2, none⟩, ⟨3, 0, none⟩] : List (Interval Int Unit)) = .more := (C168_endless_iff _).mpr ⟨⟨3, 0, none⟩, by decide⟩

/-- `search_overlaps_for_point`: exactly the intervals that contain the point, each once, ordered by the left ends. -/
theorem C168_point (it : Iter) {fuel : Nat} {intervals : List (Interval α δ)} {t : Tree α δ} (h : new fuel intervals = .tree t) (point : α) :
    ∃ r, t.forPoint it point = some r ∧ Found intervals r (fun x => x.left ≤ point ∧ point ≤ x.right) := by
  obtain ⟨r, e, m, d⟩ := tree_search (new_for (valid_of_tree h).2 h) point []
  unfold Tree.forPoint
  rw [e]
  exact ⟨_, rfl, ordered_found it (fun x => by rw [m]; simp) (d List.nodup_nil)⟩

example : exTree.forPoint .plain 6 = some [⟨-5, 10, none⟩, ⟨5, 6, none⟩, ⟨6, 6, none⟩] := by decide +kernel

/-- `search_overlaps_for_interval`: exactly the intervals that contain an element the creator of ranges gives. -/
theorem C168_range (it : Iter) {fuel : Nat} {intervals : List (Interval α δ)} {t : Tree α δ} (h : new fuel intervals = .tree t)
    (range : List α) : ∃ r, t.forRange it range = some r ∧ Found intervals r (fun x => ∃ y ∈ range, x.left ≤ y ∧ y ≤ x.right) :=
  range_spec it (new_for (valid_of_tree h).2 h) range

/-- With `left..right` on integers: the intervals that meet `left..right`, its end not included. -/
theorem C168_range_int (it : Iter) {fuel : Nat} {intervals : List (Interval Int δ)} {t : Tree Int δ} (h : new fuel intervals = .tree t)
    (left right : Int) : ∃ r, t.forRange it ((List.range (right - left).toNat).map (fun i : Nat => left + (i : Int))) = some r ∧
      Found intervals r (fun x => left < right ∧ x.left < right ∧ left ≤ x.right) := by
  obtain ⟨r, e, f⟩ := C168_range it h ((List.range (right - left).toNat).map (fun i : Nat => left + (i : Int)))
  refine ⟨r, e, fun x => ?_, f.once, f.sorted⟩
  rw [f.mem]
  refine and_congr_right (fun hx => ?_)
  have hv := (valid_of_tree h).2 x hx
  constructor
  · rintro ⟨y, hy, h1, h2⟩
    obtain ⟨i, hi, rfl⟩ := List.mem_map.mp hy
    have := List.mem_range.mp hi
    omega
  · rintro ⟨h1, h2, h3⟩
    refine ⟨max left x.left, List.mem_map.mpr ⟨(max left x.left - left).toNat, List.mem_range.mpr (by omega), by omega⟩, by omega, by omega⟩

example : exTree.forRange .plain [1, 2, 3, 4] = some [⟨-5, 10, none⟩, ⟨0, 3, none⟩] ∧
    exTree.forRange .plain [5] = some [⟨-5, 10, none⟩, ⟨5, 6, none⟩] := by decide +kernel

/-- `search_envelopes` with a left end that is not before the right one gives nothing, also where a point is asked for. -/
theorem C168_envelopes_empty (it : Iter) (binarySearch : List α → α → Nat) (t : Tree α δ) (left right : α) (h : right ≤ left) :
    t.envelopes it binarySearch left right = some [] := by
  unfold Tree.envelopes
  rw [if_pos h]

example : exTree.envelopes .plain firstPosition 6 6 = some [] := C168_envelopes_empty _ _ _ 6 6 (by decide)

/-- `search_envelopes`, whichever positions the binary search gives: no panic, only intervals inside `left` to `right`, each once and
ordered, and all of them but perhaps points at the right end. -/
theorem C168_envelopes (it : Iter) {binarySearch : List α → α → Nat} (hb : BinarySearch binarySearch) {fuel : Nat}
    {intervals : List (Interval α δ)} {t : Tree α δ} (h : new fuel intervals = .tree t) {left right : α} (hlr : left < right) :
    ∃ r, t.envelopes it binarySearch left right = some r ∧
      (∀ x ∈ r, x ∈ intervals ∧ left ≤ x.left ∧ x.right ≤ right) ∧
      (∀ x ∈ intervals, left ≤ x.left → x.right ≤ right → x.left ≠ right → x ∈ r) ∧
      r.Nodup ∧ r.Pairwise (fun x y => x.left ≤ y.left) := by
  obtain ⟨r, e, P, f, hP⟩ := envelopes_spec it hb (new_for (valid_of_tree h).2 h) (valid_of_tree h).2 hlr
  refine ⟨r, e, fun x hx => ?_, fun x hx h1 h2 h3 => (f.mem x).mpr ⟨hx, h1, h2, hP x hx h3 h2 h1⟩, f.once, f.sorted⟩
  obtain ⟨h1, h2, h3, _⟩ := (f.mem x).mp hx
  exact ⟨h1, h2, h3⟩

example : BinarySearch (firstPosition (α := Int)) ∧ exTree.envelopes .plain firstPosition 0 6 = some [⟨0, 3, none⟩, ⟨5, 6, none⟩] :=
  ⟨firstPosition_spec, by decide +kernel⟩

/-- A point at the right end: found or not, as the binary search likes. -/
theorem C168_envelopes_point_at_the_end : ∃ (s₁ s₂ : List Int → Int → Nat), BinarySearch s₁ ∧ BinarySearch s₂ ∧
    ∃ (intervals : List (Interval Int Unit)) (t : Tree Int Unit), new 4 intervals = .tree t ∧
      ⟨6, 6, none⟩ ∈ intervals ∧
      (∃ r, t.envelopes .plain s₁ 0 6 = some r ∧ ⟨6, 6, none⟩ ∉ r) ∧ ∃ r, t.envelopes .plain s₂ 0 6 = some r ∧ ⟨6, 6, none⟩ ∈ r :=
  ⟨firstPosition, lastPosition, firstPosition_spec, lastPosition_spec, exIntervals, exTree, exTree_new, by decide,
    ⟨[⟨0, 3, none⟩, ⟨5, 6, none⟩], by decide +kernel, by decide⟩,
    ⟨[⟨0, 3, none⟩, ⟨5, 6, none⟩, ⟨6, 6, none⟩], by decide +kernel, by decide⟩⟩

end Ficus.Rs.Itv
