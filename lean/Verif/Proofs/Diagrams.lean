import Verif.Spec.Diagrams
import Verif.Proofs.Nets
import Mathlib.Algebra.Order.Ring.Nat
import Mathlib.Algebra.Order.Ring.Unbundled.Rat
import Mathlib.Algebra.Order.Ring.Rat
import Mathlib.Algebra.BigOperators.Group.List.Basic
import Mathlib.Algebra.Order.BigOperators.Group.List
import Mathlib.Tactic.Linarith
import Mathlib.Tactic.Ring

/-! Geometry of rows of adjacent rectangles. -/

namespace Ficus
open Spec

section Geometry
variable {K : Type} [Semiring K] [LinearOrder K] [IsStrictOrderedRing K]

/-- A row of adjacent rectangles. -/
def layRow (x y h : K) : List (K × String) → List (Rect K)
  | [] => []
  | (w, c) :: s => { x := x, y := y, w := w, h := h, color := c } :: layRow (x + w) y h s

/-- Rows on top of each other. -/
def layRows (x y h : K) : List (List (K × String)) → List (Rect K)
  | [] => []
  | s :: ss => layRow x y h s ++ layRows x (y + h) h ss

theorem hits_append (a b : List (Rect K)) (px py : K) : hits (a ++ b) px py = hits a px py ++ hits b px py := by
  simp [hits]

theorem has_iff (px py : K) (r : Rect K) :
    Has px py r = true ↔ r.x ≤ px ∧ px < r.x + r.w ∧ r.y ≤ py ∧ py < r.y + r.h := by
  simp [Has, and_assoc]

/-- The sum of the first widths. -/
def widthBefore (s : List (K × String)) (j : Nat) : K := ((s.take j).map Prod.fst).sum

theorem layRow_mem (x y h : K) (s : List (K × String)) (r : Rect K) : r ∈ layRow x y h s ↔
    ∃ j w c, s[j]? = some (w, c) ∧ r = { x := x + widthBefore s j, y := y, w := w, h := h, color := c } := by
  induction s generalizing x with
  | nil => simp [layRow]
  | cons a s ih =>
    obtain ⟨w, c⟩ := a
    rw [layRow, List.mem_cons, ih]
    constructor
    · rintro (h | ⟨j, w', c', h1, h2⟩)
      · exact ⟨0, w, c, rfl, by rw [h]; simp [widthBefore]⟩
      · exact ⟨j + 1, w', c', by simpa using h1, by rw [h2]; simp [widthBefore, add_assoc]⟩
    · rintro ⟨j, w', c', h1, h2⟩
      cases j with
      | zero =>
        simp only [List.getElem?_cons_zero, Option.some.injEq, Prod.mk.injEq] at h1
        left
        rw [h2, h1.1, h1.2]
        simp [widthBefore]
      | succ j =>
        right
        exact ⟨j, w', c', by simpa using h1, by rw [h2]; simp [widthBefore, add_assoc]⟩

theorem widthBefore_nonneg (s : List (K × String)) (hs : ∀ p ∈ s, 0 ≤ p.1) (j : Nat) : 0 ≤ widthBefore s j := by
  unfold widthBefore
  apply List.sum_nonneg
  intro w hw
  obtain ⟨p, hp, rfl⟩ := List.mem_map.1 hw
  exact hs p (List.mem_of_mem_take hp)

theorem hits_layRow_left (x y h px py : K) (s : List (K × String)) (hs : ∀ p ∈ s, 0 ≤ p.1) (hp : px < x) :
    hits (layRow x y h s) px py = [] := by
  unfold hits
  rw [List.filter_eq_nil_iff]
  intro r hr hh
  rw [has_iff] at hh
  obtain ⟨j, w, c, _, rfl⟩ := (layRow_mem x y h s r).1 hr
  have := widthBefore_nonneg s hs j
  have h1 : x ≤ x + widthBefore s j := le_add_of_nonneg_right this
  exact absurd hp (not_lt.2 (h1.trans hh.1))

theorem hits_layRow_outside (x y h px py : K) (s : List (K × String)) (hp : py < y ∨ y + h ≤ py) :
    hits (layRow x y h s) px py = [] := by
  unfold hits
  rw [List.filter_eq_nil_iff]
  intro r hr hh
  rw [has_iff] at hh
  obtain ⟨j, w, c, _, rfl⟩ := (layRow_mem x y h s r).1 hr
  rcases hp with hp | hp
  · exact absurd hp (not_lt.2 hh.2.2.1)
  · exact absurd hp (not_le.2 hh.2.2.2)

theorem hits_layRow (x y h px py w : K) (c : String) (s : List (K × String)) (hs : ∀ p ∈ s, 0 ≤ p.1) (j : Nat)
    (hj : s[j]? = some (w, c)) (h1 : x + widthBefore s j ≤ px) (h2 : px < x + widthBefore s j + w) (h3 : y ≤ py)
    (h4 : py < y + h) :
    hits (layRow x y h s) px py = [{ x := x + widthBefore s j, y := y, w := w, h := h, color := c }] := by
  induction s generalizing x j with
  | nil => simp at hj
  | cons a s ih =>
    obtain ⟨w', c'⟩ := a
    have hs' : ∀ p ∈ s, 0 ≤ p.1 := fun p hp => hs p (by simp [hp])
    have hw' : 0 ≤ w' := hs (w', c') (by simp)
    cases j with
    | zero =>
      simp only [List.getElem?_cons_zero, Option.some.injEq, Prod.mk.injEq] at hj
      obtain ⟨rfl, rfl⟩ := hj
      simp only [widthBefore, List.take_zero, List.map_nil, List.sum_nil, add_zero] at h1 h2 ⊢
      rw [layRow, show ∀ (r : Rect K) l, hits (r :: l) px py = if Has px py r then r :: hits l px py else hits l px py
        from fun r l => by simp [hits, List.filter_cons], if_pos ((has_iff _ _ _).2 ⟨h1, h2, h3, h4⟩),
        hits_layRow_left _ _ _ _ _ _ hs' h2]
    | succ j =>
      have e : widthBefore ((w', c') :: s) (j + 1) = w' + widthBefore s j := by simp [widthBefore]
      rw [e, ← add_assoc] at h1 h2
      rw [layRow, show ∀ (r : Rect K) l, hits (r :: l) px py = if Has px py r then r :: hits l px py else hits l px py
        from fun r l => by simp [hits, List.filter_cons], if_neg, ih (x + w') hs' j (by simpa using hj) h1 h2, e, add_assoc]
      intro hh
      rw [has_iff] at hh
      have := widthBefore_nonneg s hs' j
      exact absurd hh.2.1 (not_lt.2 ((le_add_of_nonneg_right this).trans h1))

theorem layRows_mem (x y h : K) (ss : List (List (K × String))) (r : Rect K) : r ∈ layRows x y h ss ↔
    ∃ (k : Nat) (s : List (K × String)) (j : Nat) (w : K) (c : String), ss[k]? = some s ∧ s[j]? = some (w, c) ∧
      r = { x := x + widthBefore s j, y := y + k * h, w := w, h := h, color := c } := by
  induction ss generalizing y with
  | nil => simp [layRows]
  | cons s ss ih =>
    rw [layRows, List.mem_append, layRow_mem, ih]
    constructor
    · rintro (⟨j, w, c, h1, h2⟩ | ⟨k, s', j, w, c, h1, h2, h3⟩)
      · exact ⟨0, s, j, w, c, rfl, h1, by rw [h2]; simp⟩
      · exact ⟨k + 1, s', j, w, c, by simpa using h1, h2, by
          rw [h3]; simp only [Nat.cast_add, Nat.cast_one, add_mul, one_mul]; rw [add_assoc, add_comm h]⟩
    · rintro ⟨k, s', j, w, c, h1, h2, h3⟩
      cases k with
      | zero =>
        simp only [List.getElem?_cons_zero, Option.some.injEq] at h1
        subst h1
        left
        exact ⟨j, w, c, h2, by rw [h3]; simp⟩
      | succ k =>
        right
        exact ⟨k, s', j, w, c, by simpa using h1, h2, by
          rw [h3]; simp only [Nat.cast_add, Nat.cast_one, add_mul, one_mul]; rw [add_assoc, add_comm h]⟩

theorem hits_layRows_below (x y h px py : K) (ss : List (List (K × String))) (hh : 0 ≤ h) (hp : py < y) :
    hits (layRows x y h ss) px py = [] := by
  induction ss generalizing y with
  | nil => rfl
  | cons s ss ih =>
    rw [layRows, hits_append, hits_layRow_outside _ _ _ _ _ _ (Or.inl hp), ih (y + h) (lt_of_lt_of_le hp (le_add_of_nonneg_right hh))]
    rfl

/-- The rectangle that contains a point of a cell is the rectangle of this cell, and there is no other. -/
theorem hits_layRows (x y h px py w : K) (c : String) (ss : List (List (K × String)))
    (hs : ∀ s ∈ ss, ∀ p ∈ s, 0 ≤ p.1) (hh : 0 ≤ h) (k : Nat) (s : List (K × String)) (j : Nat)
    (hk : ss[k]? = some s) (hj : s[j]? = some (w, c)) (h1 : x + widthBefore s j ≤ px)
    (h2 : px < x + widthBefore s j + w) (h3 : y + k * h ≤ py) (h4 : py < y + k * h + h) :
    hits (layRows x y h ss) px py = [{ x := x + widthBefore s j, y := y + k * h, w := w, h := h, color := c }] := by
  induction ss generalizing y k with
  | nil => simp at hk
  | cons s' ss ih =>
    rw [layRows, hits_append]
    cases k with
    | zero =>
      simp only [List.getElem?_cons_zero, Option.some.injEq] at hk
      subst hk
      simp only [Nat.cast_zero, zero_mul, add_zero] at h3 h4 ⊢
      rw [hits_layRow x y h px py w c s' (hs s' (by simp)) j hj h1 h2 h3 h4, hits_layRows_below _ _ _ _ _ _ hh h4]
      rfl
    | succ k =>
      have e : y + ((k + 1 : Nat) : K) * h = y + h + k * h := by
        simp only [Nat.cast_add, Nat.cast_one, add_mul, one_mul]
        rw [add_assoc, add_comm h]
      rw [e] at h3 h4 ⊢
      have hk0 : (0 : K) ≤ k * h := mul_nonneg (Nat.cast_nonneg k) hh
      rw [hits_layRow_outside _ _ _ _ _ _ (Or.inr ((le_add_of_nonneg_right hk0).trans h3)),
        ih (y + h) (fun s hs' => hs s (by simp [hs'])) k (by simpa using hk) h3 h4]
      rfl

/-- A point that is in no cell is in no rectangle. -/
theorem hits_layRows_none (x y h px py : K) (ss : List (List (K × String)))
    (hn : ∀ (k : Nat) (s : List (K × String)) (j : Nat) (w : K) (c : String), ss[k]? = some s → s[j]? = some (w, c) →
      ¬ (x + widthBefore s j ≤ px ∧ px < x + widthBefore s j + w ∧ y + k * h ≤ py ∧ py < y + k * h + h)) :
    hits (layRows x y h ss) px py = [] := by
  unfold hits
  rw [List.filter_eq_nil_iff]
  intro r hr hh
  rw [has_iff] at hh
  obtain ⟨k, s, j, w, c, h1, h2, rfl⟩ := (layRows_mem x y h ss r).1 hr
  exact hn k s j w c h1 h2 hh

theorem colorAt_single {rs : List (Rect K)} {px py : K} {r : Rect K} (h : hits rs px py = [r]) :
    colorAt rs px py = some r.color := by
  unfold colorAt
  rw [h]
  rfl

end Geometry

end Ficus

namespace Ficus
open Spec

theorem pyMax_ok {l : List Nat} {m : Nat} (h : pyMax l = .ok m) : m ∈ l ∧ ∀ x ∈ l, x ≤ m := by
  cases l with
  | nil => simp [pyMax] at h
  | cons a l =>
    simp only [pyMax, Except.ok.injEq] at h
    subst h
    have key : ∀ (l : List Nat) (a : Nat), l.foldl max a ∈ a :: l ∧ ∀ x ∈ a :: l, x ≤ l.foldl max a := by
      intro l
      induction l with
      | nil => intro a; simp
      | cons b l ih =>
        intro a
        rw [List.foldl_cons]
        obtain ⟨h1, h2⟩ := ih (max a b)
        refine ⟨?_, ?_⟩
        · rcases List.mem_cons.1 h1 with h1 | h1
          · rw [h1]
            rcases max_choice a b with h | h <;> rw [h] <;> simp
          · simp [h1]
        · intro x hx
          have hm := h2 (max a b) (by simp)
          rcases List.mem_cons.1 hx with rfl | hx
          · exact (le_max_left _ _).trans hm
          · rcases List.mem_cons.1 hx with rfl | hx
            · exact (le_max_right _ _).trans hm
            · exact h2 x (by simp [hx])
    exact key l a

theorem pyMax_exists {l : List Nat} (h : l ≠ []) : ∃ m, pyMax l = .ok m := by
  cases l with
  | nil => exact absurd rfl h
  | cons a l => exact ⟨_, rfl⟩

theorem fills_append (a b : List CanvasOp) : fills (a ++ b) = fills a ++ fills b := by simp [fills]
theorem texts_append (a b : List CanvasOp) : texts (a ++ b) = texts a ++ texts b := by simp [texts]

theorem fills_canvasRow (ws hs y x : ℚ) (t : List CRect) :
    fills (canvasRow ws hs y t x) = layRow x y hs (t.map (fun c => ((c.length : ℚ) * ws, toHex c.color))) := by
  induction t generalizing x with
  | nil => rfl
  | cons c t ih =>
    rw [canvasRow, List.map_cons, layRow, ← ih]
    rfl

theorem fills_canvasRows (ws hs y : ℚ) (log : List (List CRect)) :
    fills (canvasRows ws hs log y) =
      layRows 21 y hs (log.map (List.map (fun c => ((c.length : ℚ) * ws, toHex c.color)))) := by
  induction log generalizing y with
  | nil => rfl
  | cons t ts ih => rw [canvasRows, fills_append, fills_canvasRow, ih, List.map_cons, layRows]

theorem texts_canvasRows (ws hs y : ℚ) (log : List (List CRect)) : texts (canvasRows ws hs log y) = [] := by
  have hrow : ∀ (t : List CRect) (x y : ℚ), texts (canvasRow ws hs y t x) = [] := by
    intro t
    induction t with
    | nil => intro x y; rfl
    | cons c t ih => intro x y; rw [canvasRow]; exact ih _ _
  induction log generalizing y with
  | nil => rfl
  | cons t ts ih => rw [canvasRows, texts_append, hrow, ih]; rfl

theorem fills_canvasLegend (width before : ℚ) (d : List (String × String)) (index : Nat) :
    fills (canvasLegend width before d index) = (d.zipIdx index).map (fun p =>
      { x := width / 3, y := before + 20 * p.2, w := 40, h := 20, color := p.1.2 }) := by
  induction d generalizing index with
  | nil => rfl
  | cons a d ih =>
    obtain ⟨n, c⟩ := a
    rw [canvasLegend, List.zipIdx_cons, List.map_cons, ← ih]
    rfl

theorem texts_canvasLegend (width before : ℚ) (d : List (String × String)) (index : Nat) :
    texts (canvasLegend width before d index) = d.map Prod.fst := by
  induction d generalizing index with
  | nil => rfl
  | cons a d ih =>
    obtain ⟨n, c⟩ := a
    rw [canvasLegend, List.map_cons, ← ih (index + 1)]
    rfl

theorem canvasColors_eq (log : List (List CRect)) :
    canvasColors log = log.flatten.foldl (fun (d : Dict String String) r => d.set r.name (toHex r.color)) [] := by
  unfold canvasColors
  rw [List.foldl_flatten]

theorem widthBefore_map {K : Type} [Semiring K] (t : List CRect) (w : K) (j : Nat) :
    widthBefore (t.map (fun c => ((c.length : K) * w, toHex c.color))) j = (total (t.take j) : K) * w := by
  unfold widthBefore total
  rw [← List.map_take, List.map_map]
  induction t.take j with
  | nil => simp
  | cons c l ih => simp only [List.map_cons, List.sum_cons, ih, Function.comp_apply, Nat.cast_add, add_mul]

theorem total_take_succ (t : List CRect) (j : Nat) (r : CRect) (h : t[j]? = some r) :
    total (t.take (j + 1)) = total (t.take j) + r.length := by
  unfold total
  rw [List.take_add_one, h]
  simp

theorem total_take_le (t : List CRect) (j : Nat) : total (t.take j) ≤ total t := by
  unfold total
  conv_rhs => rw [← List.take_append_drop j t, List.map_append, List.sum_append]
  exact Nat.le_add_right _ _

end Ficus
