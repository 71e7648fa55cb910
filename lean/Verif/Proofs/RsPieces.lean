import Verif.Spec.RsInstances
import Mathlib.Data.List.Sort

/-! The pieces of a trace between and at activity instances. -/

namespace Ficus.Rs
open Spec

/-- Intervals inside `[k, n)`, ordered and disjoint. -/
structure PlacedFrom (k n : Nat) (l : List (Nat × Nat)) : Prop where
  le : k ≤ n
  each : ∀ p ∈ l, 0 < p.2 ∧ p.1 + p.2 ≤ n ∧ k ≤ p.1
  order : l.Pairwise (fun p q => p.1 + p.2 ≤ q.1)

theorem placedFrom_zero {n : Nat} {l : List (Nat × Nat)} (h : WellPlaced n l) : PlacedFrom 0 n l :=
  ⟨Nat.zero_le _, fun p hp => ⟨(h.1 p hp).1, (h.1 p hp).2, Nat.zero_le _⟩, h.2⟩

theorem PlacedFrom.tail {k n : Nat} {p : Nat × Nat} {l : List (Nat × Nat)} (h : PlacedFrom k n (p :: l)) :
    PlacedFrom (p.1 + p.2) n l := by
  refine ⟨(h.each p (by simp)).2.1, ?_, (List.pairwise_cons.1 h.order).2⟩
  intro q hq
  exact ⟨(h.each q (List.mem_cons_of_mem _ hq)).1, (h.each q (List.mem_cons_of_mem _ hq)).2.1, (List.pairwise_cons.1 h.order).1 q hq⟩

/-- The gaps from a position on. -/
def gapsFrom (k n : Nat) (l : List (Nat × Nat)) : List (Nat × Nat) :=
  (k :: l.map (fun p => p.1 + p.2)).zip (l.map Prod.fst ++ [n])

theorem gapsFrom_nil (k n : Nat) : gapsFrom k n [] = [(k, n)] := rfl

theorem gapsFrom_cons (k n : Nat) (p : Nat × Nat) (l : List (Nat × Nat)) :
    gapsFrom k n (p :: l) = (k, p.1) :: gapsFrom (p.1 + p.2) n l := rfl

theorem gapsFrom_ok {k n : Nat} {l : List (Nat × Nat)} (h : PlacedFrom k n l) :
    ∀ b ∈ gapsFrom k n l, k ≤ b.1 ∧ b.1 ≤ b.2 ∧ b.2 ≤ n := by
  induction l generalizing k with
  | nil =>
    intro b hb
    rw [gapsFrom_nil, List.mem_singleton] at hb
    subst hb
    exact ⟨Nat.le_refl _, h.le, Nat.le_refl _⟩
  | cons p l ih =>
    intro b hb
    rw [gapsFrom_cons, List.mem_cons] at hb
    have hp := h.each p (by simp)
    rcases hb with rfl | hb
    · exact ⟨Nat.le_refl _, hp.2.2, by simp only; omega⟩
    · have := ih h.tail b hb
      omega

theorem weave_nil_single {A : Type} (g : List A) : weave [g] [] = g := by simp [weave]

/-- What functions make of the pieces, in one list. -/
theorem pieces_mapM {B : Type} (F : Piece → Option (List B)) (fr : Nat → Nat → List B) (hd : RInstance → List B) (n k : Nat)
    (is : List RInstance) (h : PlacedFrom k n (is.map spanOf))
    (hf : ∀ a b, k ≤ a → a < b → b ≤ n → F (.free a b) = some (fr a b)) (hh : ∀ i ∈ is, F (.held i) = some (hd i)) :
    ∃ parts, (pieces n k is).mapM F = some parts ∧
      parts.flatten = weave ((gapsFrom k n (is.map spanOf)).map (fun b => if b.1 < b.2 then fr b.1 b.2 else [])) (is.map hd) := by
  induction is generalizing k with
  | nil =>
    unfold pieces
    rw [List.map_nil, gapsFrom_nil]
    by_cases hk : k < n
    · rw [if_pos hk]
      refine ⟨[fr k n], ?_, ?_⟩
      · rw [List.mapM_cons, hf k n (Nat.le_refl _) hk (Nat.le_refl _)]; rfl
      · simp [weave, hk]
    · rw [if_neg hk]
      exact ⟨[], rfl, by simp [weave, hk]⟩
  | cons i is ih =>
    have hi := h.each (spanOf i) (by simp)
    have ht := h.tail
    simp only [spanOf] at hi
    obtain ⟨parts, h1, h2⟩ := ih (i.startPos + i.length) ht (fun a b ha hab hb => hf a b (by omega) hab hb)
      (fun j hj => hh j (List.mem_cons_of_mem _ hj))
    have hhi := hh i (by simp)
    have e : pieces n k (i :: is) =
      (if k < i.startPos then [.free k i.startPos] else []) ++ .held i :: pieces n (i.startPos + i.length) is := rfl
    rw [e]
    have e2 : gapsFrom k n ((i :: is).map spanOf) =
      (k, i.startPos) :: gapsFrom (i.startPos + i.length) n (is.map spanOf) := rfl
    rw [e2]
    by_cases hk : k < i.startPos
    · rw [if_pos hk]
      refine ⟨fr k i.startPos :: hd i :: parts, ?_, ?_⟩
      · simp only [List.singleton_append, List.mapM_cons, hf k i.startPos (Nat.le_refl _) hk (by omega), hhi, h1]
        rfl
      · simp only [List.map_cons, weave, List.flatten_cons, h2, if_pos hk]
    · rw [if_neg hk]
      refine ⟨hd i :: parts, ?_, ?_⟩
      · simp only [List.nil_append, List.mapM_cons, hhi, h1]
        rfl
      · simp only [List.map_cons, weave, List.flatten_cons, h2, if_neg hk, List.nil_append]

theorem rangeOf_eq {A : Type} (t : List A) (a b : Nat) (hab : a ≤ b) (hb : b ≤ t.length) : rangeOf t a b = some (between t (a, b)) := by
  unfold rangeOf between slice
  by_cases h : a < b
  · rw [if_pos h, if_pos hb]
  · have : b - a = 0 := by omega
    simp [h, this]

theorem between_empty {A : Type} (t : List A) (b : Nat × Nat) (h : ¬ b.1 < b.2) : between t b = [] := by
  unfold between
  rw [Nat.sub_eq_zero_of_le (by omega)]
  simp

theorem between_ne_nil {A : Type} (t : List A) (b : Nat × Nat) (h : b.1 < b.2) (hb : b.2 ≤ t.length) : between t b ≠ [] := by
  intro hc
  have := congrArg List.length hc
  unfold between at this
  simp only [List.length_take, List.length_drop, List.length_nil] at this
  omega

/-- The gaps and the blocks make up the trace. -/
theorem weave_eq_drop {A : Type} (t : List A) (k : Nat) (l : List (Nat × Nat)) (h : PlacedFrom k t.length l) :
    weave ((gapsFrom k t.length l).map (between t)) (blocks t l) = t.drop k := by
  induction l generalizing k with
  | nil =>
    rw [gapsFrom_nil]
    simp only [List.map_cons, List.map_nil, blocks, weave, List.flatten_nil, List.append_nil, between]
    rw [List.take_of_length_le]
    simp
  | cons p l ih =>
    rw [gapsFrom_cons]
    have hp := h.each p (by simp)
    have e : blocks t (p :: l) = (t.drop p.1).take p.2 :: blocks t l := rfl
    rw [e]
    simp only [List.map_cons, weave]
    rw [ih (p.1 + p.2) h.tail]
    have e1 : (t.drop p.1).take p.2 ++ t.drop (p.1 + p.2) = t.drop p.1 := by
      rw [← List.drop_drop, List.take_append_drop]
    rw [e1]
    unfold between
    have e2 : t.drop p.1 = (t.drop k).drop (p.1 - k) := by rw [List.drop_drop]; congr 1; omega
    rw [e2, List.take_append_drop]

theorem gapBounds_eq (n : Nat) (l : List (Nat × Nat)) : gapBounds n l = gapsFrom 0 n l := rfl

theorem covered_cons (p : Nat × Nat) (l : List (Nat × Nat)) (i : Nat) :
    Covered (p :: l) i ↔ (p.1 ≤ i ∧ i < p.1 + p.2) ∨ Covered l i := by
  unfold Covered
  simp

theorem not_covered_below {k n : Nat} {l : List (Nat × Nat)} (h : PlacedFrom k n l) (i : Nat) (hi : i < k) : ¬ Covered l i := by
  rintro ⟨p, hp, h1, h2⟩
  have := (h.each p hp).2.2
  omega

open scoped Classical in
/-- The gaps are the outsideAll positions. -/
theorem gaps_uncovered {A : Type} (t : List A) (k : Nat) (l : List (Nat × Nat)) (h : PlacedFrom k t.length l) :
    (((t.drop k).zipIdx k).filter (fun x => decide (¬ Covered l x.2))).map Prod.fst =
      ((gapsFrom k t.length l).map (between t)).flatten := by
  induction l generalizing k with
  | nil =>
    have hnone : ∀ i, ¬ Covered ([] : List (Nat × Nat)) i := by rintro i ⟨p, hp, _⟩; cases hp
    rw [List.filter_eq_self.2 (fun x _ => by simpa using hnone x.2)]
    rw [gapsFrom_nil]
    simp only [List.map_cons, List.map_nil, List.flatten_cons, List.flatten_nil, List.append_nil, between]
    rw [List.take_of_length_le (by simp)]
    exact List.zipIdx_map_fst ..
  | cons p l ih =>
    have hp := h.each p (by simp)
    have ht := h.tail
    rw [gapsFrom_cons, List.map_cons, List.flatten_cons, ← ih (p.1 + p.2) ht]
    have hsplit : t.drop k = between t (k, p.1) ++ ((t.drop p.1).take p.2 ++ t.drop (p.1 + p.2)) := by
      have e1 : (t.drop p.1).take p.2 ++ t.drop (p.1 + p.2) = t.drop p.1 := by
        rw [← List.drop_drop, List.take_append_drop]
      rw [e1]
      unfold between
      have e2 : t.drop p.1 = (t.drop k).drop (p.1 - k) := by rw [List.drop_drop]; congr 1; omega
      rw [e2, List.take_append_drop]
    have l1 : (between t (k, p.1)).length = p.1 - k := by
      unfold between
      simp only [List.length_take, List.length_drop]
      omega
    have l2 : ((t.drop p.1).take p.2).length = p.2 := by
      simp only [List.length_take, List.length_drop]
      omega
    have hpos : ∀ (u : List A) (j : Nat) (x : A × Nat), x ∈ u.zipIdx j → j ≤ x.2 ∧ x.2 < j + u.length := by
      intro u j x hx
      exact ⟨List.le_snd_of_mem_zipIdx hx, List.snd_lt_add_of_mem_zipIdx hx⟩
    rw [hsplit, List.zipIdx_append, List.zipIdx_append, List.filter_append, List.filter_append, List.map_append, List.map_append, l1, l2]
    have ek : k + (p.1 - k) = p.1 := by omega
    rw [ek]
    have f1 : ((between t (k, p.1)).zipIdx k).filter (fun x => decide (¬ Covered (p :: l) x.2)) = (between t (k, p.1)).zipIdx k := by
      refine List.filter_eq_self.2 (fun x hx => ?_)
      have := hpos _ _ x hx
      rw [l1] at this
      rw [decide_eq_true_eq, covered_cons]
      rintro (hc | hc)
      · omega
      · exact not_covered_below ht x.2 (by omega) hc
    have f2 : (((t.drop p.1).take p.2).zipIdx p.1).filter (fun x => decide (¬ Covered (p :: l) x.2)) = [] := by
      refine List.filter_eq_nil_iff.2 (fun x hx => ?_)
      have := hpos _ _ x hx
      rw [l2] at this
      simp only [decide_eq_true_eq, covered_cons, not_not]
      exact Or.inl this
    have f3 : ((t.drop (p.1 + p.2)).zipIdx (p.1 + p.2)).filter (fun x => decide (¬ Covered (p :: l) x.2)) =
        ((t.drop (p.1 + p.2)).zipIdx (p.1 + p.2)).filter (fun x => decide (¬ Covered l x.2)) := by
      refine List.filter_congr (fun x hx => ?_)
      have := hpos _ _ x hx
      have e : Covered (p :: l) x.2 ↔ Covered l x.2 := by
        rw [covered_cons]
        constructor
        · rintro (hc | hc)
          · omega
          · exact hc
        · exact Or.inr
      simp only [e]
    rw [f1, f2, f3]
    simp only [List.map_nil, List.nil_append]
    congr 1
    exact List.zipIdx_map_fst ..

theorem uncovered_eq {A : Type} (t : List A) (l : List (Nat × Nat)) (h : WellPlaced t.length l) :
    outsideAll t l = ((gapBounds t.length l).map (between t)).flatten := by
  have := gaps_uncovered t 0 l (placedFrom_zero h)
  rw [List.drop_zero] at this
  exact this

/-- A list with strictly growing keys is the only one with growing keys among its permutations. -/
theorem eq_of_keys {A : Type} (key : A → Nat) : ∀ (u v : List A), u.Perm v → u.Pairwise (fun a b => key a ≤ key b) →
    v.Pairwise (fun a b => key a < key b) → u = v
  | [], v, hp, _, _ => by rw [List.nil_perm.1 hp]
  | x :: u, [], hp, _, _ => absurd hp (by simp)
  | x :: u, y :: v, hp, hu, hv => by
    have hu' := List.pairwise_cons.1 hu
    have hv' := List.pairwise_cons.1 hv
    have hxy : x = y := by
      by_contra hne
      have hx : x ∈ v := by
        have : x ∈ y :: v := hp.mem_iff.1 (by simp)
        exact (List.mem_cons.1 this).resolve_left hne
      have hy : y ∈ u := by
        have : y ∈ x :: u := hp.mem_iff.2 (by simp)
        exact (List.mem_cons.1 this).resolve_left (Ne.symm hne)
      have := hu'.1 y hy
      have := hv'.1 x hx
      omega
    subst hxy
    rw [eq_of_keys key u v (List.perm_cons x |>.1 hp) hu'.2 hv'.2]

end Ficus.Rs
