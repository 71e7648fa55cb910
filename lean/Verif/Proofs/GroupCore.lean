import Verif.Spec.RsHeuristic
import Mathlib.Tactic

/-! The rounds of the maximization of groups, on finite sets. -/

namespace Ficus.Rs.Groups
open Spec

variable {F : String → Prop} {R : String → String → Prop}

abbrev S' := Finset String

theorem group_of_subset {p q : S'} (hq : Group F R q) (h : p ⊆ q) (h2 : 2 ≤ p.card) : Group F R p :=
  ⟨h2, fun b hb => hq.among b (h hb), fun b hb c hc => hq.related b (h hb) c (h hc)⟩

/-- The elements after a round. -/
def Next (F : String → Prop) (R : String → String → Prop) (S : S' → Prop) (z : S') : Prop :=
  (∃ p q, S p ∧ S q ∧ p ≠ q ∧ Group F R (p ∪ q) ∧ z = p ∪ q) ∨ (S z ∧ ∀ q, S q → q ≠ z → ¬ Group F R (z ∪ q))

/-- The invariant after `t` rounds. -/
structure Inv (F : String → Prop) (R : String → String → Prop) (t : Nat) (S : S' → Prop) : Prop where
  valid : ∀ p, S p → Group F R p
  all : ∀ p, Group F R p → p.card = t + 2 → S p
  big : ∀ p, MaximalGroup F R p → p.card ≤ t + 2 → S p
  rest : ∀ p, S p → t + 2 ≤ p.card ∨ MaximalGroup F R p

theorem maximal_left {p q : S'} (hp : MaximalGroup F R p) (h : Group F R (p ∪ q)) : p ∪ q = p := hp.2 _ h Finset.subset_union_left

theorem maximal_right {p q : S'} (hq : MaximalGroup F R q) (h : Group F R (p ∪ q)) : p ∪ q = q := hq.2 _ h Finset.subset_union_right

theorem merges_of_not_maximal {t : Nat} {S : S' → Prop} (h : Inv F R t S) {p : S'} (hp : S p) (hm : ¬ MaximalGroup F R p) :
    ∃ q, S q ∧ q ≠ p ∧ Group F R (p ∪ q) := by
  have hv := h.valid p hp
  have hs : t + 2 ≤ p.card := (h.rest p hp).resolve_right hm
  by_cases he : p.card = t + 2
  · unfold MaximalGroup at hm
    push Not at hm
    obtain ⟨q, hq, hsub, hne⟩ := hm hv
    obtain ⟨y, hy, hyp⟩ := Finset.not_subset.mp (fun h => hne (Finset.Subset.antisymm h hsub))
    obtain ⟨x, hx⟩ := Finset.card_pos.mp (by omega : 0 < p.card)
    have hi : insert y (p.erase x) ⊆ q := Finset.insert_subset hy ((Finset.erase_subset _ _).trans hsub)
    have hc : (insert y (p.erase x)).card = t + 2 := by
      rw [Finset.card_insert_of_notMem (fun h => hyp (Finset.mem_of_mem_erase h)), Finset.card_erase_of_mem hx]; omega
    refine ⟨insert y (p.erase x), h.all _ (group_of_subset hq hi (by omega)) hc, ?_, ?_⟩
    · intro h'; exact hyp (h' ▸ Finset.mem_insert_self _ _)
    · exact group_of_subset hq (Finset.union_subset hsub hi) (hv.two.trans (Finset.card_le_card Finset.subset_union_left))
  · obtain ⟨q, hsub, hc⟩ := Finset.exists_subset_card_eq (s := p) (n := t + 2) hs
    refine ⟨q, h.all q (group_of_subset hv hsub (by omega)) hc, ?_, ?_⟩
    · rintro rfl; omega
    · rw [Finset.union_eq_left.mpr hsub]; exact hv

theorem next_inv {t : Nat} {S : S' → Prop} (h : Inv F R t S) : Inv F R (t + 1) (Next F R S) := by
  have hall : ∀ p, Group F R p → p.card = t + 1 + 2 → Next F R S p := by
    intro p hp hs
    obtain ⟨x, hx, y, hy, hxy⟩ := Finset.one_lt_card.mp (by omega : 1 < p.card)
    have e1 : (p.erase x).card = t + 2 := by rw [Finset.card_erase_of_mem hx]; omega
    have e2 : (p.erase y).card = t + 2 := by rw [Finset.card_erase_of_mem hy]; omega
    have hu : p.erase x ∪ p.erase y = p := by
      ext z
      simp only [Finset.mem_union, Finset.mem_erase]
      constructor
      · rintro (h | h) <;> exact h.2
      · intro hz
        by_cases hzx : z = x
        · exact Or.inr ⟨by rw [hzx]; exact hxy, hz⟩
        · exact Or.inl ⟨hzx, hz⟩
    refine Or.inl ⟨p.erase x, p.erase y, h.all _ (group_of_subset hp (Finset.erase_subset _ _) (by omega)) e1,
      h.all _ (group_of_subset hp (Finset.erase_subset _ _) (by omega)) e2, ?_, by rw [hu]; exact hp, hu.symm⟩
    intro he
    have : y ∈ p.erase x := Finset.mem_erase.mpr ⟨Ne.symm hxy, hy⟩
    rw [he] at this
    exact (Finset.mem_erase.mp this).1 rfl
  refine ⟨?_, hall, ?_, ?_⟩
  · rintro p (⟨q, r, _, _, _, hm, rfl⟩ | ⟨hp, _⟩)
    · exact hm
    · exact h.valid p hp
  · intro p hp hs
    by_cases he : p.card = t + 1 + 2
    · exact hall p hp.1 he
    · have hS := h.big p hp (by omega)
      by_cases hex : ∃ q, S q ∧ q ≠ p ∧ Group F R (p ∪ q)
      · obtain ⟨q, hq, hne, hm⟩ := hex
        exact Or.inl ⟨p, q, hS, hq, Ne.symm hne, hm, (maximal_left hp hm).symm⟩
      · exact Or.inr ⟨hS, fun q hq hne hm => hex ⟨q, hq, hne, hm⟩⟩
  · rintro p (⟨q, r, hq, hr, hne, hm, rfl⟩ | ⟨hp, hno⟩)
    · rcases h.rest q hq with sq | mq
      · rcases h.rest r hr with sr | mr
        · left
          by_contra hlt
          have e1 := Finset.eq_of_subset_of_card_le (Finset.subset_union_left : q ⊆ q ∪ r) (by omega)
          have e2 := Finset.eq_of_subset_of_card_le (Finset.subset_union_right : r ⊆ q ∪ r) (by omega)
          exact hne (e1.trans e2.symm)
        · right; rw [maximal_right mr hm]; exact mr
      · right; rw [maximal_left mq hm]; exact mq
    · right
      by_contra hnm
      obtain ⟨q, hq, hne, hm⟩ := merges_of_not_maximal h hp hnm
      exact hno q hq hne hm

/-- When nothing is merged any more the elements are the maximal groups. -/
theorem final_exact {t : Nat} {S : S' → Prop} (h : Inv F R t S) (hno : ∀ p q, S p → S q → p ≠ q → ¬ Group F R (p ∪ q)) (p : S') :
    S p ↔ MaximalGroup F R p := by
  have hmax : ∀ p, S p → MaximalGroup F R p := by
    intro p hp
    by_contra hnm
    obtain ⟨q, hq, hne, hm⟩ := merges_of_not_maximal h hp hnm
    exact hno p q hp hq (Ne.symm hne) hm
  refine ⟨hmax p, fun hp => ?_⟩
  by_cases hs : p.card ≤ t + 2
  · exact h.big p hp hs
  · obtain ⟨q, hsub, hc⟩ := Finset.exists_subset_card_eq (s := p) (n := t + 2) (by omega)
    have hqm := hmax q (h.all q (group_of_subset hp.1 hsub (by omega)) hc)
    have := hqm.2 p hp.1 hsub
    rw [this] at hs; omega

/-- After enough rounds nothing is merged. -/
theorem no_merge {t N : Nat} {S : S' → Prop} (h : Inv F R t S) (hN : ∀ p, Group F R p → p.card ≤ N) (ht : N < t + 2)
    (p q : S') (hp : S p) (hq : S q) (hne : p ≠ q) : ¬ Group F R (p ∪ q) := by
  intro hm
  have mp : MaximalGroup F R p := (h.rest p hp).resolve_left (by have := hN p (h.valid p hp); omega)
  have mq : MaximalGroup F R q := (h.rest q hq).resolve_left (by have := hN q (h.valid q hq); omega)
  exact hne ((maximal_left mp hm).symm.trans (maximal_right mq hm))

/-- The invariant holds for the pairs of related names. -/
theorem start_inv : Inv F R 0 (fun p => Group F R p ∧ p.card = 2) :=
  ⟨fun _ h => h.1, fun _ h hs => ⟨h, by omega⟩, fun p h hs => ⟨h.1, by have := h.1.two; omega⟩, fun p h => Or.inl (by omega)⟩

end Ficus.Rs.Groups
