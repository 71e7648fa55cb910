import Verif.Spec.RsAlpha
import Mathlib.Tactic

/-! The rounds of the maximization of the alpha algorithm, on pairs of finite sets. -/

namespace Ficus.Rs.Core
open Spec

abbrev P := Finset String × Finset String

/-- The union of two pairs. -/
def join (p q : P) : P := (p.1 ∪ q.1, p.2 ∪ q.2)

/-- Inclusion of pairs. -/
def Sub (p q : P) : Prop := p.1 ⊆ q.1 ∧ p.2 ⊆ q.2

def size (p : P) : Nat := p.1.card + p.2.card

variable {c u : String → String → Prop}

/-- When two pairs are merged. -/
def Mergeable (c u : String → String → Prop) (p q : P) : Prop := (p.1 ⊆ q.1 ∨ p.2 ⊆ q.2) ∧ IsPair c u (join p q)

/-- The elements after a round. -/
def Next (c u : String → String → Prop) (S : P → Prop) (z : P) : Prop :=
  (∃ p q, S p ∧ S q ∧ p ≠ q ∧ Mergeable c u p q ∧ z = join p q) ∨
  (S z ∧ ∀ q, S q → q ≠ z → ¬ Mergeable c u z q ∧ ¬ Mergeable c u q z)

/-- The invariant after `t` rounds. -/
structure Inv (c u : String → String → Prop) (t : Nat) (S : P → Prop) : Prop where
  valid : ∀ p, S p → IsPair c u p
  all : ∀ p, IsPair c u p → size p = t + 2 → S p
  big : ∀ p, MaximalPair c u p → size p ≤ t + 2 → S p
  rest : ∀ p, S p → t + 2 ≤ size p ∨ MaximalPair c u p

theorem Sub.size_le {p q : P} (h : Sub p q) : size p ≤ size q :=
  Nat.add_le_add (Finset.card_le_card h.1) (Finset.card_le_card h.2)

theorem Sub.eq_of_size {p q : P} (h : Sub p q) (hs : size q ≤ size p) : p = q := by
  have h1 := Finset.card_le_card h.1
  have h2 := Finset.card_le_card h.2
  unfold size at hs
  exact Prod.ext (Finset.eq_of_subset_of_card_le h.1 (by omega)) (Finset.eq_of_subset_of_card_le h.2 (by omega))

theorem sub_join_left (p q : P) : Sub p (join p q) := ⟨Finset.subset_union_left, Finset.subset_union_left⟩
theorem sub_join_right (p q : P) : Sub q (join p q) := ⟨Finset.subset_union_right, Finset.subset_union_right⟩

theorem pair_of_sub {p q : P} (hq : IsPair c u q) (h : Sub p q) (h1 : p.1.Nonempty) (h2 : p.2.Nonempty) : IsPair c u p :=
  ⟨h1, h2, fun a ha b hb => hq.causal a (h.1 ha) b (h.2 hb), fun a ha b hb => hq.leftUnrelated a (h.1 ha) b (h.1 hb),
    fun a ha b hb => hq.rightUnrelated a (h.2 ha) b (h.2 hb)⟩

theorem maximal_join_left {p q : P} (hp : MaximalPair c u p) (h : IsPair c u (join p q)) : join p q = p :=
  hp.2 _ h (sub_join_left p q).1 (sub_join_left p q).2

theorem maximal_join_right {p q : P} (hq : MaximalPair c u q) (h : IsPair c u (join p q)) : join p q = q :=
  hq.2 _ h (sub_join_right p q).1 (sub_join_right p q).2

theorem size_ge_two {p : P} (h : IsPair c u p) : 2 ≤ size p := by
  have h1 := Finset.card_pos.mpr h.left
  have h2 := Finset.card_pos.mpr h.right
  unfold size; omega

/-- A pair contains pairs of every smaller size. -/
theorem exists_sub {p : P} (hp : IsPair c u p) (k : Nat) (hk : 2 ≤ k) (hkp : k ≤ size p) :
    ∃ q, IsPair c u q ∧ Sub q p ∧ size q = k := by
  have h1 := Finset.card_pos.mpr hp.left
  have h2 := Finset.card_pos.mpr hp.right
  unfold size at hkp
  obtain ⟨A, hA, hAc⟩ := Finset.exists_subset_card_eq (s := p.1) (n := min (k - 1) p.1.card) (by omega)
  obtain ⟨B, hB, hBc⟩ := Finset.exists_subset_card_eq (s := p.2) (n := k - min (k - 1) p.1.card) (by omega)
  refine ⟨(A, B), pair_of_sub hp ⟨hA, hB⟩ (Finset.card_pos.mp (by simp only; omega)) (Finset.card_pos.mp (by simp only; omega)),
    ⟨hA, hB⟩, ?_⟩
  simp only [size]; omega

/-- A pair of more than two names is the union of two smaller ones that are merged. -/
theorem exists_split {p : P} (hp : IsPair c u p) (h3 : 3 ≤ size p) :
    ∃ q r, IsPair c u q ∧ IsPair c u r ∧ q ≠ r ∧ size q + 1 = size p ∧ size r + 1 = size p ∧ Mergeable c u q r ∧
      join q r = p := by
  have h1 := Finset.card_pos.mpr hp.left
  have h2 := Finset.card_pos.mpr hp.right
  by_cases hB : 2 ≤ p.2.card
  · obtain ⟨x, hx, y, hy, hxy⟩ := Finset.one_lt_card.mp (show 1 < p.2.card by omega)
    have hj : join (p.1, p.2.erase x) (p.1, p.2.erase y) = p := by
      refine Prod.ext (by simp [join]) ?_
      ext z
      simp only [join, Finset.mem_union, Finset.mem_erase]
      constructor
      · rintro (h | h) <;> exact h.2
      · intro hz
        by_cases hzx : z = x
        · exact Or.inr ⟨hzx ▸ hxy, hz⟩
        · exact Or.inl ⟨hzx, hz⟩
    have hcx := Finset.card_erase_of_mem hx
    have hcy := Finset.card_erase_of_mem hy
    refine ⟨(p.1, p.2.erase x), (p.1, p.2.erase y), ?_, ?_, ?_, ?_, ?_, ⟨Or.inl (Finset.Subset.refl _), by rw [hj]; exact hp⟩, hj⟩
    · exact pair_of_sub hp ⟨Finset.Subset.refl _, Finset.erase_subset _ _⟩ hp.left (Finset.card_pos.mp (by simp only; omega))
    · exact pair_of_sub hp ⟨Finset.Subset.refl _, Finset.erase_subset _ _⟩ hp.left (Finset.card_pos.mp (by simp only; omega))
    · intro h
      have h' := (Prod.mk.inj h).2
      have : x ∈ p.2.erase y := Finset.mem_erase.mpr ⟨hxy, hx⟩
      rw [← h'] at this
      exact (Finset.mem_erase.mp this).1 rfl
    · simp only [size]; omega
    · simp only [size]; omega
  · have hA : 2 ≤ p.1.card := by unfold size at h3; omega
    obtain ⟨x, hx, y, hy, hxy⟩ := Finset.one_lt_card.mp (show 1 < p.1.card by omega)
    have hj : join (p.1.erase x, p.2) (p.1.erase y, p.2) = p := by
      refine Prod.ext ?_ (by simp [join])
      ext z
      simp only [join, Finset.mem_union, Finset.mem_erase]
      constructor
      · rintro (h | h) <;> exact h.2
      · intro hz
        by_cases hzx : z = x
        · exact Or.inr ⟨hzx ▸ hxy, hz⟩
        · exact Or.inl ⟨hzx, hz⟩
    have hcx := Finset.card_erase_of_mem hx
    have hcy := Finset.card_erase_of_mem hy
    refine ⟨(p.1.erase x, p.2), (p.1.erase y, p.2), ?_, ?_, ?_, ?_, ?_, ⟨Or.inr (Finset.Subset.refl _), by rw [hj]; exact hp⟩, hj⟩
    · exact pair_of_sub hp ⟨Finset.erase_subset _ _, Finset.Subset.refl _⟩ (Finset.card_pos.mp (by simp only; omega)) hp.right
    · exact pair_of_sub hp ⟨Finset.erase_subset _ _, Finset.Subset.refl _⟩ (Finset.card_pos.mp (by simp only; omega)) hp.right
    · intro h
      have h' := (Prod.mk.inj h).1
      have : x ∈ p.1.erase y := Finset.mem_erase.mpr ⟨hxy, hx⟩
      rw [← h'] at this
      exact (Finset.mem_erase.mp this).1 rfl
    · simp only [size]; omega
    · simp only [size]; omega

/-- A pair that is not maximal can be exchanged with another one of its size, so that both are merged. -/
theorem exists_exchange {p : P} (hp : IsPair c u p) (hm : ¬ MaximalPair c u p) :
    ∃ q, IsPair c u q ∧ q ≠ p ∧ size q = size p ∧ Mergeable c u p q := by
  unfold MaximalPair at hm
  push Not at hm
  obtain ⟨q, hq, h1, h2, hne⟩ := hm hp
  by_cases hA : p.1 = q.1
  · have hB : ¬ q.2 ⊆ p.2 := fun h => hne (Prod.ext hA.symm (Finset.Subset.antisymm h h2))
    obtain ⟨y, hy, hyp⟩ := Finset.not_subset.mp hB
    obtain ⟨x, hx⟩ := hp.right
    have hsub : Sub (p.1, insert y (p.2.erase x)) q :=
      ⟨h1, Finset.insert_subset hy ((Finset.erase_subset _ _).trans h2)⟩
    have hc : (insert y (p.2.erase x)).card = p.2.card := by
      rw [Finset.card_insert_of_notMem (fun h => hyp (Finset.mem_of_mem_erase h)), Finset.card_erase_of_mem hx]
      have := Finset.card_pos.mpr ⟨x, hx⟩; omega
    refine ⟨(p.1, insert y (p.2.erase x)), pair_of_sub hq hsub hp.left ⟨y, Finset.mem_insert_self _ _⟩, ?_, ?_,
      Or.inl (Finset.Subset.refl _), ?_⟩
    · intro h
      have h' : insert y (p.2.erase x) = p.2 := congrArg Prod.snd h
      exact hyp (h' ▸ Finset.mem_insert_self _ _)
    · simp only [size, hc]
    · exact pair_of_sub hq ⟨Finset.union_subset h1 hsub.1, Finset.union_subset h2 hsub.2⟩
        (hp.left.mono Finset.subset_union_left) (hp.right.mono Finset.subset_union_left)
  · have hB : ¬ q.1 ⊆ p.1 := fun h => hA (Finset.Subset.antisymm h1 h)
    obtain ⟨y, hy, hyp⟩ := Finset.not_subset.mp hB
    obtain ⟨x, hx⟩ := hp.left
    have hsub : Sub (insert y (p.1.erase x), p.2) q :=
      ⟨Finset.insert_subset hy ((Finset.erase_subset _ _).trans h1), h2⟩
    have hc : (insert y (p.1.erase x)).card = p.1.card := by
      rw [Finset.card_insert_of_notMem (fun h => hyp (Finset.mem_of_mem_erase h)), Finset.card_erase_of_mem hx]
      have := Finset.card_pos.mpr ⟨x, hx⟩; omega
    refine ⟨(insert y (p.1.erase x), p.2), pair_of_sub hq hsub ⟨y, Finset.mem_insert_self _ _⟩ hp.right, ?_, ?_,
      Or.inr (Finset.Subset.refl _), ?_⟩
    · intro h
      have h' : insert y (p.1.erase x) = p.1 := congrArg Prod.fst h
      exact hyp (h' ▸ Finset.mem_insert_self _ _)
    · simp only [size, hc]
    · exact pair_of_sub hq ⟨Finset.union_subset h1 hsub.1, Finset.union_subset h2 hsub.2⟩
        (hp.left.mono Finset.subset_union_left) (hp.right.mono Finset.subset_union_left)

/-- An element that is not maximal is merged in the round. -/
theorem merges_of_not_maximal {t : Nat} {S : P → Prop} (h : Inv c u t S) {p : P} (hp : S p) (hm : ¬ MaximalPair c u p) :
    ∃ q, S q ∧ q ≠ p ∧ (Mergeable c u p q ∨ Mergeable c u q p) := by
  have hv := h.valid p hp
  have hs : t + 2 ≤ size p := (h.rest p hp).resolve_right hm
  by_cases he : size p = t + 2
  · obtain ⟨q, hq, hne, hsz, hmg⟩ := exists_exchange hv hm
    exact ⟨q, h.all q hq (by omega), hne, Or.inl hmg⟩
  · obtain ⟨q, hq, hsub, hsz⟩ := exists_sub hv (t + 2) (by omega) hs
    refine ⟨q, h.all q hq hsz, ?_, Or.inr ⟨Or.inl hsub.1, ?_⟩⟩
    · rintro rfl; omega
    · have : join q p = p := Prod.ext (Finset.union_eq_right.mpr hsub.1) (Finset.union_eq_right.mpr hsub.2)
      rw [this]; exact hv

theorem next_inv {t : Nat} {S : P → Prop} (h : Inv c u t S) : Inv c u (t + 1) (Next c u S) := by
  have hall : ∀ p, IsPair c u p → size p = t + 1 + 2 → Next c u S p := by
    intro p hp hs
    obtain ⟨q, r, hq, hr, hne, sq, sr, hm, hj⟩ := exists_split hp (by omega)
    exact Or.inl ⟨q, r, h.all q hq (by omega), h.all r hr (by omega), hne, hm, hj.symm⟩
  refine ⟨?_, hall, ?_, ?_⟩
  · rintro p (⟨q, r, _, _, _, hm, rfl⟩ | ⟨hp, _⟩)
    · exact hm.2
    · exact h.valid p hp
  · intro p hp hs
    by_cases he : size p = t + 1 + 2
    · exact hall p hp.1 he
    · have hS := h.big p hp (by omega)
      by_cases hex : ∃ q, S q ∧ q ≠ p ∧ (Mergeable c u p q ∨ Mergeable c u q p)
      · obtain ⟨q, hq, hne, hm | hm⟩ := hex
        · exact Or.inl ⟨p, q, hS, hq, Ne.symm hne, hm, (maximal_join_left hp hm.2).symm⟩
        · exact Or.inl ⟨q, p, hq, hS, hne, hm, (maximal_join_right hp hm.2).symm⟩
      · refine Or.inr ⟨hS, fun q hq hne => ⟨fun hm => hex ⟨q, hq, hne, Or.inl hm⟩, fun hm => hex ⟨q, hq, hne, Or.inr hm⟩⟩⟩
  · rintro p (⟨q, r, hq, hr, hne, hm, rfl⟩ | ⟨hp, hno⟩)
    · rcases h.rest q hq with sq | mq
      · rcases h.rest r hr with sr | mr
        · left
          by_contra hlt
          have e1 := (sub_join_left q r).eq_of_size (by omega)
          have e2 := (sub_join_right q r).eq_of_size (by omega)
          exact hne (e1.trans e2.symm)
        · right; rw [maximal_join_right mr hm.2]; exact mr
      · right; rw [maximal_join_left mq hm.2]; exact mq
    · right
      by_contra hnm
      obtain ⟨q, hq, hne, hm | hm⟩ := merges_of_not_maximal h hp hnm
      · exact (hno q hq hne).1 hm
      · exact (hno q hq hne).2 hm

/-- When nothing is merged any more the elements are the maximal pairs. -/
theorem final_exact {t : Nat} {S : P → Prop} (h : Inv c u t S)
    (hno : ∀ p q, S p → S q → p ≠ q → ¬ Mergeable c u p q) (p : P) : S p ↔ MaximalPair c u p := by
  have hmax : ∀ p, S p → MaximalPair c u p := by
    intro p hp
    by_contra hnm
    obtain ⟨q, hq, hne, hm | hm⟩ := merges_of_not_maximal h hp hnm
    · exact hno p q hp hq (Ne.symm hne) hm
    · exact hno q p hq hp hne hm
  refine ⟨hmax p, fun hp => ?_⟩
  by_cases hs : size p ≤ t + 2
  · exact h.big p hp hs
  · obtain ⟨q, hq, hsub, hsz⟩ := exists_sub hp.1 (t + 2) (by omega) (by omega)
    have hqm := hmax q (h.all q hq hsz)
    have := hqm.2 p hp.1 hsub.1 hsub.2
    rw [this] at hs; omega

/-- After enough rounds nothing is merged. -/
theorem no_merge {t N : Nat} {S : P → Prop} (h : Inv c u t S) (hN : ∀ p, IsPair c u p → size p ≤ N) (ht : N < t + 2)
    (p q : P) (hp : S p) (hq : S q) (hne : p ≠ q) : ¬ Mergeable c u p q := by
  intro hm
  have mp : MaximalPair c u p := (h.rest p hp).resolve_left (by have := hN p (h.valid p hp); omega)
  have mq : MaximalPair c u q := (h.rest q hq).resolve_left (by have := hN q (h.valid q hq); omega)
  exact hne ((maximal_join_left mp hm.2).symm.trans (maximal_join_right mq hm.2))

/-- The invariant holds for the pairs of single names. -/
theorem start_inv : Inv c u 0 (fun p => IsPair c u p ∧ size p = 2) :=
  ⟨fun _ h => h.1, fun _ h hs => ⟨h, by omega⟩,
    fun p h hs => ⟨h.1, by have := size_ge_two h.1; omega⟩, fun p h => Or.inl (by omega)⟩

end Ficus.Rs.Core
