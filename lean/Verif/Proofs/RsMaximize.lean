import Verif.Proofs.RsAlpha

/-! `maximize` for elements that are sets and are merged whenever their union is valid. -/

namespace Ficus.Rs.Nfc

/-- What is asked of the elements: `val` is the set that an element stands for, `V` says which sets are valid. -/
structure Joins {α β : Type} [DecidableEq β] (same : α → α → Bool) (merger : α → α → Option α) (G : α → Prop) (val : α → Finset β)
    (V : Finset β → Prop) (N : Nat) : Prop where
  same : ∀ x y, G x → G y → (same x y = true ↔ x = y)
  inj : ∀ x y, G x → G y → val x = val y → x = y
  valid : ∀ x, G x → V (val x)
  merge : ∀ x y m, G x → G y → (merger x y = some m ↔ V (val x ∪ val y) ∧ G m ∧ val m = val x ∪ val y)
  total : ∀ x y, G x → G y → V (val x ∪ val y) → ∃ m, merger x y = some m
  mono : ∀ x y s, G x → G y → V s → val x ∪ val y ⊆ s → V (val x ∪ val y)
  nonempty : ∀ s, V s → s.Nonempty
  card : ∀ s, V s → s.card ≤ N

variable {α β : Type} [DecidableEq β] {same : α → α → Bool} {merger : α → α → Option α} {G : α → Prop} {val : α → Finset β}
  {V : Finset β → Prop} {N : Nat}

/-- The set is the union of the sets of some of the elements. -/
def Covered (val : α → Finset β) (first : List α) (s : Finset β) : Prop := ∀ b ∈ s, ∃ i ∈ first, b ∈ val i ∧ val i ⊆ s

/-- A valid union of elements that no other contains. -/
def Top (val : α → Finset β) (V : Finset β → Prop) (first : List α) (s : Finset β) : Prop :=
  V s ∧ Covered val first s ∧ ∀ t, V t → Covered val first t → s ⊆ t → t = s

theorem covered_union {first : List α} {s t : Finset β} (hs : Covered val first s) (ht : Covered val first t) :
    Covered val first (s ∪ t) := by
  intro b hb
  rcases Finset.mem_union.mp hb with h | h
  · obtain ⟨i, h1, h2, h3⟩ := hs b h
    exact ⟨i, h1, h2, h3.trans Finset.subset_union_left⟩
  · obtain ⟨i, h1, h2, h3⟩ := ht b h
    exact ⟨i, h1, h2, h3.trans Finset.subset_union_right⟩

/-- The invariant after `t` rounds. -/
structure RoundInv (G : α → Prop) (val : α → Finset β) (V : Finset β → Prop) (first : List α) (t : Nat) (c : List α) : Prop where
  good : ∀ x ∈ c, G x
  nodup : c.Nodup
  covered : ∀ x ∈ c, Covered val first (val x)
  tops : ∀ s, Top val V first s → ∀ b ∈ s, ∃ x ∈ c, b ∈ val x ∧ val x ⊆ s
  big : ∀ x ∈ c, ∀ y ∈ c, x ≠ y → V (val x ∪ val y) → t + 1 ≤ (val x).card ∧ t + 1 ≤ (val y).card

theorem top_above (J : Joins same merger G val V N) (first : List α) (s : Finset β) (hs : V s) (hc : Covered val first s) :
    ∃ t, Top val V first t ∧ s ⊆ t := by
  induction hn : N - s.card using Nat.strong_induction_on generalizing s with
  | _ n ih =>
    by_cases h : ∃ t, V t ∧ Covered val first t ∧ s ⊆ t ∧ t ≠ s
    · obtain ⟨t, h1, h2, h3, h4⟩ := h
      have hlt := Finset.card_lt_card (Finset.ssubset_iff_subset_ne.mpr ⟨h3, fun e => h4 e.symm⟩)
      have hN := J.card t h1
      obtain ⟨u, hu, hsub⟩ := ih (N - t.card) (by omega) t h1 h2 rfl
      exact ⟨u, hu, h3.trans hsub⟩
    · push Not at h
      exact ⟨s, ⟨hs, hc, fun t h1 h2 h3 => h t h1 h2 h3⟩, Finset.Subset.refl s⟩

theorem merger_none (J : Joins same merger G val V N) {x y : α} (hx : G x) (hy : G y) :
    merger x y = none ↔ ¬ V (val x ∪ val y) := by
  constructor
  · intro h hv
    obtain ⟨m, hm⟩ := J.total x y hx hy hv
    rw [h] at hm; cases hm
  · intro h
    cases hm : merger x y with
    | none => rfl
    | some m => exact absurd ((J.merge x y m hx hy).mp hm).1 h

theorem round_inv (J : Joins same merger G val V N) (first : List α) (t : Nat) (c new : List α) (h : RoundInv G val V first t c)
    (hnd : new.Nodup) (hg : ∀ x ∈ new, G x)
    (hmem : ∀ z, z ∈ new ↔ (∃ x ∈ c, ∃ y ∈ c, x ≠ y ∧ merger x y = some z) ∨
        (z ∈ c ∧ ∀ y ∈ c, y ≠ z → merger z y = none ∧ merger y z = none)) : RoundInv G val V first (t + 1) new := by
  have hjoin : ∀ x ∈ c, ∀ y ∈ c, x ≠ y → V (val x ∪ val y) → ∃ z ∈ new, val z = val x ∪ val y := by
    intro x hx y hy hne hv
    obtain ⟨m, hm⟩ := J.total x y (h.good x hx) (h.good y hy) hv
    exact ⟨m, (hmem m).mpr (Or.inl ⟨x, hx, y, hy, hne, hm⟩), ((J.merge x y m (h.good x hx) (h.good y hy)).mp hm).2.2⟩
  refine ⟨hg, hnd, ?_, ?_, ?_⟩
  · intro z hz
    rcases (hmem z).mp hz with ⟨x, hx, y, hy, _, hm⟩ | ⟨hz', _⟩
    · rw [((J.merge x y z (h.good x hx) (h.good y hy)).mp hm).2.2]
      exact covered_union (h.covered x hx) (h.covered y hy)
    · exact h.covered z hz'
  · intro s hs b hb
    obtain ⟨x, hx, hbx, hxs⟩ := h.tops s hs b hb
    by_cases hlone : ∀ y ∈ c, y ≠ x → merger x y = none ∧ merger y x = none
    · exact ⟨x, (hmem x).mpr (Or.inr ⟨hx, hlone⟩), hbx, hxs⟩
    · push Not at hlone
      obtain ⟨y, hy, hne, hm⟩ := hlone
      have hv : V (val x ∪ val y) := by
        by_contra hv
        have e1 := (merger_none J (h.good x hx) (h.good y hy)).mpr hv
        have e2 := (merger_none J (h.good y hy) (h.good x hx)).mpr (by rwa [Finset.union_comm])
        exact hm e1 e2
      by_cases he : val x = s
      · have := hs.2.2 (val x ∪ val y) hv (covered_union (h.covered x hx) (h.covered y hy)) (by rw [← he]; exact Finset.subset_union_left)
        obtain ⟨z, hz, hzv⟩ := hjoin x hx y hy (fun e => hne e.symm) hv
        exact ⟨z, hz, by rw [hzv]; exact Finset.mem_union_left _ hbx, by rw [hzv, this]⟩
      · obtain ⟨b', hb', hnb⟩ := Finset.exists_of_ssubset (Finset.ssubset_iff_subset_ne.mpr ⟨hxs, he⟩)
        obtain ⟨w, hw, hbw, hws⟩ := h.tops s hs b' hb'
        have hxw : x ≠ w := by rintro rfl; exact hnb hbw
        have hsub := Finset.union_subset hxs hws
        obtain ⟨z, hz, hzv⟩ := hjoin x hx w hw hxw (J.mono x w s (h.good x hx) (h.good w hw) hs.1 hsub)
        exact ⟨z, hz, by rw [hzv]; exact Finset.mem_union_left _ hbx, by rw [hzv]; exact hsub⟩
  · -- elements that were not merged are not merged later
    have hstay : ∀ z ∈ new, ∀ z' ∈ new, z ≠ z' → V (val z ∪ val z') →
        (z ∈ c ∧ ∀ y ∈ c, y ≠ z → merger z y = none ∧ merger y z = none) → False := by
      intro z hz z' hz' hne hv hzl
      have hgz := h.good z hzl.1
      rcases (hmem z').mp hz' with ⟨x, hx, y, hy, hxy, hm⟩ | ⟨hz'c, _⟩
      · have hval := ((J.merge x y z' (h.good x hx) (h.good y hy)).mp hm).2.2
        have hone : ∀ w ∈ c, val w ⊆ val z' → w = z := by
          intro w hw hsub
          by_contra hne'
          have := (hzl.2 w hw hne').1
          rw [merger_none J hgz (h.good w hw)] at this
          exact this (J.mono z w _ hgz (h.good w hw) hv (Finset.union_subset_union_right hsub))
        have e1 := hone x hx (by rw [hval]; exact Finset.subset_union_left)
        have e2 := hone y hy (by rw [hval]; exact Finset.subset_union_right)
        exact hxy (e1.trans e2.symm)
      · have := (hzl.2 z' hz'c (fun e => hne e.symm)).1
        rw [merger_none J hgz (h.good z' hz'c)] at this
        exact this hv
    have hcard : ∀ z ∈ new, (∃ x ∈ c, ∃ y ∈ c, x ≠ y ∧ merger x y = some z) → t + 1 + 1 ≤ (val z).card := by
      rintro z hz ⟨x, hx, y, hy, hxy, hm⟩
      obtain ⟨hv, _, hval⟩ := (J.merge x y z (h.good x hx) (h.good y hy)).mp hm
      obtain ⟨b1, b2⟩ := h.big x hx y hy hxy hv
      by_contra hlt
      have hle : (val x ∪ val y).card ≤ t + 1 := by rw [← hval]; omega
      have e1 := Finset.eq_of_subset_of_card_le (Finset.subset_union_left (s₁ := val x) (s₂ := val y)) (by omega)
      have e2 := Finset.eq_of_subset_of_card_le (Finset.subset_union_right (s₁ := val x) (s₂ := val y)) (by omega)
      exact hxy (J.inj x y (h.good x hx) (h.good y hy) (e1.trans e2.symm))
    intro z hz z' hz' hne hv
    refine ⟨?_, ?_⟩
    · rcases (hmem z).mp hz with h1 | h1
      · exact hcard z hz h1
      · exact (hstay z hz z' hz' hne hv h1).elim
    · rcases (hmem z').mp hz' with h1 | h1
      · exact hcard z' hz' h1
      · exact (hstay z' hz' z hz hne.symm (by rwa [Finset.union_comm]) h1).elim

/-- `maximize` ends with the maximal valid unions of the first elements. -/
theorem maximize_joins (J : Joins same merger G val V N) (it : Iter) (first : List α) (hg : ∀ x ∈ first, G x) (hn : first.Nodup)
    (fuel : Nat) (hf : N < fuel) :
    ∃ r, maximize it same merger fuel 0 first = some r ∧ r.Nodup ∧ (∀ x ∈ r, G x) ∧
      ∀ s, (∃ x ∈ r, val x = s) ↔ Top val V first s := by
  have main : ∀ fuel t c, RoundInv G val V first t c → 0 < fuel → N < fuel + t →
      ∃ r, maximize it same merger fuel t c = some r ∧ r.Nodup ∧ (∀ x ∈ r, G x) ∧ ∀ s, (∃ x ∈ r, val x = s) ↔ Top val V first s := by
    intro fuel
    induction fuel with
    | zero => intro t c _ h0; omega
    | succ fuel ih =>
      intro t c hinv _ hN
      have hperm := it.perm "current" t c
      have hv : ∀ x ∈ it.order "current" t c, G x := fun x hx => hinv.good x (hperm.mem_iff.mp hx)
      obtain ⟨r1, r2⟩ := maximizeRound_spec same merger G J.same
        (fun x y m hx hy hm => ((J.merge x y m hx hy).mp hm).2.1) (it.order "current" t c) hv (hperm.nodup_iff.mpr hinv.nodup)
      rw [maximize]
      cases hr : maximizeRound same merger (it.order "current" t c) with
      | none =>
        refine ⟨c, rfl, hinv.nodup, hinv.good, fun s => ?_⟩
        have hno : ∀ x ∈ c, ∀ y ∈ c, x ≠ y → ¬ V (val x ∪ val y) := by
          intro x hx y hy hne
          rw [← merger_none J (hinv.good x hx) (hinv.good y hy)]
          exact r1.mp hr x (hperm.mem_iff.mpr hx) y (hperm.mem_iff.mpr hy) hne
        have hall : ∀ u, Top val V first u → ∀ x ∈ c, val x ⊆ u → val x = u := by
          intro u hu x hx hxu
          by_contra hne
          obtain ⟨b, hb, hnb⟩ := Finset.exists_of_ssubset (Finset.ssubset_iff_subset_ne.mpr ⟨hxu, hne⟩)
          obtain ⟨y, hy, hby, hyu⟩ := hinv.tops u hu b hb
          exact hno x hx y hy (by rintro rfl; exact hnb hby)
            (J.mono x y u (hinv.good x hx) (hinv.good y hy) hu.1 (Finset.union_subset hxu hyu))
        constructor
        · rintro ⟨x, hx, rfl⟩
          obtain ⟨u, hu, hxu⟩ := top_above J first (val x) (J.valid x (hinv.good x hx)) (hinv.covered x hx)
          rw [hall u hu x hx hxu]
          exact hu
        · intro hs
          obtain ⟨b, hb⟩ := J.nonempty s hs.1
          obtain ⟨x, hx, _, hxs⟩ := hinv.tops s hs b hb
          exact ⟨x, hx, hall s hs x hx hxs⟩
      | some new =>
        obtain ⟨n1, n2, n3⟩ := r2 new hr
        have hmem : ∀ z, z ∈ new ↔ (∃ x ∈ c, ∃ y ∈ c, x ≠ y ∧ merger x y = some z) ∨
            (z ∈ c ∧ ∀ y ∈ c, y ≠ z → merger z y = none ∧ merger y z = none) := by
          intro z
          rw [n3 z]
          simp only [hperm.mem_iff]
        have hmerged : ∃ x ∈ c, ∃ y ∈ c, x ≠ y ∧ V (val x ∪ val y) := by
          by_contra hno
          push Not at hno
          have := r1.mpr (fun x hx y hy hne => (merger_none J (hv x hx) (hv y hy)).mpr
            (hno x (hperm.mem_iff.mp hx) y (hperm.mem_iff.mp hy) hne))
          rw [hr] at this; cases this
        obtain ⟨x, hx, y, hy, hne, hxy⟩ := hmerged
        have hb := hinv.big x hx y hy hne hxy
        have hlt : t + 2 ≤ (val x ∪ val y).card := by
          by_contra hlt
          have e1 := Finset.eq_of_subset_of_card_le (Finset.subset_union_left (s₁ := val x) (s₂ := val y)) (by omega)
          have e2 := Finset.eq_of_subset_of_card_le (Finset.subset_union_right (s₁ := val x) (s₂ := val y)) (by omega)
          exact hne (J.inj x y (hinv.good x hx) (hinv.good y hy) (e1.trans e2.symm))
        have hc := J.card _ hxy
        exact ih (t + 1) new (round_inv J first t c new hinv n1 n2 hmem) (by omega) (by omega)
  exact main fuel 0 first ⟨hg, hn, fun x hx b hb => ⟨x, hx, hb, Finset.Subset.refl _⟩, fun s hs b hb => hs.2.1 b hb,
    fun x hx y hy _ _ => ⟨Finset.card_pos.mpr (J.nonempty _ (J.valid x (hg x hx))), Finset.card_pos.mpr (J.nonempty _ (J.valid y (hg y hy)))⟩⟩ (by omega) (by omega)

end Ficus.Rs.Nfc
