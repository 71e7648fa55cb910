import Verif.Proofs.RsRepeats
import Verif.Proofs.Repeats
import Verif.Spec.RsSuffix

/-! Occurrences that share no neighbour with another one, and the repeats that have them. -/

namespace Ficus.Spec
open Ficus

section
variable {α : Type}

/-- No other occurrence has the same letter before it or the same letter after it. -/
def Alone (t w : List α) (i : Nat) : Prop :=
  ∀ k, OccursAt w t k → k ≠ i → before t k ≠ before t i ∧ t[k + w.length]? ≠ t[i + w.length]?

theorem before_eq_none {t w : List α} {i : Nat} (h : OccursAt w t i) : before t i = none ↔ i = 0 := by
  unfold before
  split
  · simp_all
  · rename_i h0
    rw [List.getElem?_eq_none_iff]
    have := h.le
    omega

theorem before_pos {t : List α} {i : Nat} (h : i ≠ 0) : before t i = t[i - 1]? := by
  unfold before
  rw [if_neg h]

theorem OccursAt.get {w t : List α} {i o : Nat} (h : OccursAt w t i) (ho : o < w.length) : t[i + o]? = w[o]? := by
  obtain ⟨pre, post, rfl, rfl⟩ := h
  rw [List.append_assoc, List.getElem?_append_right (by omega), Nat.add_sub_cancel_left, List.getElem?_append_left ho]

/-- A word at a place of another one occurs wherever that one does. -/
theorem OccursAt.trans {u w t : List α} {i o : Nat} (h : OccursAt u w o) (h' : OccursAt w t i) : OccursAt u t (i + o) := by
  obtain ⟨pre, post, rfl, rfl⟩ := h
  obtain ⟨pre', post', rfl, rfl⟩ := h'
  exact ⟨pre' ++ pre, post ++ post', by simp, by simp⟩

theorem alone_iff {t w : List α} (hw : w ≠ []) {i : Nat} (hi : OccursAt w t i) :
    Alone t w i ↔ ∀ w' j, MaximalRepeat t w' → OccursAt w' t j → j ≤ i → i + w.length ≤ j + w'.length → w' = w := by
  constructor
  · intro ha w' j hm hj h1 h2
    by_contra hne
    have hin := hi.inside hj h1 h2
    have hlt : w.length < w'.length := by
      rcases Nat.lt_or_ge w.length w'.length with h | h
      · exact h
      · have e1 : i = j := by omega
        have e2 : w.length = w'.length := by omega
        refine absurd ?_ hne
        rw [← (occursAt_iff.1 hi).2, ← (occursAt_iff.1 hj).2, e1, e2]
    obtain ⟨-, a, b, hab, hoa, hob⟩ := hm.isRepeat
    obtain ⟨k, hk, hok⟩ : ∃ k, k ≠ j ∧ OccursAt w' t k := by
      by_cases e : a = j
      · exact ⟨b, fun e' => hab (e.trans e'.symm), hob⟩
      · exact ⟨a, e, hoa⟩
    have hpos := hin.trans hok
    obtain ⟨d1, d2⟩ := ha _ hpos (by omega)
    by_cases h0 : j < i
    · apply d1
      rw [before_pos (by omega), before_pos (by omega)]
      have e1 : k + (i - j) - 1 = k + (i - j - 1) := by omega
      have e2 : i - 1 = j + (i - j - 1) := by omega
      rw [e1, e2, hok.get (by omega), hj.get (by omega)]
    · apply d2
      have e1 : k + (i - j) + w.length = k + w.length := by omega
      have e2 : i + w.length = j + w.length := by omega
      rw [e1, e2, hok.get hlt, hj.get hlt]
  · intro ha k hk hne
    constructor
    · intro e
      cases hb : before t i with
      | none => exact hne (((before_eq_none hk).1 (e.trans hb)).trans ((before_eq_none hi).1 hb).symm)
      | some a =>
        obtain ⟨o1, p1⟩ := hi.cons hb
        obtain ⟨o2, p2⟩ := hk.cons (e.trans hb)
        have hr : IsRepeat t (a :: w) := ⟨by simp, i - 1, k - 1, by omega, o1, o2⟩
        obtain ⟨w', j, hm, hj, h1, h2, -⟩ := IsRepeat.extends _ _ (Nat.le_refl _) hr _ o1
        rw [List.length_cons] at h2
        have := ha w' j hm hj (by omega) (by omega)
        subst this
        omega
    · intro e
      cases hb : t[i + w.length]? with
      | none =>
        rw [hb] at e
        rw [List.getElem?_eq_none_iff] at hb e
        have := hi.le
        have := hk.le
        omega
      | some a =>
        have o1 := hi.concat hb
        have o2 := hk.concat (e.trans hb)
        have hr : IsRepeat t (w ++ [a]) := ⟨by simp, i, k, fun e => hne e.symm, o1, o2⟩
        obtain ⟨w', j, hm, hj, h1, h2, -⟩ := IsRepeat.extends _ _ (Nat.le_refl _) hr _ o1
        rw [List.length_append, List.length_singleton] at h2
        have := ha w' j hm hj (by omega) (by omega)
        subst this
        omega

theorem IsRepeat.other {t w : List α} (h : IsRepeat t w) (i : Nat) : ∃ k, k ≠ i ∧ OccursAt w t k := by
  obtain ⟨-, a, b, hab, ha, hb⟩ := h
  by_cases e : a = i
  · exact ⟨b, fun e' => hab (e.trans e'.symm), hb⟩
  · exact ⟨a, e, ha⟩

theorem Alone.pair {t w : List α} {i : Nat} (h : IsRepeat t w) (hi : OccursAt w t i) (ha : Alone t w i) : PairRepeat t w := by
  obtain ⟨k, hne, hk⟩ := h.other i
  obtain ⟨h1, h2⟩ := ha k hk hne
  refine ⟨h.1, t[k + w.length]?, t[i + w.length]?, h2, ⟨_, k, hk, rfl, rfl⟩, ⟨_, i, hi, rfl, rfl⟩, fun e => ?_⟩
  obtain ⟨k', o', b', r'⟩ := (e.1 (before t i)).2 ⟨i, hi, rfl, rfl⟩
  by_cases hki : k' = i
  · subst hki
    exact h2 r'.symm
  · exact (ha k' o' hki).1 b'

theorem PairRepeat.maximal {t w : List α} (h : PairRepeat t w) : MaximalRepeat t w := by
  obtain ⟨h0, c, d, hcd, ⟨a, i, hi, hib, hic⟩, ⟨b, k, hk, hkb, hkd⟩, hn⟩ := h
  refine ⟨h0, ?_, i, k, hi, hk, by rw [hic, hkd]; exact hcd⟩
  by_contra hall
  push Not at hall
  have hik : i ≠ k := fun e => hcd (by rw [← hic, ← hkd, e])
  refine hn ⟨fun x => ⟨?_, ?_⟩, ?_⟩
  · rintro ⟨p, hp, hpb, -⟩
    exact ⟨k, hk, by rw [← hpb]; exact hall k p hk hp, hkd⟩
  · rintro ⟨p, hp, hpb, -⟩
    exact ⟨i, hi, by rw [← hpb]; exact hall i p hi hp, hic⟩
  · rintro ⟨p, hp, hpb, -⟩
    have e1 := (before_eq_none hi).1 ((hall i p hi hp).trans hpb)
    have e2 := (before_eq_none hk).1 ((hall k p hk hp).trans hpb)
    omega

theorem near_iff {t w : List α} : NearSuperMaximal t w ↔ IsRepeat t w ∧ ∃ i, OccursAt w t i ∧ Alone t w i := by
  constructor
  · rintro ⟨hm, i, hi, h⟩
    exact ⟨hm.isRepeat, i, hi, (alone_iff hm.1 hi).2 h⟩
  · rintro ⟨hr, i, hi, ha⟩
    exact ⟨(ha.pair hr hi).maximal, i, hi, (alone_iff hr.1 hi).1 ha⟩

theorem nearInside_iff {t w : List α} : NearInside t w ↔ IsRepeat t w ∧ ∃ i, i ≠ 0 ∧ OccursAt w t i ∧ Alone t w i := by
  constructor
  · rintro ⟨hm, i, h0, hi, h⟩
    exact ⟨hm.isRepeat, i, h0, hi, (alone_iff hm.1 hi).2 h⟩
  · rintro ⟨hr, i, h0, hi, ha⟩
    exact ⟨(ha.pair hr hi).maximal, i, h0, hi, (alone_iff hr.1 hi).1 ha⟩

theorem super_iff {t w : List α} : SuperMaximal t w ↔ IsRepeat t w ∧ ∀ i, OccursAt w t i → Alone t w i := by
  constructor
  · rintro ⟨hm, h⟩
    exact ⟨hm.isRepeat, fun i hi => (alone_iff hm.1 hi).2 (fun w' j hm' hj h1 h2 => h w' hm' (hi.inside hj h1 h2).infix)⟩
  · rintro ⟨hr, ha⟩
    obtain ⟨k, -, hk⟩ := hr.other 0
    refine ⟨((ha k hk).pair hr hk).maximal, fun w' hm hin => ?_⟩
    obtain ⟨o, ho⟩ := infix_iff_occursAt.1 hin
    obtain ⟨j, -, hj⟩ := hm.isRepeat.other 0
    have := ho.trans hj
    exact (alone_iff hr.1 this).1 (ha _ this) w' j hm hj (by omega) (by have := ho.le; omega)

theorem NearSuperMaximal.pair {t w : List α} (h : NearSuperMaximal t w) : PairRepeat t w := by
  obtain ⟨hr, i, hi, ha⟩ := near_iff.1 h
  exact ha.pair hr hi

end

open Ficus.Rs

theorem mem_occ_next {w y : List Nat} {c : Option Nat} {i : Nat} :
    i ∈ occ w (y.map some ++ [c]) ↔ OccursAt y w i ∧ w[i + y.length]? = c := by
  rw [mem_occ_concat, mem_occ_map, List.length_map]
  constructor
  · exact fun h => ⟨h.1, h.2.2⟩
  · exact fun h => ⟨h.1, h.1.le, h.2⟩

theorem branches_iff {w y : List Nat} (hy : y ≠ []) : Branches w (y.map some) ↔ PairRepeat w y := by
  have key : ∀ c d, SameBefore w (occ w (y.map some ++ [c])) (occ w (y.map some ++ [d])) ↔
      (∀ a, Between w y a c ↔ Between w y a d) ∧ ¬ Between w y none c := by
    intro c d
    unfold SameBefore
    simp only [mem_occ_next]
    constructor
    · rintro ⟨h1, h2⟩
      refine ⟨fun a => ⟨?_, ?_⟩, ?_⟩
      · rintro ⟨i, hi, hb, hc⟩
        obtain ⟨-, k, hk, e⟩ := h1 i ⟨hi, hc⟩
        exact ⟨k, hk.1, e.trans hb, hk.2⟩
      · rintro ⟨i, hi, hb, hc⟩
        obtain ⟨-, k, hk, e⟩ := h2 i ⟨hi, hc⟩
        exact ⟨k, hk.1, e.trans hb, hk.2⟩
      · rintro ⟨i, hi, hb, hc⟩
        exact (h1 i ⟨hi, hc⟩).1 hb
    · rintro ⟨h1, h2⟩
      refine ⟨fun i hi => ⟨fun e => h2 ⟨i, hi.1, e, hi.2⟩, ?_⟩, fun i hi => ⟨fun e => h2 ((h1 _).2 ⟨i, hi.1, e, hi.2⟩), ?_⟩⟩
      · obtain ⟨k, o, b, r⟩ := (h1 (before w i)).1 ⟨i, hi.1, rfl, hi.2⟩
        exact ⟨k, ⟨o, r⟩, b⟩
      · obtain ⟨k, o, b, r⟩ := (h1 (before w i)).2 ⟨i, hi.1, rfl, hi.2⟩
        exact ⟨k, ⟨o, r⟩, b⟩
  unfold Branches PairRepeat
  simp only [key, mem_occ_next]
  constructor
  · rintro ⟨c, d, hcd, ⟨i, h1⟩, ⟨k, h2⟩, h3⟩
    exact ⟨hy, c, d, hcd, ⟨_, i, h1.1, rfl, h1.2⟩, ⟨_, k, h2.1, rfl, h2.2⟩, h3⟩
  · rintro ⟨-, c, d, hcd, ⟨a, i, h1⟩, ⟨b, k, h2⟩, h3⟩
    exact ⟨c, d, hcd, ⟨i, h1.1, h1.2.2⟩, ⟨k, h2.1, h2.2.2⟩, h3⟩

theorem alone_of {w y : List Nat} {i : Nat} :
    RightAlone w (y.map some) i ∧ LeftAlone w (y.map some) i ↔ Alone w y i := by
  unfold RightAlone LeftAlone Alone
  simp only [mem_occ_map, List.length_map]
  constructor
  · rintro ⟨h1, h2⟩ k hk hne
    exact ⟨fun e => hne (h2 k hk e), fun e => hne (h1 k hk e)⟩
  · intro h
    exact ⟨fun k hk e => by_contra fun hne => (h k hk hne).2 e, fun k hk e => by_contra fun hne => (h k hk hne).1 e⟩

/-- What the search keeps, for the three kinds of repeats. -/
def Wanted : RepeatType → List Nat → List Nat → Prop
  | .maximal => PairRepeat
  | .superMaximal => SuperMaximal
  | .nearSuperMaximal => NearInside

theorem wanted_iff (kind : RepeatType) (w y : List Nat) :
    (y ≠ [] ∧ GoesOn w kind (y.map some) ∧ Branches w (y.map some)) ↔ Wanted kind w y := by
  have hb : ∀ hy : y ≠ [], Branches w (y.map some) ↔ PairRepeat w y := branches_iff
  cases kind with
  | maximal =>
    refine ⟨fun ⟨h0, _, h⟩ => (hb h0).1 h, fun h => ⟨h.1, trivial, (hb h.1).2 h⟩⟩
  | superMaximal =>
    unfold Wanted GoesOn
    simp only [mem_occ_map]
    rw [super_iff]
    constructor
    · rintro ⟨h0, h1, h2⟩
      refine ⟨((hb h0).1 h2).maximal.isRepeat, fun i hi => alone_of.1 ⟨(h1 i hi).1, ?_⟩⟩
      rcases (h1 i hi).2 with e | e
      · intro k hk ek
        rw [mem_occ_map] at hk
        rw [(before_eq_none hi).1 e, (before_eq_none hk).1 (ek.trans e)]
      · exact e
    · rintro ⟨hr, ha⟩
      obtain ⟨k, -, hk⟩ := hr.other 0
      exact ⟨hr.1, fun i hi => ⟨(alone_of.2 (ha i hi)).1, .inr (alone_of.2 (ha i hi)).2⟩, (hb hr.1).2 ((ha k hk).pair hr hk)⟩
  | nearSuperMaximal =>
    unfold Wanted GoesOn
    simp only [mem_occ_map]
    rw [nearInside_iff]
    constructor
    · rintro ⟨h0, ⟨i, hi, h1, h3, h4⟩, h2⟩
      exact ⟨((hb h0).1 h2).maximal.isRepeat, i, fun e => h3 ((before_eq_none hi).2 e), hi, alone_of.1 ⟨h1, h4⟩⟩
    · rintro ⟨hr, i, h0, hi, ha⟩
      exact ⟨hr.1, ⟨i, hi, (alone_of.2 ha).1, fun e => h0 ((before_eq_none hi).1 e), (alone_of.2 ha).2⟩, (hb hr.1).2 (ha.pair hr hi)⟩

end Ficus.Spec
