import Verif.Model.RsAlpha
import Verif.Proofs.AlphaCore
import Mathlib.Data.String.Basic

/-! Lemmas about the sets of the alpha algorithm. -/

namespace Ficus.Rs
open Spec Core

/-! ### Sorted sets -/

theorem mem_sortedInsert (x y : String) (l : List String) : y ∈ sortedInsert x l ↔ y = x ∨ y ∈ l := by
  induction l with
  | nil => simp [sortedInsert]
  | cons z zs ih =>
    unfold sortedInsert
    split
    · rename_i h; subst h; simp
    · split
      · simp
      · simp only [List.mem_cons, ih]; tauto

theorem sorted_sortedInsert (x : String) (l : List String) (h : l.Pairwise (· < ·)) :
    (sortedInsert x l).Pairwise (· < ·) := by
  induction l with
  | nil => simp [sortedInsert]
  | cons z zs ih =>
    unfold sortedInsert
    split
    · exact h
    · rename_i hne
      split
      · rename_i hlt
        refine List.pairwise_cons.mpr ⟨?_, h⟩
        intro y hy
        rcases List.mem_cons.mp hy with rfl | hy
        · exact hlt
        · exact lt_trans hlt ((List.pairwise_cons.mp h).1 y hy)
      · rename_i hlt
        refine List.pairwise_cons.mpr ⟨?_, ih (List.pairwise_cons.mp h).2⟩
        intro y hy
        rcases (mem_sortedInsert x y zs).mp hy with rfl | hy
        · exact lt_of_le_of_ne (not_lt.mp hlt) (Ne.symm hne)
        · exact (List.pairwise_cons.mp h).1 y hy

theorem sortedSet_spec (l : List String) :
    (sortedSet l).Pairwise (· < ·) ∧ ∀ x, x ∈ sortedSet l ↔ x ∈ l := by
  suffices h : ∀ (l s : List String), s.Pairwise (· < ·) →
      (l.foldl (fun s x => sortedInsert x s) s).Pairwise (· < ·) ∧
      ∀ x, x ∈ l.foldl (fun s x => sortedInsert x s) s ↔ x ∈ s ∨ x ∈ l by
    have := h l [] List.Pairwise.nil
    exact ⟨this.1, fun x => (this.2 x).trans (by simp)⟩
  intro l
  induction l with
  | nil => intro s hs; exact ⟨hs, by simp⟩
  | cons y ys ih =>
    intro s hs
    obtain ⟨h1, h2⟩ := ih (sortedInsert y s) (sorted_sortedInsert y s hs)
    refine ⟨h1, fun x => ?_⟩
    rw [List.foldl_cons, h2 x, mem_sortedInsert, List.mem_cons]
    tauto

theorem sorted_ext {l m : List String} (hl : l.Pairwise (· < ·)) (hm : m.Pairwise (· < ·)) (h : l.toFinset = m.toFinset) :
    l = m := by
  have nl : l.Nodup := hl.imp (fun h => ne_of_lt h)
  have nm : m.Nodup := hm.imp (fun h => ne_of_lt h)
  have hp : l.Perm m := (List.perm_ext_iff_of_nodup nl nm).mpr (fun x => by
    rw [← List.mem_toFinset, h, List.mem_toFinset])
  exact hp.eq_of_pairwise (fun a b _ _ h1 h2 => absurd (lt_trans h1 h2) (lt_irrefl _)) hl hm

/-! ### Alpha sets as pairs -/

/-- The pair of finite sets of an alpha set. -/
def ASet.pair (x : ASet) : P := (x.left.toFinset, x.right.toFinset)

/-- The relations as propositions. -/
def Relations.C (rel : Relations) (a b : String) : Prop := rel.causal a b = true
def Relations.U (rel : Relations) (a b : String) : Prop := rel.unrelated a b = true

/-- What holds for every set of the algorithm. -/
structure ASet.Good (rel : Relations) (x : ASet) : Prop where
  left : x.left.Pairwise (· < ·)
  right : x.right.Pairwise (· < ·)
  pair : IsPair rel.C rel.U x.pair

/-- What the algorithm needs from the relations. -/
structure Lawful (info : Info) (rel : Relations) : Prop where
  apart : ∀ a b, rel.causal a b = true → rel.unrelated a b = false
  classes : ∀ a b, rel.causal a b = true → a ∈ info.classes.keys ∧ b ∈ info.classes.keys ∧ (info.followed.get? a).isSome = true

theorem pair_inj {rel : Relations} {x y : ASet} (hx : x.Good rel) (hy : y.Good rel) (h : x.pair = y.pair) : x = y := by
  obtain ⟨h1, h2⟩ := Prod.mk.inj h
  have e1 := sorted_ext hx.left hy.left h1
  have e2 := sorted_ext hx.right hy.right h2
  cases x; cases y
  simp only at e1 e2
  rw [e1, e2]

theorem key_inj {rel : Relations} (hdis : ∀ a b, rel.causal a b = true → rel.unrelated a b = false) {x y : ASet}
    (hx : x.Good rel) (hy : y.Good rel) (h : x.key = y.key) : x = y := by
  have aux : ∀ {x y : ASet}, x.Good rel → y.Good rel → ∀ m, y.left = x.left ++ m → x.right = m ++ y.right → m = [] := by
    intro x y hx hy m h1 h2
    cases m with
    | nil => rfl
    | cons p m =>
      exfalso
      obtain ⟨b, hb⟩ := hy.pair.right
      have hp1 : p ∈ y.pair.1 := by simp [ASet.pair, h1]
      have hp2 : p ∈ x.pair.2 := by simp [ASet.pair, h2]
      have hb2 : b ∈ x.pair.2 := by
        have : b ∈ y.right := by simpa [ASet.pair] using hb
        simp [ASet.pair, h2, this]
      have hc : rel.causal p b = true := hy.pair.causal p hp1 b hb
      have hu : rel.unrelated p b = true := hx.pair.rightUnrelated p hp2 b hb2
      rw [hdis p b hc] at hu; cases hu
  unfold ASet.key at h
  rcases List.append_eq_append_iff.mp h with ⟨m, h1, h2⟩ | ⟨m, h1, h2⟩
  · have := aux hx hy m h1 h2
    subst this
    cases x; cases y; simp_all
  · have := aux hy hx m h1 h2
    subst this
    cases x; cases y; simp_all

/-- No name is on both sides, so a pair has at most as many names as there are classes. -/
theorem size_le {info : Info} {rel : Relations} (hl : Lawful info rel) {p : P} (hp : IsPair rel.C rel.U p) :
    Core.size p ≤ info.classes.keys.length ∧ (∀ a ∈ p.1, a ∈ info.classes.keys) ∧ (∀ b ∈ p.2, b ∈ info.classes.keys) := by
  have h1 : ∀ a ∈ p.1, a ∈ info.classes.keys := by
    intro a ha
    obtain ⟨b, hb⟩ := hp.right
    exact (hl.classes a b (hp.causal a ha b hb)).1
  have h2 : ∀ b ∈ p.2, b ∈ info.classes.keys := by
    intro b hb
    obtain ⟨a, ha⟩ := hp.left
    exact (hl.classes a b (hp.causal a ha b hb)).2.1
  refine ⟨?_, h1, h2⟩
  have hd : Disjoint p.1 p.2 := by
    rw [Finset.disjoint_left]
    intro a ha hb
    have hc : rel.causal a a = true := hp.causal a ha a hb
    have hu : rel.unrelated a a = true := hp.leftUnrelated a ha a ha
    rw [hl.apart a a hc] at hu; cases hu
  unfold Core.size
  rw [← Finset.card_union_of_disjoint hd]
  have hs : p.1 ∪ p.2 ⊆ info.classes.keys.toFinset := by
    intro a ha
    rw [List.mem_toFinset]
    rcases Finset.mem_union.mp ha with ha | ha
    · exact h1 a ha
    · exact h2 a ha
  exact (Finset.card_le_card hs).trans (List.toFinset_card_le _)

theorem card_left {rel : Relations} {x : ASet} (hx : x.Good rel) : x.key.length = Core.size x.pair := by
  have n1 : x.left.Nodup := hx.left.imp (fun h => ne_of_lt h)
  have n2 : x.right.Nodup := hx.right.imp (fun h => ne_of_lt h)
  simp only [ASet.key, List.length_append, Core.size, ASet.pair, List.toFinset_card_of_nodup n1, List.toFinset_card_of_nodup n2]

theorem same_iff {info : Info} {rel : Relations} (hl : Lawful info rel) {hash : List String → Nat}
    (hh : TellsApart hash info.classes.keys) {x y : ASet} (hx : x.Good rel) (hy : y.Good rel) :
    ASet.same hash x y = true ↔ x = y := by
  unfold ASet.same
  rw [decide_eq_true_iff]
  constructor
  · intro h
    have sx := size_le hl hx.pair
    have sy := size_le hl hy.pair
    refine key_inj hl.apart hx hy (hh _ _ ?_ ?_ ?_ ?_ h)
    · rw [card_left hx]; exact sx.1
    · rw [card_left hy]; exact sy.1
    · intro a ha
      rcases List.mem_append.mp ha with ha | ha
      · exact sx.2.1 a (List.mem_toFinset.mpr ha)
      · exact sx.2.2 a (List.mem_toFinset.mpr ha)
    · intro a ha
      rcases List.mem_append.mp ha with ha | ha
      · exact sy.2.1 a (List.mem_toFinset.mpr ha)
      · exact sy.2.2 a (List.mem_toFinset.mpr ha)
  · rintro rfl; rfl

/-! ### Merging -/

theorem extend_pair (x y : ASet) : (x.extend y).pair = join x.pair y.pair := by
  refine Prod.ext ?_ ?_
  · ext a; simp [ASet.pair, ASet.extend, join, (sortedSet_spec _).2]
  · ext a; simp [ASet.pair, ASet.extend, join, (sortedSet_spec _).2]

theorem canExtend_iff {rel : Relations} {x y : ASet} (hx : x.Good rel) :
    x.canExtend rel y = true ↔ IsPair rel.C rel.U (join x.pair y.pair) := by
  have e1 : ∀ a, a ∈ (join x.pair y.pair).1 ↔ a ∈ x.left ++ y.left := by intro a; simp [join, ASet.pair]
  have e2 : ∀ a, a ∈ (join x.pair y.pair).2 ↔ a ∈ x.right ++ y.right := by intro a; simp [join, ASet.pair]
  unfold ASet.canExtend
  simp only [Bool.and_eq_true, List.all_eq_true]
  constructor
  · rintro ⟨⟨h1, h2⟩, h3⟩
    refine ⟨hx.pair.left.mono Finset.subset_union_left, hx.pair.right.mono Finset.subset_union_left, ?_, ?_, ?_⟩
    · intro a ha b hb; exact h1 a ((e1 a).mp ha) b ((e2 b).mp hb)
    · intro a ha b hb; exact h2 a ((e1 a).mp ha) b ((e1 b).mp hb)
    · intro a ha b hb; exact h3 a ((e2 a).mp ha) b ((e2 b).mp hb)
  · intro h
    refine ⟨⟨?_, ?_⟩, ?_⟩
    · intro a ha b hb; exact h.causal a ((e1 a).mpr ha) b ((e2 b).mpr hb)
    · intro a ha b hb; exact h.leftUnrelated a ((e1 a).mpr ha) b ((e1 b).mpr hb)
    · intro a ha b hb; exact h.rightUnrelated a ((e2 a).mpr ha) b ((e2 b).mpr hb)

theorem leftSubset_iff (x y : ASet) : x.leftSubset y = true ↔ x.pair.1 ⊆ y.pair.1 := by
  simp [ASet.leftSubset, ASet.pair, Finset.subset_iff]

theorem rightSubset_iff (x y : ASet) : x.rightSubset y = true ↔ x.pair.2 ⊆ y.pair.2 := by
  simp [ASet.rightSubset, ASet.pair, Finset.subset_iff]

theorem mergeSets_iff {rel : Relations} {x y : ASet} (hx : x.Good rel) (m : ASet) :
    mergeSets rel x y = some m ↔ Mergeable rel.C rel.U x.pair y.pair ∧ m = x.extend y := by
  unfold mergeSets Mergeable
  rw [← canExtend_iff hx, ← leftSubset_iff, ← rightSubset_iff]
  split
  · rename_i h
    simp only [Bool.and_eq_true, Bool.or_eq_true] at h
    simp only [Option.some.injEq]
    exact ⟨fun e => ⟨h, e.symm⟩, fun e => e.2.symm⟩
  · rename_i h
    simp only [Bool.and_eq_true, Bool.or_eq_true] at h
    exact ⟨fun e => (by cases e), fun e => absurd e.1 h⟩

theorem extend_good {rel : Relations} {x y : ASet} (h : IsPair rel.C rel.U (join x.pair y.pair)) : (x.extend y).Good rel :=
  ⟨(sortedSet_spec _).1, (sortedSet_spec _).1, by rw [extend_pair]; exact h⟩

/-! ### Sets without duplicates -/

theorem foldl_insertBy {α : Type} (same : α → α → Bool) (G : α → Prop) (hsame : ∀ x y, G x → G y → (same x y = true ↔ x = y))
    (l s : List α) (hl : ∀ x ∈ l, G x) (hs : ∀ x ∈ s, G x) (hn : s.Nodup) :
    (∀ x, x ∈ l.foldl (insertBy same) s ↔ x ∈ s ∨ x ∈ l) ∧ (l.foldl (insertBy same) s).Nodup := by
  induction l generalizing s with
  | nil => exact ⟨by simp, hn⟩
  | cons y ys ih =>
    have hy := hl y (by simp)
    have hany : s.any (same y) = true ↔ y ∈ s := by
      rw [List.any_eq_true]
      constructor
      · rintro ⟨z, hz, h⟩
        exact ((hsame y z hy (hs z hz)).mp h) ▸ hz
      · intro h; exact ⟨y, h, (hsame y y hy hy).mpr rfl⟩
    have hmem : ∀ x, x ∈ insertBy same s y ↔ x ∈ s ∨ x = y := by
      intro x; unfold insertBy
      split
      · rename_i h
        exact ⟨Or.inl, fun h' => h'.elim id (fun e => e ▸ hany.mp h)⟩
      · simp
    have hnd : (insertBy same s y).Nodup := by
      unfold insertBy
      split
      · exact hn
      · rename_i h
        rw [List.nodup_append]
        exact ⟨hn, by simp, by rintro a ha b hb rfl; rw [List.mem_singleton] at hb; subst hb; exact h (hany.mpr ha)⟩
    obtain ⟨h1, h2⟩ := ih (insertBy same s y) (fun x hx => hl x (by simp [hx]))
      (fun x hx => ((hmem x).mp hx).elim (hs x) (fun e => e ▸ hy)) hnd
    refine ⟨fun x => ?_, h2⟩
    rw [List.foldl_cons, h1 x, hmem, List.mem_cons]
    tauto

theorem mem_roundMerges {α : Type} (merger : α → α → Option α) (vec : List α) (m : α) (i j : Nat) :
    (m, i, j) ∈ roundMerges merger vec ↔
      ∃ x y, vec[i]? = some x ∧ vec[j]? = some y ∧ i ≠ j ∧ merger x y = some m := by
  unfold roundMerges
  simp only [List.mem_flatMap, List.mem_filterMap, Prod.exists]
  constructor
  · rintro ⟨x, i', hx, y, j', hy, h⟩
    rw [List.mem_zipIdx_iff_getElem?] at hx hy
    simp only at hx hy h
    split at h
    · rename_i hne
      rw [Option.map_eq_some_iff] at h
      obtain ⟨m', hm, he⟩ := h
      cases he
      exact ⟨x, y, hx, hy, hne, hm⟩
    · cases h
  · rintro ⟨x, y, hx, hy, hne, hm⟩
    refine ⟨x, i, List.mem_zipIdx_iff_getElem?.mpr hx, y, j, List.mem_zipIdx_iff_getElem?.mpr hy, ?_⟩
    rw [if_pos hne, hm]; rfl

theorem foldl_if_filter {α β : Type} (p : β → Bool) (f : α → β → α) (g : β → Bool) (l : List β) (s : α)
    (h : ∀ b, p b = !g b) : l.foldl (fun s b => if g b then s else f s b) s = (l.filter p).foldl f s := by
  induction l generalizing s with
  | nil => rfl
  | cons b bs ih =>
    rw [List.foldl_cons, ih, List.filter_cons, h b]
    cases g b <;> simp

/-- One round, for elements that are compared rightly. -/
theorem maximizeRound_spec {α : Type} (same : α → α → Bool) (merger : α → α → Option α) (G : α → Prop)
    (hsame : ∀ x y, G x → G y → (same x y = true ↔ x = y))
    (hG : ∀ x y m, G x → G y → merger x y = some m → G m) (vec : List α) (hv : ∀ x ∈ vec, G x) (hn : vec.Nodup) :
    (maximizeRound same merger vec = none ↔ ∀ x ∈ vec, ∀ y ∈ vec, x ≠ y → merger x y = none) ∧
    ∀ new, maximizeRound same merger vec = some new → new.Nodup ∧ (∀ x ∈ new, G x) ∧
      ∀ z, z ∈ new ↔ (∃ x ∈ vec, ∃ y ∈ vec, x ≠ y ∧ merger x y = some z) ∨
        (z ∈ vec ∧ ∀ y ∈ vec, y ≠ z → merger z y = none ∧ merger y z = none) := by
  have hidx : ∀ {i j : Nat} {x y : α}, vec[i]? = some x → vec[j]? = some y → (i ≠ j ↔ x ≠ y) := by
    intro i j x y hi hj
    obtain ⟨hi', rfl⟩ := List.getElem?_eq_some_iff.mp hi
    obtain ⟨hj', rfl⟩ := List.getElem?_eq_some_iff.mp hj
    rw [Ne, Ne, hn.getElem_inj_iff]
  have hmerge : ∀ z, (∃ i j, (z, i, j) ∈ roundMerges merger vec) ↔ ∃ x ∈ vec, ∃ y ∈ vec, x ≠ y ∧ merger x y = some z := by
    intro z
    constructor
    · rintro ⟨i, j, h⟩
      obtain ⟨x, y, hx, hy, hne, hm⟩ := (mem_roundMerges _ _ _ _ _).mp h
      exact ⟨x, List.mem_of_getElem? hx, y, List.mem_of_getElem? hy, (hidx hx hy).mp hne, hm⟩
    · rintro ⟨x, hx, y, hy, hne, hm⟩
      obtain ⟨i, hi⟩ := List.mem_iff_getElem?.mp hx
      obtain ⟨j, hj⟩ := List.mem_iff_getElem?.mp hy
      exact ⟨i, j, (mem_roundMerges _ _ _ _ _).mpr ⟨x, y, hi, hj, (hidx hi hj).mpr hne, hm⟩⟩
  constructor
  · unfold maximizeRound
    simp only
    split
    · rename_i h
      rw [List.isEmpty_iff] at h
      refine ⟨fun _ x hx y hy hne => ?_, fun _ => rfl⟩
      cases hm : merger x y with
      | none => rfl
      | some z =>
        obtain ⟨i, j, hij⟩ := (hmerge z).mpr ⟨x, hx, y, hy, hne, hm⟩
        rw [h] at hij; cases hij
    · rename_i h
      refine ⟨fun h' => (nomatch h'), fun hno => absurd ?_ h⟩
      rw [List.isEmpty_iff, List.eq_nil_iff_forall_not_mem]
      rintro ⟨z, i, j⟩ hz
      obtain ⟨x, hx, y, hy, hne, hm⟩ := (hmerge z).mp ⟨i, j, hz⟩
      rw [hno x hx y hy hne] at hm; cases hm
  · intro new hnew
    unfold maximizeRound at hnew
    simp only at hnew
    split at hnew
    · cases hnew
    · cases hnew
      set merges := roundMerges merger vec with hmerges
      have hGm : ∀ z ∈ merges.map Prod.fst, G z := by
        intro z hz
        obtain ⟨⟨z', i, j⟩, hm, rfl⟩ := List.mem_map.mp hz
        obtain ⟨x, hx, y, hy, _, h⟩ := (hmerge z').mp ⟨i, j, hm⟩
        exact hG x y z' (hv x hx) (hv y hy) h
      have hf := foldl_insertBy same G hsame (merges.map Prod.fst) [] hGm (by simp) List.nodup_nil
      rw [List.foldl_map] at hf
      obtain ⟨hf1, hf2⟩ := hf
      set idx := merges.flatMap (fun m => [m.2.1, m.2.2]) with hidxs
      have hfil := foldl_if_filter (fun x : α × Nat => !decide (x.2 ∈ idx)) (fun s x => insertBy same s x.1)
        (fun x => decide (x.2 ∈ idx)) vec.zipIdx (merges.foldl (fun s m => insertBy same s m.1) []) (fun _ => rfl)
      simp only [decide_eq_true_eq] at hfil
      rw [hfil]
      set kept := (vec.zipIdx.filter (fun x : α × Nat => !decide (x.2 ∈ idx))) with hkept
      have hkG : ∀ z ∈ kept.map Prod.fst, G z := by
        intro z hz
        obtain ⟨⟨z', i⟩, hm, rfl⟩ := List.mem_map.mp hz
        have := (List.mem_filter.mp hm).1
        rw [List.mem_zipIdx_iff_getElem?] at this
        exact hv _ (List.mem_of_getElem? this)
      have hnewG : ∀ z ∈ merges.foldl (fun s m => insertBy same s m.1) [], G z := by
        intro z hz
        exact hGm z (((hf1 z).mp hz).resolve_left (by simp))
      have hk := foldl_insertBy same G hsame (kept.map Prod.fst) _ hkG hnewG hf2
      rw [List.foldl_map] at hk
      obtain ⟨hk1, hk2⟩ := hk
      have hidx_mem : ∀ i z, vec[i]? = some z →
          (i ∈ idx ↔ ∃ y ∈ vec, y ≠ z ∧ ((merger z y).isSome = true ∨ (merger y z).isSome = true)) := by
        intro i z hi
        rw [hidxs, List.mem_flatMap]
        constructor
        · rintro ⟨⟨m, a, b⟩, hm, hi'⟩
          obtain ⟨x, y, hx, hy, hne, he⟩ := (mem_roundMerges _ _ _ _ _).mp hm
          simp only [List.mem_cons, List.not_mem_nil, or_false] at hi'
          rcases hi' with rfl | rfl
          · rw [hi] at hx; cases hx
            exact ⟨y, List.mem_of_getElem? hy, Ne.symm ((hidx hi hy).mp hne), Or.inl (by rw [he]; rfl)⟩
          · rw [hi] at hy; cases hy
            exact ⟨x, List.mem_of_getElem? hx, (hidx hx hi).mp hne, Or.inr (by rw [he]; rfl)⟩
        · rintro ⟨y, hy, hne, h⟩
          obtain ⟨j, hj⟩ := List.mem_iff_getElem?.mp hy
          rcases h with h | h
          · obtain ⟨m, hm⟩ := Option.isSome_iff_exists.mp h
            exact ⟨(m, i, j), (mem_roundMerges _ _ _ _ _).mpr ⟨z, y, hi, hj, (hidx hi hj).mpr (Ne.symm hne), hm⟩, by simp⟩
          · obtain ⟨m, hm⟩ := Option.isSome_iff_exists.mp h
            exact ⟨(m, j, i), (mem_roundMerges _ _ _ _ _).mpr ⟨y, z, hj, hi, (hidx hj hi).mpr hne, hm⟩, by simp⟩
      refine ⟨hk2, ?_, ?_⟩
      · intro z hz
        rcases (hk1 z).mp hz with h | h
        · exact hnewG z h
        · exact hkG z h
      · intro z
        rw [hk1 z, hf1 z]
        have a1 : z ∈ merges.map Prod.fst ↔ ∃ x ∈ vec, ∃ y ∈ vec, x ≠ y ∧ merger x y = some z := by
          rw [← hmerge z, List.mem_map]
          constructor
          · rintro ⟨⟨z', i, j⟩, hm, rfl⟩; exact ⟨i, j, hm⟩
          · rintro ⟨i, j, hm⟩; exact ⟨(z, i, j), hm, rfl⟩
        have a2 : z ∈ kept.map Prod.fst ↔ z ∈ vec ∧ ∀ y ∈ vec, y ≠ z → merger z y = none ∧ merger y z = none := by
          rw [List.mem_map]
          constructor
          · rintro ⟨⟨z', i⟩, hm, rfl⟩
            obtain ⟨h1, h2⟩ := List.mem_filter.mp hm
            rw [List.mem_zipIdx_iff_getElem?] at h1
            simp only [Bool.not_eq_true', decide_eq_false_iff_not] at h2
            refine ⟨List.mem_of_getElem? h1, fun y hy hne => ?_⟩
            rw [hidx_mem i _ h1] at h2
            push Not at h2
            have := h2 y hy hne
            simpa using this
          · rintro ⟨hz, hno⟩
            obtain ⟨i, hi⟩ := List.mem_iff_getElem?.mp hz
            refine ⟨(z, i), List.mem_filter.mpr ⟨List.mem_zipIdx_iff_getElem?.mpr hi, ?_⟩, rfl⟩
            simp only [Bool.not_eq_true', decide_eq_false_iff_not]
            rw [hidx_mem i z hi]
            rintro ⟨y, hy, hne, h⟩
            obtain ⟨e1, e2⟩ := hno y hy hne
            rw [e1, e2] at h
            simp at h
        rw [a1, a2]
        simp

/-! ### The loop -/

/-- The pairs of a list of alpha sets. -/
def pairsIn (l : List ASet) (p : P) : Prop := ∃ x ∈ l, x.pair = p

theorem round_next {rel : Relations} {vec new : List ASet} (hv : ∀ x ∈ vec, x.Good rel)
    (h : ∀ z, z ∈ new ↔ (∃ x ∈ vec, ∃ y ∈ vec, x ≠ y ∧ mergeSets rel x y = some z) ∨
        (z ∈ vec ∧ ∀ y ∈ vec, y ≠ z → mergeSets rel z y = none ∧ mergeSets rel y z = none)) (p : P) :
    pairsIn new p ↔ Next rel.C rel.U (pairsIn vec) p := by
  have hnone : ∀ x y, x.Good rel → (mergeSets rel x y = none ↔ ¬ Mergeable rel.C rel.U x.pair y.pair) := by
    intro x y hx
    rw [Option.eq_none_iff_forall_ne_some]
    constructor
    · intro h1 h2; exact h1 _ ((mergeSets_iff hx _).mpr ⟨h2, rfl⟩)
    · intro h1 m hm; exact h1 ((mergeSets_iff hx m).mp hm).1
  have hne : ∀ x ∈ vec, ∀ y ∈ vec, (x ≠ y ↔ x.pair ≠ y.pair) := by
    intro x hx y hy
    exact ⟨fun h1 h2 => h1 (pair_inj (hv x hx) (hv y hy) h2), fun h1 h2 => h1 (by rw [h2])⟩
  constructor
  · rintro ⟨z, hz, rfl⟩
    rcases (h z).mp hz with ⟨x, hx, y, hy, hxy, hm⟩ | ⟨hz, hno⟩
    · obtain ⟨h1, h2⟩ := (mergeSets_iff (hv x hx) z).mp hm
      exact Or.inl ⟨x.pair, y.pair, ⟨x, hx, rfl⟩, ⟨y, hy, rfl⟩, (hne x hx y hy).mp hxy, h1, by rw [h2, extend_pair]⟩
    · refine Or.inr ⟨⟨z, hz, rfl⟩, ?_⟩
      rintro q ⟨y, hy, rfl⟩ hq
      obtain ⟨h1, h2⟩ := hno y hy ((hne y hy z hz).mpr hq)
      exact ⟨(hnone z y (hv z hz)).mp h1, (hnone y z (hv y hy)).mp h2⟩
  · rintro (⟨p1, q1, ⟨x, hx, rfl⟩, ⟨y, hy, rfl⟩, hxy, hm, rfl⟩ | ⟨⟨z, hz, rfl⟩, hno⟩)
    · exact ⟨x.extend y, (h _).mpr (Or.inl ⟨x, hx, y, hy, (hne x hx y hy).mpr hxy, (mergeSets_iff (hv x hx) _).mpr ⟨hm, rfl⟩⟩),
        extend_pair x y⟩
    · refine ⟨z, (h z).mpr (Or.inr ⟨hz, fun y hy hyz => ?_⟩), rfl⟩
      obtain ⟨h1, h2⟩ := hno y.pair ⟨y, hy, rfl⟩ ((hne y hy z hz).mp hyz)
      exact ⟨(hnone z y (hv z hz)).mpr h1, (hnone y z (hv y hy)).mpr h2⟩

theorem maximize_spec {info : Info} {rel : Relations} (hl : Lawful info rel) (it : Iter) {hash : List String → Nat}
    (hh : TellsApart hash info.classes.keys) (fuel t : Nat) (current : List ASet) (hg : ∀ x ∈ current, x.Good rel)
    (hn : current.Nodup) (hinv : Inv rel.C rel.U t (pairsIn current)) (h1 : 1 ≤ fuel)
    (hf : info.classes.keys.length ≤ t + fuel) :
    ∃ r, maximize it (ASet.same hash) (mergeSets rel) fuel t current = some r ∧ r.Nodup ∧ (∀ x ∈ r, x.Good rel) ∧
      ∀ p, pairsIn r p ↔ MaximalPair rel.C rel.U p := by
  induction fuel generalizing t current with
  | zero => omega
  | succ fuel ih =>
    have hperm := it.perm "current" t current
    have hv : ∀ x ∈ it.order "current" t current, x.Good rel := fun x hx => hg x (hperm.mem_iff.mp hx)
    have hvn : (it.order "current" t current).Nodup := hperm.nodup_iff.mpr hn
    have hpi : pairsIn (it.order "current" t current) = pairsIn current := by
      funext p
      unfold pairsIn
      simp only [hperm.mem_iff]
    obtain ⟨hs1, hs2⟩ := maximizeRound_spec (ASet.same hash) (mergeSets rel) (ASet.Good rel)
      (fun x y hx hy => same_iff hl hh hx hy)
      (fun x y m hx _ hm => by
        obtain ⟨h1, h2⟩ := (mergeSets_iff hx m).mp hm
        rw [h2]; exact extend_good h1.2) _ hv hvn
    unfold maximize
    cases hr : maximizeRound (ASet.same hash) (mergeSets rel) (it.order "current" t current) with
    | none =>
      refine ⟨current, rfl, hn, hg, ?_⟩
      apply final_exact hinv
      rintro p q ⟨x, hx, rfl⟩ ⟨y, hy, rfl⟩ hne hm
      have := hs1.mp hr x (hperm.mem_iff.mpr hx) y (hperm.mem_iff.mpr hy) (fun e => hne (by rw [e]))
      rw [(mergeSets_iff (hg x hx) _).mpr ⟨hm, rfl⟩] at this
      cases this
    | some new =>
      obtain ⟨n1, n2, n3⟩ := hs2 new hr
      have hnext := round_next hv n3
      rw [hpi] at hnext
      have hinv' : Inv rel.C rel.U (t + 1) (pairsIn new) := by
        have he : pairsIn new = Next rel.C rel.U (pairsIn current) := funext (fun p => propext (hnext p))
        rw [he]; exact next_inv hinv
      have hbig : t + 2 ≤ info.classes.keys.length := by
        by_contra hlt
        have hno := no_merge hinv (fun p hp => (size_le hl hp).1) (by omega : info.classes.keys.length < t + 2)
        have : maximizeRound (ASet.same hash) (mergeSets rel) (it.order "current" t current) = none := by
          refine hs1.mpr (fun x hx y hy hne => ?_)
          cases hm : mergeSets rel x y with
          | none => rfl
          | some m =>
            have hx' := hperm.mem_iff.mp hx
            have hy' := hperm.mem_iff.mp hy
            exact absurd ((mergeSets_iff (hv x hx) m).mp hm).1
              (hno x.pair y.pair ⟨x, hx', rfl⟩ ⟨y, hy', rfl⟩ (fun e => hne (pair_inj (hv x hx) (hv y hy) e)))
        rw [this] at hr; cases hr
      exact ih (t + 1) new n2 n1 hinv' (by omega) (by omega)

theorem mem_initialSets {info : Info} {rel : Relations} (hl : Lawful info rel) (it : Iter) {hash : List String → Nat}
    (hh : TellsApart hash info.classes.keys) :
    (initialSets it hash info rel).Nodup ∧ (∀ x ∈ initialSets it hash info rel, x.Good rel) ∧
    ∀ p, pairsIn (initialSets it hash info rel) p ↔ IsPair rel.C rel.U p ∧ Core.size p = 2 := by
  set cand := ((((info.allClasses it 0).filter (fun c => (info.followed.get? c).isSome && rel.unrelated c c)).flatMap (fun c =>
    ((info.allClasses it 1).filter (fun d => rel.causal c d && rel.unrelated d d)).map (ASet.new c))).filter
      (fun s => decide (0 < s.left.length) && decide (0 < s.right.length))) with hcand
  have hmem : ∀ x, x ∈ cand ↔ ∃ c d, rel.causal c d = true ∧ rel.unrelated c c = true ∧ rel.unrelated d d = true ∧
      x = ASet.new c d := by
    intro x
    rw [hcand]
    simp only [List.mem_filter, List.mem_flatMap, List.mem_map, Bool.and_eq_true, decide_eq_true_eq]
    constructor
    · rintro ⟨⟨c, ⟨_, _, h1⟩, d, ⟨_, h2, h3⟩, rfl⟩, _⟩
      exact ⟨c, d, h2, h1, h3, rfl⟩
    · rintro ⟨c, d, h2, h1, h3, rfl⟩
      obtain ⟨k1, k2, k3⟩ := hl.classes c d h2
      have hp : ∀ n a, a ∈ info.allClasses it n ↔ a ∈ info.classes.keys := fun n a => (it.perm _ _ _).mem_iff
      exact ⟨⟨c, ⟨(hp 0 c).mpr k1, k3, h1⟩, d, ⟨(hp 1 d).mpr k2, h2, h3⟩, rfl⟩, by simp [ASet.new]⟩
  have hpair : ∀ c d, (ASet.new c d).pair = ({c}, {d}) := by intro c d; simp [ASet.pair, ASet.new]
  have hgood : ∀ x ∈ cand, x.Good rel := by
    intro x hx
    obtain ⟨c, d, h2, h1, h3, rfl⟩ := (hmem x).mp hx
    refine ⟨by simp [ASet.new], by simp [ASet.new], ?_⟩
    rw [hpair]
    exact ⟨by simp, by simp, by simpa [Relations.C] using h2, by simpa [Relations.U] using h1, by simpa [Relations.U] using h3⟩
  have hf := foldl_insertBy (ASet.same hash) (ASet.Good rel) (fun x y hx hy => same_iff hl hh hx hy) cand [] hgood (by simp)
    List.nodup_nil
  have hi : initialSets it hash info rel = cand.foldl (insertBy (ASet.same hash)) [] := rfl
  rw [hi]
  refine ⟨hf.2, fun x hx => hgood x (((hf.1 x).mp hx).resolve_left (by simp)), ?_⟩
  intro p
  unfold pairsIn
  constructor
  · rintro ⟨x, hx, rfl⟩
    have hx' := ((hf.1 x).mp hx).resolve_left (by simp)
    refine ⟨(hgood x hx').pair, ?_⟩
    obtain ⟨c, d, _, _, _, rfl⟩ := (hmem x).mp hx'
    rw [hpair]; simp [Core.size]
  · rintro ⟨hp, hs⟩
    have c1 := Finset.card_pos.mpr hp.left
    have c2 := Finset.card_pos.mpr hp.right
    unfold Core.size at hs
    obtain ⟨a, ha⟩ := Finset.card_eq_one.mp (show p.1.card = 1 by omega)
    obtain ⟨b, hb⟩ := Finset.card_eq_one.mp (show p.2.card = 1 by omega)
    refine ⟨ASet.new a b, (hf.1 _).mpr (Or.inr ((hmem _).mpr ⟨a, b, ?_, ?_, ?_, rfl⟩)), ?_⟩
    · exact hp.causal a (by simp [ha]) b (by simp [hb])
    · exact hp.leftUnrelated a (by simp [ha]) a (by simp [ha])
    · exact hp.rightUnrelated b (by simp [hb]) b (by simp [hb])
    · rw [hpair]; exact Prod.ext ha.symm hb.symm

/-- The sets of the algorithm are the maximal pairs. -/
theorem alphaSets_spec {info : Info} {rel : Relations} (hl : Lawful info rel) (it : Iter) {hash : List String → Nat}
    (hh : TellsApart hash info.classes.keys) (fuel : Nat) (hf : info.classes.keys.length < fuel) :
    ∃ r, alphaSets it hash fuel info rel = some r ∧ r.Nodup ∧ (∀ x ∈ r, x.Good rel) ∧
      ∀ p, pairsIn r p ↔ MaximalPair rel.C rel.U p := by
  obtain ⟨i1, i2, i3⟩ := mem_initialSets hl it hh
  have hinv : Inv rel.C rel.U 0 (pairsIn (initialSets it hash info rel)) := by
    have he : pairsIn (initialSets it hash info rel) = (fun p => IsPair rel.C rel.U p ∧ Core.size p = 2) :=
      funext (fun p => propext (i3 p))
    rw [he]; exact start_inv
  obtain ⟨r, hr, n1, n2, n3⟩ := maximize_spec hl it hh fuel 0 _ i2 i1 hinv (by omega) (by omega)
  have hperm := it.perm "current_sets" 0 r
  have hall : onlyMaximal it hash r = it.order "current_sets" 0 r := by
    unfold onlyMaximal
    rw [List.filter_eq_self]
    intro x hx
    have hx' := hperm.mem_iff.mp hx
    rw [Bool.not_eq_true', Bool.eq_false_iff]
    intro h
    obtain ⟨y, hy, h⟩ := List.any_eq_true.mp h
    simp only [Bool.and_eq_true, Bool.not_eq_true', ASet.fullSubset, leftSubset_iff, rightSubset_iff] at h
    obtain ⟨h1, h2, h3⟩ := h
    have hm := (n3 x.pair).mp ⟨x, hx', rfl⟩
    have he := hm.2 y.pair (n2 y hy).pair h2 h3
    have : x = y := pair_inj (n2 x hx') (n2 y hy) he.symm
    rw [(same_iff hl hh (n2 x hx') (n2 y hy)).mpr this] at h1
    cases h1
  refine ⟨onlyMaximal it hash r, by unfold alphaSets; rw [hr]; rfl, ?_, ?_, ?_⟩
  · rw [hall]; exact hperm.nodup_iff.mpr n1
  · rw [hall]; intro x hx; exact n2 x (hperm.mem_iff.mp hx)
  · intro p
    rw [← n3 p, hall]
    unfold pairsIn
    simp only [hperm.mem_iff]

end Ficus.Rs
