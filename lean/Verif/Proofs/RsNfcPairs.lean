import Verif.Proofs.RsNfc
import Verif.Proofs.RsMaximize
import Mathlib.Data.Finset.Sum

/-! The pairs of the third relation of Alpha++ NFC. -/

namespace Ficus.Rs.Nfc
open Spec Spec.Nfc

variable (w3 : List (String × String)) (unrelated : String → String → Bool)

/-- The relations of the pairs. -/
def pairRel : Relations where
  causal a b := decide ((a, b) ∈ w3)
  unrelated := unrelated

/-- The names of the two sides. -/
def pairVal (x : ASet) : Finset (String ⊕ String) := x.left.toFinset.disjSum x.right.toFinset

/-- The set of names is a pair. -/
def PairV (s : Finset (String ⊕ String)) : Prop := IsPair (pairRel w3 unrelated).C (pairRel w3 unrelated).U (s.toLeft, s.toRight)

variable {w3 unrelated}

theorem pairV_val (x : ASet) : PairV w3 unrelated (pairVal x) ↔ IsPair (pairRel w3 unrelated).C (pairRel w3 unrelated).U x.pair := by
  simp [PairV, pairVal, ASet.pair]

theorem pairVal_extend (x y : ASet) : pairVal (x.extend y) = pairVal x ∪ pairVal y := by
  have h := extend_pair x y
  simp only [ASet.pair, Core.join, Prod.mk.injEq] at h
  unfold pairVal
  rw [h.1, h.2]
  ext z
  cases z <;> simp

theorem pairV_mono {s t : Finset (String ⊕ String)} (h : PairV w3 unrelated s) (ht : t ⊆ s) (hl : t.toLeft.Nonempty)
    (hr : t.toRight.Nonempty) : PairV w3 unrelated t := by
  have h1 : ∀ a ∈ t.toLeft, a ∈ s.toLeft := fun a ha => Finset.mem_toLeft.mpr (ht (Finset.mem_toLeft.mp ha))
  have h2 : ∀ a ∈ t.toRight, a ∈ s.toRight := fun a ha => Finset.mem_toRight.mpr (ht (Finset.mem_toRight.mp ha))
  exact ⟨hl, hr, fun a ha b hb => h.causal a (h1 a ha) b (h2 b hb), fun a ha b hb => h.leftUnrelated a (h1 a ha) b (h1 b hb),
    fun a ha b hb => h.rightUnrelated a (h2 a ha) b (h2 b hb)⟩

theorem pairValid_iff (x : ASet) (hl : x.left ≠ []) (hr : x.right ≠ []) :
    pairValid w3 unrelated x = true ↔ IsPair (pairRel w3 unrelated).C (pairRel w3 unrelated).U x.pair := by
  unfold pairValid
  simp only [Bool.and_eq_true, List.all_eq_true, decide_eq_true_eq]
  constructor
  · rintro ⟨⟨h1, h2⟩, h3⟩
    refine ⟨?_, ?_, ?_, ?_, ?_⟩
    · obtain ⟨a, ha⟩ := List.exists_mem_of_ne_nil _ hl
      exact ⟨a, by simpa [ASet.pair] using ha⟩
    · obtain ⟨a, ha⟩ := List.exists_mem_of_ne_nil _ hr
      exact ⟨a, by simpa [ASet.pair] using ha⟩
    · intro a ha b hb
      simp only [ASet.pair, List.mem_toFinset] at ha hb
      simpa [Relations.C, pairRel] using h1 a ha b hb
    · intro a ha b hb
      simp only [ASet.pair, List.mem_toFinset] at ha hb
      exact h2 a ha b hb
    · intro a ha b hb
      simp only [ASet.pair, List.mem_toFinset] at ha hb
      exact h3 a ha b hb
  · intro h
    refine ⟨⟨fun a ha b hb => ?_, fun a ha b hb => ?_⟩, fun a ha b hb => ?_⟩
    · have := h.causal a (by simpa [ASet.pair] using ha) b (by simpa [ASet.pair] using hb)
      simpa [Relations.C, pairRel] using this
    · exact h.leftUnrelated a (by simpa [ASet.pair] using ha) b (by simpa [ASet.pair] using hb)
    · exact h.rightUnrelated a (by simpa [ASet.pair] using ha) b (by simpa [ASet.pair] using hb)

theorem good_ne {rel : Relations} {x : ASet} (h : x.Good rel) : x.left ≠ [] ∧ x.right ≠ [] := by
  constructor
  · intro e; obtain ⟨a, ha⟩ := h.pair.left; simp [ASet.pair, e] at ha
  · intro e; obtain ⟨a, ha⟩ := h.pair.right; simp [ASet.pair, e] at ha

theorem extend_ne {rel : Relations} {x y : ASet} (h : x.Good rel) : (x.extend y).left ≠ [] ∧ (x.extend y).right ≠ [] := by
  obtain ⟨⟨a, ha⟩, ⟨b, hb⟩⟩ := (⟨h.pair.left, h.pair.right⟩ : _ ∧ _)
  have e := extend_pair x y
  simp only [ASet.pair, Core.join, Prod.mk.injEq] at e
  simp only [ASet.pair] at ha hb
  constructor
  · intro e'
    have : a ∈ (x.extend y).left.toFinset := by rw [e.1]; exact Finset.mem_union_left _ ha
    rw [e'] at this; simp at this
  · intro e'
    have : b ∈ (x.extend y).right.toFinset := by rw [e.2]; exact Finset.mem_union_left _ hb
    rw [e'] at this; simp at this

theorem pairMerge_iff {x y m : ASet} (hx : x.Good (pairRel w3 unrelated)) : pairMerge w3 unrelated x y = some m ↔
    PairV w3 unrelated (pairVal x ∪ pairVal y) ∧ m = x.extend y := by
  unfold pairMerge
  obtain ⟨e1, e2⟩ := extend_ne (y := y) hx
  rw [← pairVal_extend, pairV_val, ← pairValid_iff _ e1 e2]
  split
  · rename_i h; simp [h, eq_comm]
  · rename_i h; simp [h]

theorem pairVal_inj {rel : Relations} {x y : ASet} (hx : x.Good rel) (hy : y.Good rel) (h : pairVal x = pairVal y) : x = y := by
  refine pair_inj hx hy ?_
  have h1 := congrArg Finset.toLeft h
  have h2 := congrArg Finset.toRight h
  simp only [pairVal, Finset.toLeft_disjSum, Finset.toRight_disjSum] at h1 h2
  exact Prod.ext h1 h2

/-- A pair has each name on one side only, if no relation follows from two others. -/
theorem pair_size {classes : List String} (ht : NoTriangle w3) (hc : ∀ a b, (a, b) ∈ w3 → a ∈ classes ∧ b ∈ classes)
    {p : Core.P} (hp : IsPair (pairRel w3 unrelated).C (pairRel w3 unrelated).U p) :
    Core.size p ≤ classes.length ∧ (∀ a ∈ p.1, a ∈ classes) ∧ ∀ a ∈ p.2, a ∈ classes := by
  have hcausal : ∀ a ∈ p.1, ∀ b ∈ p.2, (a, b) ∈ w3 := by
    intro a ha b hb
    have := hp.causal a ha b hb
    simpa [Relations.C, pairRel] using this
  obtain ⟨x, hx⟩ := hp.left
  obtain ⟨y, hy⟩ := hp.right
  have h1 : ∀ a ∈ p.1, a ∈ classes := fun a ha => (hc _ _ (hcausal a ha y hy)).1
  have h2 : ∀ a ∈ p.2, a ∈ classes := fun a ha => (hc _ _ (hcausal x hx a ha)).2
  refine ⟨?_, h1, h2⟩
  have hdis : Disjoint p.1 p.2 := by
    rw [Finset.disjoint_left]
    intro a ha hb
    have := hcausal a ha a hb
    exact ht a a a this this this
  unfold Core.size
  rw [← Finset.card_union_of_disjoint hdis]
  refine (Finset.card_le_card (t := classes.toFinset) ?_).trans (List.toFinset_card_le _)
  intro a ha
  rw [List.mem_toFinset]
  rcases Finset.mem_union.mp ha with h | h
  · exact h1 a h
  · exact h2 a h

theorem pair_key_inj (ht : NoTriangle w3) {x y : ASet} (hx : x.Good (pairRel w3 unrelated)) (hy : y.Good (pairRel w3 unrelated))
    (h : x.key = y.key) : x = y := by
  have mem : ∀ {x : ASet}, x.Good (pairRel w3 unrelated) → ∀ a ∈ x.left, ∀ b ∈ x.right, (a, b) ∈ w3 := by
    intro x hx a ha b hb
    have := hx.pair.causal a (by simpa [ASet.pair] using ha) b (by simpa [ASet.pair] using hb)
    simpa [Relations.C, pairRel] using this
  have aux : ∀ {x y : ASet}, x.Good (pairRel w3 unrelated) → y.Good (pairRel w3 unrelated) → ∀ m, y.left = x.left ++ m →
      x.right = m ++ y.right → m = [] := by
    intro x y hx hy m h1 h2
    cases m with
    | nil => rfl
    | cons p m =>
      exfalso
      obtain ⟨a, ha⟩ := List.exists_mem_of_ne_nil _ (good_ne hx).1
      obtain ⟨b, hb⟩ := List.exists_mem_of_ne_nil _ (good_ne hy).2
      exact ht a p b (mem hx a ha p (by simp [h2])) (mem hy p (by simp [h1]) b hb) (mem hy a (by simp [h1, ha]) b hb)
  unfold ASet.key at h
  rcases List.append_eq_append_iff.mp h with ⟨m, h1, h2⟩ | ⟨m, h1, h2⟩
  · have := aux hx hy m h1 h2
    subst this
    cases x; cases y; simp_all
  · have := aux hy hx m h1 h2
    subst this
    cases x; cases y; simp_all

theorem pair_same {classes : List String} (ht : NoTriangle w3) (hc : ∀ a b, (a, b) ∈ w3 → a ∈ classes ∧ b ∈ classes)
    {hash : List String → Nat} (hh : TellsApart hash classes) {x y : ASet} (hx : x.Good (pairRel w3 unrelated))
    (hy : y.Good (pairRel w3 unrelated)) : ASet.same hash x y = true ↔ x = y := by
  unfold ASet.same
  rw [decide_eq_true_iff]
  refine ⟨fun h => ?_, fun h => by rw [h]⟩
  have sx := pair_size ht hc hx.pair
  have sy := pair_size ht hc hy.pair
  refine pair_key_inj ht hx hy (hh _ _ ?_ ?_ ?_ ?_ h)
  · rw [card_left hx]; exact sx.1
  · rw [card_left hy]; exact sy.1
  · intro a ha
    rcases List.mem_append.mp ha with ha | ha
    · exact sx.2.1 a (List.mem_toFinset.mpr ha)
    · exact sx.2.2 a (List.mem_toFinset.mpr ha)
  · intro a ha
    rcases List.mem_append.mp ha with ha | ha
    · exact sy.2.1 a (List.mem_toFinset.mpr ha)
    · exact sy.2.2 a (List.mem_toFinset.mpr ha)

theorem pair_joins {classes : List String} (ht : NoTriangle w3) (hc : ∀ a b, (a, b) ∈ w3 → a ∈ classes ∧ b ∈ classes)
    {hash : List String → Nat} (hh : TellsApart hash classes) :
    Joins (ASet.same hash) (pairMerge w3 unrelated) (ASet.Good (pairRel w3 unrelated)) pairVal (PairV w3 unrelated) classes.length where
  same x y hx hy := pair_same ht hc hh hx hy
  inj x y hx hy h := pairVal_inj hx hy h
  valid x hx := (pairV_val x).mpr hx.pair
  merge x y m hx hy := by
    rw [pairMerge_iff hx]
    constructor
    · rintro ⟨h, rfl⟩
      refine ⟨h, ?_, pairVal_extend x y⟩
      rw [← pairVal_extend, pairV_val] at h
      exact ⟨(sortedSet_spec _).1, (sortedSet_spec _).1, h⟩
    · rintro ⟨h, hm, e⟩
      refine ⟨h, ?_⟩
      rw [← pairVal_extend] at e
      rw [← pairVal_extend, pairV_val] at h
      exact pairVal_inj hm ⟨(sortedSet_spec _).1, (sortedSet_spec _).1, h⟩ e
  total x y hx _ h := ⟨_, (pairMerge_iff hx).mpr ⟨h, rfl⟩⟩
  mono x y s hx _ hs hsub := by
    refine pairV_mono hs hsub ?_ ?_
    · obtain ⟨a, ha⟩ := hx.pair.left
      exact ⟨a, Finset.mem_toLeft.mpr (Finset.mem_union_left _ (by simpa [pairVal, ASet.pair] using ha))⟩
    · obtain ⟨a, ha⟩ := hx.pair.right
      exact ⟨a, Finset.mem_toRight.mpr (Finset.mem_union_left _ (by simpa [pairVal, ASet.pair] using ha))⟩
  nonempty s hs := by
    obtain ⟨a, ha⟩ := hs.left
    exact ⟨_, Finset.mem_toLeft.mp ha⟩
  card s hs := by
    have := (pair_size ht hc hs).1
    unfold Core.size at this
    simp only at this
    rwa [Finset.card_toLeft_add_card_toRight] at this

/-- The pairs at the end are the maximal ones. -/
theorem zw_spec {classes : List String} (ht : NoTriangle w3) (hc : ∀ a b, (a, b) ∈ w3 → a ∈ classes ∧ b ∈ classes)
    {hash : List String → Nat} (hh : TellsApart hash classes) (it : Iter) (fuel : Nat) (hf : classes.length < fuel) :
    ∃ r, zw it hash fuel classes w3 unrelated = some r ∧ r.Nodup ∧ (∀ x ∈ r, x.Good (pairRel w3 unrelated)) ∧
      ∀ p, (∃ x ∈ r, x.pair = p) ↔ MaximalPair (pairRel w3 unrelated).C (pairRel w3 unrelated).U p := by
  have J := pair_joins (unrelated := unrelated) ht hc hh
  have hsingle : ∀ a b, (ASet.new a b).pair = ({a}, {b}) := by intro a b; simp [ASet.pair, ASet.new]
  have hcand : ∀ x, x ∈ pairCandidates it classes w3 unrelated ↔ ∃ a b, x = ASet.new a b ∧
      IsPair (pairRel w3 unrelated).C (pairRel w3 unrelated).U ({a}, {b}) := by
    intro x
    unfold pairCandidates
    simp only [List.mem_flatMap, List.mem_filterMap, (it.perm _ _ _).mem_iff]
    constructor
    · rintro ⟨a, _, b, _, h⟩
      split at h
      · rename_i hv
        cases h
        refine ⟨a, b, rfl, ?_⟩
        rw [pairValid_iff _ (by simp [ASet.new]) (by simp [ASet.new]), hsingle] at hv
        exact hv
      · cases h
    · rintro ⟨a, b, rfl, h⟩
      have h' := (pair_size ht hc h)
      refine ⟨a, h'.2.1 a (by simp), b, h'.2.2 b (by simp), ?_⟩
      rw [if_pos]
      rw [pairValid_iff _ (by simp [ASet.new]) (by simp [ASet.new]), hsingle]
      exact h
  have hgood : ∀ x ∈ pairCandidates it classes w3 unrelated, x.Good (pairRel w3 unrelated) := by
    intro x hx
    obtain ⟨a, b, rfl, h⟩ := (hcand x).mp hx
    exact ⟨by simp [ASet.new], by simp [ASet.new], by rw [hsingle]; exact h⟩
  obtain ⟨f1, f2⟩ := foldl_insertBy (ASet.same hash) _ J.same (pairCandidates it classes w3 unrelated) [] hgood (by simp) List.nodup_nil
  simp only [List.not_mem_nil, false_or] at f1
  obtain ⟨r, h1, h2, h3, h4⟩ := maximize_joins J it _ (fun x hx => hgood x ((f1 x).mp hx)) f2 fuel hf
  refine ⟨r, h1, h2, h3, fun p => ?_⟩
  have hcov : ∀ s, PairV w3 unrelated s →
      Covered pairVal ((pairCandidates it classes w3 unrelated).foldl (insertBy (ASet.same hash)) []) s := by
    intro s hs b hb
    have hsub : ∀ l ∈ s.toLeft, ∀ r ∈ s.toRight, ASet.new l r ∈ pairCandidates it classes w3 unrelated := by
      intro l hl r hr
      refine (hcand _).mpr ⟨l, r, rfl, ⟨by simp, by simp, ?_, ?_, ?_⟩⟩
      · intro a ha b hb; simp at ha hb; subst ha hb; exact hs.causal _ hl _ hr
      · intro a ha b hb; simp at ha hb; subst ha hb; exact hs.leftUnrelated _ hl _ hl
      · intro a ha b hb; simp at ha hb; subst ha hb; exact hs.rightUnrelated _ hr _ hr
    have hval : ∀ l r, pairVal (ASet.new l r) = {Sum.inl l, Sum.inr r} := by
      intro l r; ext z; cases z <;> simp [pairVal, ASet.new]
    obtain ⟨l, hl⟩ := hs.left
    obtain ⟨r, hr⟩ := hs.right
    simp only at hl hr
    cases b with
    | inl a =>
      have ha := Finset.mem_toLeft.mpr hb
      refine ⟨ASet.new a r, (f1 _).mpr (hsub a ha r hr), by rw [hval]; simp, ?_⟩
      rw [hval]; intro z hz; simp at hz
      rcases hz with rfl | rfl
      · exact hb
      · exact Finset.mem_toRight.mp hr
    | inr a =>
      have ha := Finset.mem_toRight.mpr hb
      refine ⟨ASet.new l a, (f1 _).mpr (hsub l hl a ha), by rw [hval]; simp, ?_⟩
      rw [hval]; intro z hz; simp at hz
      rcases hz with rfl | rfl
      · exact Finset.mem_toLeft.mp hl
      · exact hb
  have e1 : (∃ x ∈ r, x.pair = p) ↔ ∃ x ∈ r, pairVal x = p.1.disjSum p.2 := by
    refine exists_congr (fun x => and_congr_right (fun _ => ?_))
    constructor
    · rintro rfl; rfl
    · intro h
      have h1 := congrArg Finset.toLeft h
      have h2 := congrArg Finset.toRight h
      simp only [pairVal, Finset.toLeft_disjSum, Finset.toRight_disjSum] at h1 h2
      exact Prod.ext h1 h2
  rw [e1, h4]
  unfold Top MaximalPair
  have e2 : ∀ q : Core.P, PairV w3 unrelated (q.1.disjSum q.2) ↔ IsPair (pairRel w3 unrelated).C (pairRel w3 unrelated).U q := by
    intro q; simp [PairV]
  constructor
  · rintro ⟨hv, _, hm⟩
    refine ⟨(e2 p).mp hv, fun q hq h1 h2 => ?_⟩
    have := hm _ ((e2 q).mpr hq) (hcov _ ((e2 q).mpr hq)) (Finset.disjSum_mono h1 h2)
    have k1 := congrArg Finset.toLeft this
    have k2 := congrArg Finset.toRight this
    simp only [Finset.toLeft_disjSum, Finset.toRight_disjSum] at k1 k2
    exact Prod.ext k1 k2
  · rintro ⟨hv, hm⟩
    refine ⟨(e2 p).mpr hv, hcov _ ((e2 p).mpr hv), fun t ht' _ hsub => ?_⟩
    have := hm (t.toLeft, t.toRight) ht' ?_ ?_
    · rw [← this]; ext z; cases z <;> simp
    · intro a ha; exact Finset.mem_toLeft.mpr (hsub (by simpa using ha))
    · intro a ha; exact Finset.mem_toRight.mpr (hsub (by simpa using ha))

end Ficus.Rs.Nfc
