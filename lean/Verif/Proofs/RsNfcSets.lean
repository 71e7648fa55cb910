import Verif.Model.RsNfcSets
import Verif.Spec.RsNfcSets
import Verif.Spec.RsNet
import Verif.Proofs.RsMaximize

/-! Proofs about the extended sets of Alpha++ NFC. -/

namespace Ficus.Rs.Nfc
open Spec Spec.Nfc

/-- The relations with the classes and the sets that are extended. -/
structure EScene where
  rel : ESetRel
  classes : List String
  bases : List ASet

def EScene.Implied (sc : EScene) (a b : String) : Prop := sc.rel.implied a b = true

def EScene.Apart (sc : EScene) (a b : String) : Prop := sc.rel.unrelated a b = true ∧ sc.rel.double a b = false

def EScene.Ext (sc : EScene) (b : ASet) (x : Finset String × Finset String) : Prop :=
  IsExtension sc.classes sc.Implied sc.Apart (sides b) x

abbrev Marked := Finset (ASet ⊕ (String ⊕ String))

def ESet.sets (x : ESet) : Finset String × Finset String := (x.left.toFinset, x.right.toFinset)

def mark (b : ASet) (x : Finset String × Finset String) : Marked := ({b} : Finset ASet).disjSum (x.1.disjSum x.2)

def unmark (s : Marked) : Finset String × Finset String := (s.toRight.toLeft, s.toRight.toRight)

def esetVal (x : ESet) : Marked := mark x.base x.sets

structure ESet.Good (sc : EScene) (x : ESet) : Prop where
  base : x.base ∈ sc.bases
  left : x.left.Pairwise (· < ·)
  right : x.right.Pairwise (· < ·)
  ok : sc.Ext x.base x.sets

def ESetV (sc : EScene) (s : Marked) : Prop := ∃ b ∈ sc.bases, s.toLeft = {b} ∧ sc.Ext b (unmark s)

variable {sc : EScene}

theorem unmark_mark (b : ASet) (x : Finset String × Finset String) : unmark (mark b x) = x := by simp [mark, unmark]

theorem mark_left (b : ASet) (x : Finset String × Finset String) : (mark b x).toLeft = {b} := by simp [mark]

theorem mark_unmark (s : Marked) (b : ASet) (h : s.toLeft = {b}) : mark b (unmark s) = s := by
  ext z
  rcases z with z | z | z
  · have : z ∈ s.toLeft ↔ z = b := by rw [h]; simp
    simpa [mark] using this.symm
  · simp [mark, unmark]
  · simp [mark, unmark]

theorem mark_inj {b c : ASet} {x y : Finset String × Finset String} (h : mark b x = mark c y) : b = c ∧ x = y := by
  have h1 := congrArg Finset.toLeft h
  have h2 := congrArg unmark h
  rw [mark_left, mark_left] at h1
  rw [unmark_mark, unmark_mark] at h2
  exact ⟨by simpa using h1, h2⟩

theorem mark_subset {b c : ASet} {x y : Finset String × Finset String} : mark b x ⊆ mark c y ↔ b = c ∧ x.1 ⊆ y.1 ∧ x.2 ⊆ y.2 := by
  constructor
  · intro h
    refine ⟨?_, fun a ha => ?_, fun a ha => ?_⟩
    · have := h (show Sum.inl b ∈ mark b x by simp [mark]); simpa [mark] using this
    · have := h (show Sum.inr (Sum.inl a) ∈ mark b x by simpa [mark] using ha); simpa [mark] using this
    · have := h (show Sum.inr (Sum.inr a) ∈ mark b x by simpa [mark] using ha); simpa [mark] using this
  · rintro ⟨rfl, h1, h2⟩
    exact Finset.disjSum_mono (Finset.Subset.refl _) (Finset.disjSum_mono h1 h2)

theorem esetVal_inj {x y : ESet} (hx : x.Good sc) (hy : y.Good sc) (h : esetVal x = esetVal y) : x = y := by
  obtain ⟨h1, h2⟩ := mark_inj h
  have e1 : x.left = y.left := sorted_ext hx.left hy.left (congrArg Prod.fst h2)
  have e2 : x.right = y.right := sorted_ext hx.right hy.right (congrArg Prod.snd h2)
  cases x; cases y
  simp_all

theorem esetV_mark (b : ASet) (x : Finset String × Finset String) : ESetV sc (mark b x) ↔ b ∈ sc.bases ∧ sc.Ext b x := by
  unfold ESetV
  constructor
  · rintro ⟨c, hc, h1, h2⟩
    rw [mark_left] at h1
    have : b = c := by simpa using h1
    subst this
    rw [unmark_mark] at h2
    exact ⟨hc, h2⟩
  · rintro ⟨h1, h2⟩
    exact ⟨b, h1, mark_left b x, by rw [unmark_mark]; exact h2⟩

theorem mark_union (b : ASet) (x y : Finset String × Finset String) : mark b x ∪ mark b y = mark b (x.1 ∪ y.1, x.2 ∪ y.2) := by
  ext z
  rcases z with z | z | z <;> simp [mark]

theorem esetValid_iff (x : ESet) (h1 : ∀ a ∈ x.left, a ∈ sc.classes) (h2 : ∀ a ∈ x.right, a ∈ sc.classes) :
    x.valid sc.rel = true ↔ sc.Ext x.base x.sets := by
  unfold ESet.valid EScene.Ext
  simp only [Bool.and_eq_true, List.all_eq_true, decide_eq_true_eq, List.mem_append, Bool.not_eq_true']
  constructor
  · rintro ⟨⟨⟨⟨⟨k1, k2⟩, k3⟩, k4⟩, k5⟩, k6⟩
    constructor <;> simp only [ESet.sets, sides, List.mem_toFinset, EScene.Implied, EScene.Apart]
    · exact fun a ha => ⟨h1 a ha, k1 a ha⟩
    · exact fun a ha => ⟨h2 a ha, k2 a ha⟩
    · exact k3
    · exact fun a ha b hb => k4 b (Or.inl hb) a ha
    · exact fun a ha b hb => k4 b (Or.inr hb) a ha
    · exact fun a ha c hc => k5 c hc a ha
    · exact k6
  · rintro ⟨k1, k2, k3, k4, k5, k6, k7⟩
    simp only [ESet.sets, sides, List.mem_toFinset, EScene.Implied, EScene.Apart] at k1 k2 k3 k4 k5 k6 k7
    exact ⟨⟨⟨⟨⟨fun a ha => (k1 a ha).2, fun a ha => (k2 a ha).2⟩, k3⟩, fun b hb a ha => hb.elim (k4 a ha b) (k5 a ha b)⟩,
      fun c hc a ha => k6 a ha c hc⟩, k7⟩

theorem extend_self (b : ASet) (h : b.left.Pairwise (· < ·) ∧ b.right.Pairwise (· < ·)) : b.extend b = b := by
  have e1 : sortedSet (b.left ++ b.left) = b.left := sorted_ext (sortedSet_spec _).1 h.1 (by ext z; simp [(sortedSet_spec _).2])
  have e2 : sortedSet (b.right ++ b.right) = b.right := sorted_ext (sortedSet_spec _).1 h.2 (by ext z; simp [(sortedSet_spec _).2])
  unfold ASet.extend
  rw [e1, e2]

/-- The bases are sorted, and the hashes tell bases and extensions apart. -/
structure EScene.Told (sc : EScene) (hashBase : List String → Nat) (hash : List String → String → Nat) : Prop where
  sorted : ∀ b ∈ sc.bases, b.left.Pairwise (· < ·) ∧ b.right.Pairwise (· < ·)
  bases : ∀ b ∈ sc.bases, ∀ c ∈ sc.bases, hashBase (b.left ++ b.right) = hashBase (c.left ++ c.right) → b = c
  sets : ∀ b ∈ sc.bases, ∀ c ∈ sc.bases, ∀ x y : List String × List String,
    x.1.Pairwise (· < ·) → x.2.Pairwise (· < ·) → y.1.Pairwise (· < ·) → y.2.Pairwise (· < ·) →
    sc.Ext b (x.1.toFinset, x.2.toFinset) → sc.Ext c (y.1.toFinset, y.2.toFinset) →
    hash (b.left ++ b.right) (together x) = hash (c.left ++ c.right) (together y) → b = c ∧ x = y

theorem esetMerge_iff {hashBase : List String → Nat} {hash : List String → String → Nat} (ht : sc.Told hashBase hash) {x y m : ESet}
    (hx : x.Good sc) (hy : y.Good sc) : esetMerge hashBase sc.rel x y = some m ↔
      ESetV sc (esetVal x ∪ esetVal y) ∧ m = ⟨x.base, sortedSet (x.left ++ y.left), sortedSet (x.right ++ y.right)⟩ := by
  unfold esetMerge
  by_cases hb : x.base = y.base
  · have hs : ASet.same hashBase x.base y.base = true := by rw [hb]; simp [ASet.same]
    have hj : x.join y = ⟨x.base, sortedSet (x.left ++ y.left), sortedSet (x.right ++ y.right)⟩ := by
      unfold ESet.join
      rw [← hb, extend_self _ (ht.sorted _ hx.base)]
    rw [hs, hj]
    simp only [Bool.not_true, Bool.false_eq_true, if_false]
    have hmem := fun l : List String => (sortedSet_spec l).2
    have hv := esetValid_iff (sc := sc) ⟨x.base, sortedSet (x.left ++ y.left), sortedSet (x.right ++ y.right)⟩
      (by
        simp only [hmem, List.mem_append]
        rintro a (h | h)
        · exact (hx.ok.left a (by simpa [ESet.sets] using h)).1
        · exact (hy.ok.left a (by simpa [ESet.sets] using h)).1)
      (by
        simp only [hmem, List.mem_append]
        rintro a (h | h)
        · exact (hx.ok.right a (by simpa [ESet.sets] using h)).1
        · exact (hy.ok.right a (by simpa [ESet.sets] using h)).1)
    have hu : esetVal x ∪ esetVal y = mark x.base (ESet.sets ⟨x.base, sortedSet (x.left ++ y.left), sortedSet (x.right ++ y.right)⟩) := by
      unfold esetVal
      rw [← hb, mark_union]
      congr 1
      unfold ESet.sets
      simp only [Prod.mk.injEq]
      constructor <;> (ext z; simp [hmem])
    rw [hu, esetV_mark]
    split
    · rename_i h
      have := hv.mp h
      simp only [Option.some.injEq]
      exact ⟨fun e => ⟨⟨hx.base, this⟩, e.symm⟩, fun e => e.2.symm⟩
    · rename_i h
      refine ⟨fun e => (nomatch e), fun e => absurd (hv.mpr e.1.2) h⟩
  · have hs : ASet.same hashBase x.base y.base = false := by
      unfold ASet.same ASet.key
      exact decide_eq_false (fun h => hb (ht.bases _ hx.base _ hy.base h))
    rw [hs]
    simp only [Bool.not_false, if_true]
    refine ⟨fun e => (nomatch e), ?_⟩
    rintro ⟨⟨b, _, h, _⟩, _⟩
    exfalso
    have k1 : x.base ∈ (esetVal x ∪ esetVal y).toLeft := by simp [esetVal, mark]
    have k2 : y.base ∈ (esetVal x ∪ esetVal y).toLeft := by simp [esetVal, mark]
    rw [h] at k1 k2
    simp only [Finset.mem_singleton] at k1 k2
    exact hb (k1.trans k2.symm)

theorem ext_mono {b : ASet} {x y : Finset String × Finset String} (h : sc.Ext b y) (h1 : x.1 ⊆ y.1) (h2 : x.2 ⊆ y.2) : sc.Ext b x :=
  ⟨fun a ha => h.left a (h1 ha), fun a ha => h.right a (h2 ha), fun a ha c hc => h.oldNew a ha c (h2 hc),
    fun a ha c hc => h.newOld a (h1 ha) c hc, fun a ha c hc => h.newNew a (h1 ha) c (h2 hc),
    fun a ha c hc => h.apartLeft a (h1 ha) c hc, fun a ha c hc => h.apartRight a ha c (h2 hc)⟩

theorem eset_joins {hashBase : List String → Nat} {hash : List String → String → Nat} (ht : sc.Told hashBase hash) :
    Joins (ESet.same hash) (esetMerge hashBase sc.rel) (ESet.Good sc) esetVal (ESetV sc) (1 + (sc.classes.length + sc.classes.length)) where
  same x y hx hy := by
    unfold ESet.same ASet.key
    rw [decide_eq_true_eq]
    refine ⟨fun h => ?_, fun h => by rw [h]⟩
    obtain ⟨e1, e2⟩ := ht.sets _ hx.base _ hy.base (x.left, x.right) (y.left, y.right) hx.left hx.right hy.left hy.right hx.ok hy.ok h
    cases x; cases y
    simp_all
  inj x y hx hy h := esetVal_inj hx hy h
  valid x hx := (esetV_mark _ _).mpr ⟨hx.base, hx.ok⟩
  merge x y m hx hy := by
    rw [esetMerge_iff ht hx hy]
    have hval : ESetV sc (esetVal x ∪ esetVal y) → ESet.Good sc ⟨x.base, sortedSet (x.left ++ y.left), sortedSet (x.right ++ y.right)⟩ ∧
        esetVal ⟨x.base, sortedSet (x.left ++ y.left), sortedSet (x.right ++ y.right)⟩ = esetVal x ∪ esetVal y := by
      intro h
      obtain ⟨b, _, hb, _⟩ := id h
      have k1 : x.base ∈ (esetVal x ∪ esetVal y).toLeft := by simp [esetVal, mark]
      have k2 : y.base ∈ (esetVal x ∪ esetVal y).toLeft := by simp [esetVal, mark]
      rw [hb] at k1 k2
      simp only [Finset.mem_singleton] at k1 k2
      have hxy : x.base = y.base := k1.trans k2.symm
      have hu : esetVal ⟨x.base, sortedSet (x.left ++ y.left), sortedSet (x.right ++ y.right)⟩ = esetVal x ∪ esetVal y := by
        unfold esetVal
        rw [← hxy, mark_union]
        congr 1
        unfold ESet.sets
        simp only [Prod.mk.injEq]
        constructor <;> (ext z; simp [(sortedSet_spec _).2])
      refine ⟨⟨hx.base, (sortedSet_spec _).1, (sortedSet_spec _).1, ?_⟩, hu⟩
      rw [← hu] at h
      exact ((esetV_mark _ _).mp h).2
    constructor
    · rintro ⟨h, rfl⟩
      exact ⟨h, (hval h).1, (hval h).2⟩
    · rintro ⟨h, hm, e⟩
      exact ⟨h, esetVal_inj hm (hval h).1 (e.trans (hval h).2.symm)⟩
  total x y hx hy h := ⟨_, (esetMerge_iff ht hx hy).mpr ⟨h, rfl⟩⟩
  mono x y s hx hy hs hsub := by
    obtain ⟨b, hb, h1, h2⟩ := hs
    have e := mark_unmark s b h1
    rw [← e] at hsub
    have k1 := (mark_subset.mp (Finset.union_subset_left hsub))
    have k2 := (mark_subset.mp (Finset.union_subset_right hsub))
    unfold esetVal
    rw [k1.1, k2.1, mark_union, esetV_mark]
    exact ⟨hb, ext_mono h2 (Finset.union_subset k1.2.1 k2.2.1) (Finset.union_subset k1.2.2 k2.2.2)⟩
  nonempty s hs := by
    obtain ⟨b, _, h1, _⟩ := hs
    exact ⟨Sum.inl b, by rw [← Finset.mem_toLeft, h1]; simp⟩
  card s hs := by
    obtain ⟨b, _, h1, h2⟩ := hs
    rw [← mark_unmark s b h1, mark, Finset.card_disjSum, Finset.card_disjSum, Finset.card_singleton]
    have c1 : (unmark s).1 ⊆ sc.classes.toFinset := fun a ha => List.mem_toFinset.mpr (h2.left a ha).1
    have c2 : (unmark s).2 ⊆ sc.classes.toFinset := fun a ha => List.mem_toFinset.mpr (h2.right a ha).1
    have := (Finset.card_le_card c1).trans (List.toFinset_card_le _)
    have := (Finset.card_le_card c2).trans (List.toFinset_card_le _)
    omega

theorem yw_spec {hashBase : List String → Nat} {hash : List String → String → Nat} (ht : sc.Told hashBase hash) (it : Iter) (fuel : Nat)
    (hf : 1 + (sc.classes.length + sc.classes.length) < fuel) :
    ∃ r, yw it hashBase hash fuel sc.rel sc.classes sc.bases = some r ∧ r.Nodup ∧ (∀ x ∈ r, x.Good sc) ∧
      ∀ b x, (∃ y ∈ r, y.base = b ∧ y.sets = x) ↔ b ∈ sc.bases ∧ MaximalExtension sc.classes sc.Implied sc.Apart (sides b) x := by
  have J := eset_joins ht
  have htried : ∀ x y, ESet.tried sc.rel x = some y ↔ x.valid sc.rel = true ∧ y = x := by
    intro x y
    unfold ESet.tried
    split
    · rename_i h; simp [h, eq_comm]
    · rename_i h; simp [h]
  have hcand : ∀ x, x ∈ esetCandidates it sc.rel sc.classes sc.bases ↔
      x.base ∈ sc.bases ∧ sc.Ext x.base x.sets ∧ x.left.length ≤ 1 ∧ x.right.length ≤ 1 := by
    intro x
    unfold esetCandidates esetsOf
    simp only [List.mem_append, List.mem_flatMap, List.mem_filterMap, (it.perm _ _ _).mem_iff, List.mem_map, Option.mem_toList, htried]
    constructor
    · rintro (⟨b, hb, (⟨a, ha, c, hc, h, rfl⟩ | ⟨a, ha, (⟨h, rfl⟩ | ⟨h, rfl⟩)⟩)⟩ | ⟨b, hb, rfl⟩)
      · exact ⟨hb, (esetValid_iff (sc := sc) _ (by simpa using ha) (by simpa using hc)).mp h, by simp, by simp⟩
      · exact ⟨hb, (esetValid_iff (sc := sc) _ (by simpa using ha) (by simp)).mp h, by simp, by simp⟩
      · exact ⟨hb, (esetValid_iff (sc := sc) _ (by simp) (by simpa using ha)).mp h, by simp, by simp⟩
      · exact ⟨hb, (esetValid_iff (sc := sc) _ (by simp) (by simp)).mp (by simp [ESet.valid]), by simp, by simp⟩
    · rintro ⟨hb, hok, hl, hr⟩
      have hv := (esetValid_iff (sc := sc) x (fun a ha => (hok.left a (by simpa [ESet.sets] using ha)).1)
        (fun a ha => (hok.right a (by simpa [ESet.sets] using ha)).1)).mpr hok
      obtain ⟨base, left, right⟩ := x
      simp only at hb hl hr
      rcases left with _ | ⟨a, _ | ⟨_, _⟩⟩
      · rcases right with _ | ⟨c, _ | ⟨_, _⟩⟩
        · exact Or.inr ⟨base, hb, rfl⟩
        · exact Or.inl ⟨base, hb, Or.inr ⟨c, (hok.right c (by simp [ESet.sets])).1, Or.inr ⟨hv, rfl⟩⟩⟩
        · simp at hr
      · rcases right with _ | ⟨c, _ | ⟨_, _⟩⟩
        · exact Or.inl ⟨base, hb, Or.inr ⟨a, (hok.left a (by simp [ESet.sets])).1, Or.inl ⟨hv, rfl⟩⟩⟩
        · exact Or.inl ⟨base, hb, Or.inl ⟨a, (hok.left a (by simp [ESet.sets])).1, c, (hok.right c (by simp [ESet.sets])).1, hv, rfl⟩⟩
        · simp at hr
      · simp at hl
  have hshort : ∀ l : List String, l.length ≤ 1 → l.Pairwise (· < ·) := by
    intro l hl
    rcases l with _ | ⟨a, _ | ⟨_, _⟩⟩
    · exact List.Pairwise.nil
    · exact List.pairwise_singleton _ _
    · simp at hl
  have hgood : ∀ x ∈ esetCandidates it sc.rel sc.classes sc.bases, x.Good sc := by
    intro x hx
    obtain ⟨h1, h2, h3, h4⟩ := (hcand x).mp hx
    exact ⟨h1, hshort _ h3, hshort _ h4, h2⟩
  obtain ⟨f1, f2⟩ := foldl_insertBy (ESet.same hash) _ J.same (esetCandidates it sc.rel sc.classes sc.bases) [] hgood (by simp) List.nodup_nil
  simp only [List.not_mem_nil, false_or] at f1
  obtain ⟨r, h1, h2, h3, h4⟩ := maximize_joins J it _ (fun x hx => hgood x ((f1 x).mp hx)) f2 fuel hf
  refine ⟨r, h1, h2, h3, fun b x => ?_⟩
  have hcov : ∀ s, ESetV sc s → Covered esetVal ((esetCandidates it sc.rel sc.classes sc.bases).foldl (insertBy (ESet.same hash)) []) s := by
    rintro s ⟨c, hc, k1, k2⟩
    rw [← mark_unmark s c k1]
    generalize unmark s = u at k2
    have hin : ∀ l r : List String, l.length ≤ 1 → r.length ≤ 1 → l.toFinset ⊆ u.1 → r.toFinset ⊆ u.2 →
        (⟨c, l, r⟩ : ESet) ∈ (esetCandidates it sc.rel sc.classes sc.bases).foldl (insertBy (ESet.same hash)) [] ∧
        esetVal ⟨c, l, r⟩ ⊆ mark c u := by
      intro l r hl hr s1 s2
      exact ⟨(f1 _).mpr ((hcand _).mpr ⟨hc, ext_mono k2 s1 s2, hl, hr⟩), mark_subset.mpr ⟨rfl, s1, s2⟩⟩
    intro z hz
    rcases z with z | z | z
    · obtain ⟨j1, j2⟩ := hin [] [] (by simp) (by simp) (by simp) (by simp)
      have : z = c := by simpa [mark] using hz
      exact ⟨_, j1, by rw [this]; simp [esetVal, mark], j2⟩
    · have hz' : z ∈ u.1 := by simpa [mark] using hz
      obtain ⟨j1, j2⟩ := hin [z] [] (by simp) (by simp) (by simpa using hz') (by simp)
      exact ⟨_, j1, by simp [esetVal, mark, ESet.sets], j2⟩
    · have hz' : z ∈ u.2 := by simpa [mark] using hz
      obtain ⟨j1, j2⟩ := hin [] [z] (by simp) (by simp) (by simp) (by simpa using hz')
      exact ⟨_, j1, by simp [esetVal, mark, ESet.sets], j2⟩
  have e1 : (∃ y ∈ r, y.base = b ∧ y.sets = x) ↔ ∃ y ∈ r, esetVal y = mark b x :=
    exists_congr (fun y => and_congr_right (fun _ => ⟨fun h => by rw [esetVal, h.1, h.2], fun h => mark_inj h⟩))
  rw [e1, h4]
  unfold Top MaximalExtension
  rw [esetV_mark]
  constructor
  · rintro ⟨⟨hb, hv⟩, _, hm⟩
    refine ⟨hb, hv, fun y hy k1 k2 => ?_⟩
    have hy' := (esetV_mark (sc := sc) b y).mpr ⟨hb, hy⟩
    exact (mark_inj (hm _ hy' (hcov _ hy') (mark_subset.mpr ⟨rfl, k1, k2⟩))).2
  · rintro ⟨hb, hv, hm⟩
    refine ⟨⟨hb, hv⟩, hcov _ ((esetV_mark b x).mpr ⟨hb, hv⟩), fun s hs _ hsub => ?_⟩
    obtain ⟨c, hc, k1, k2⟩ := hs
    rw [← mark_unmark s c k1] at hsub ⊢
    obtain ⟨rfl, j1, j2⟩ := mark_subset.mp hsub
    rw [hm _ k2 j1 j2]

end Ficus.Rs.Nfc
