import Verif.Proofs.RsNfcPairs

/-! The triples of Alpha++ NFC. -/

namespace Ficus.Rs.Nfc
open Spec Spec.Nfc

abbrev Names := Finset (String ⊕ (String ⊕ String))

/-- Relations with the classes and the loops. -/
structure Scene where
  rel : TripleRel
  classes : List String
  loops : List String

/-- The relation of the members of triples as a proposition. -/
def Scene.Ok (w : Scene) (a b c : String) : Prop := a ∈ w.classes ∧ b ∈ w.classes ∧ c ∈ w.loops ∧ w.rel.ok a b c = true

/-- Three sets as one set. -/
def tag (t : Finset String × Finset String × Finset String) : Names := t.1.disjSum (t.2.1.disjSum t.2.2)

/-- One set as three sets. -/
def untag (s : Names) : Finset String × Finset String × Finset String := (s.toLeft, s.toRight.toLeft, s.toRight.toRight)

theorem untag_tag (t : Finset String × Finset String × Finset String) : untag (tag t) = t := by simp [tag, untag]

theorem mem_untag (s : Names) (a : String) : (a ∈ (untag s).1 ↔ Sum.inl a ∈ s) ∧ (a ∈ (untag s).2.1 ↔ Sum.inr (Sum.inl a) ∈ s) ∧
    (a ∈ (untag s).2.2 ↔ Sum.inr (Sum.inr a) ∈ s) := by simp [untag]

theorem tag_untag (s : Names) : tag (untag s) = s := by
  ext z; rcases z with z | z | z <;> simp [tag, untag]

/-- The three sets of a triple. -/
def Triple.sets (x : Triple) : Finset String × Finset String × Finset String := (x.a.toFinset, x.b.toFinset, x.c.toFinset)

def tripleVal (x : Triple) : Names := tag x.sets

structure Triple.Good (rel : Scene) (x : Triple) : Prop where
  a : x.a.Pairwise (· < ·)
  b : x.b.Pairwise (· < ·)
  c : x.c.Pairwise (· < ·)
  ok : IsTriple rel.Ok x.sets

def TripleV (rel : Scene) (s : Names) : Prop := IsTriple rel.Ok (untag s)

variable {rel : Scene}

theorem tripleVal_inj {x y : Triple} (hx : x.Good rel) (hy : y.Good rel) (h : tripleVal x = tripleVal y) : x = y := by
  have h' := congrArg untag h
  unfold tripleVal at h'
  rw [untag_tag, untag_tag] at h'
  unfold Triple.sets at h'
  obtain ⟨h1, h2⟩ := Prod.mk.inj h'
  obtain ⟨h2, h3⟩ := Prod.mk.inj h2
  have e1 := sorted_ext hx.a hy.a h1
  have e2 := sorted_ext hx.b hy.b h2
  have e3 := sorted_ext hx.c hy.c h3
  cases x; cases y
  simp only at e1 e2 e3
  rw [e1, e2, e3]

theorem tripleVal_join (x y : Triple) : tripleVal (x.join y) = tripleVal x ∪ tripleVal y := by
  have h : ∀ l z, z ∈ sortedSet l ↔ z ∈ l := by
    exact fun l z => (sortedSet_spec l).2 z
  ext z
  rcases z with z | z | z <;> simp [tripleVal, tag, Triple.sets, Triple.join, h]

theorem join_sorted (x y : Triple) : (x.join y).a.Pairwise (· < ·) ∧ (x.join y).b.Pairwise (· < ·) ∧ (x.join y).c.Pairwise (· < ·) :=
  ⟨(sortedSet_spec _).1, (sortedSet_spec _).1, (sortedSet_spec _).1⟩

theorem valid_iff (x : Triple) (h1 : x.a ≠ []) (h2 : x.b ≠ []) (h3 : x.c ≠ []) (m1 : ∀ a ∈ x.a, a ∈ rel.classes)
    (m2 : ∀ a ∈ x.b, a ∈ rel.classes) (m3 : ∀ a ∈ x.c, a ∈ rel.loops) : x.valid rel.rel = true ↔ IsTriple rel.Ok x.sets := by
  unfold Triple.valid
  simp only [List.all_eq_true]
  constructor
  · intro h
    refine ⟨?_, ?_, ?_, ?_⟩
    · obtain ⟨a, ha⟩ := List.exists_mem_of_ne_nil _ h1; exact ⟨a, List.mem_toFinset.mpr ha⟩
    · obtain ⟨a, ha⟩ := List.exists_mem_of_ne_nil _ h2; exact ⟨a, List.mem_toFinset.mpr ha⟩
    · obtain ⟨a, ha⟩ := List.exists_mem_of_ne_nil _ h3; exact ⟨a, List.mem_toFinset.mpr ha⟩
    · intro a ha b hb c hc
      have ha := List.mem_toFinset.mp ha
      have hb := List.mem_toFinset.mp hb
      have hc := List.mem_toFinset.mp hc
      exact ⟨m1 a ha, m2 b hb, m3 c hc, h a ha b hb c hc⟩
  · intro h a ha b hb c hc
    exact (h.ok a (List.mem_toFinset.mpr ha) b (List.mem_toFinset.mpr hb) c (List.mem_toFinset.mpr hc)).2.2.2

theorem triple_ne {x : Triple} (h : IsTriple rel.Ok x.sets) : x.a ≠ [] ∧ x.b ≠ [] ∧ x.c ≠ [] := by
  refine ⟨?_, ?_, ?_⟩
  · intro e; obtain ⟨a, ha⟩ := h.first; simp [Triple.sets, e] at ha
  · intro e; obtain ⟨a, ha⟩ := h.second; simp [Triple.sets, e] at ha
  · intro e; obtain ⟨a, ha⟩ := h.third; simp [Triple.sets, e] at ha

theorem tripleV_val (x : Triple) : TripleV rel (tripleVal x) ↔ IsTriple rel.Ok x.sets := by
  unfold TripleV tripleVal; rw [untag_tag]

theorem union_ne {x : Triple} (y : Triple) (hx : x.Good rel) : (untag (tripleVal x ∪ tripleVal y)).1.Nonempty ∧
    (untag (tripleVal x ∪ tripleVal y)).2.1.Nonempty ∧ (untag (tripleVal x ∪ tripleVal y)).2.2.Nonempty := by
  have key : ∀ z, z ∈ tripleVal x → z ∈ tripleVal x ∪ tripleVal y := fun z h => Finset.mem_union_left _ h
  refine ⟨?_, ?_, ?_⟩
  · obtain ⟨a, ha⟩ := hx.ok.first
    exact ⟨a, (mem_untag _ _).1.mpr (key _ (by simpa [tripleVal, tag] using ha))⟩
  · obtain ⟨a, ha⟩ := hx.ok.second
    exact ⟨a, (mem_untag _ _).2.1.mpr (key _ (by simpa [tripleVal, tag] using ha))⟩
  · obtain ⟨a, ha⟩ := hx.ok.third
    exact ⟨a, (mem_untag _ _).2.2.mpr (key _ (by simpa [tripleVal, tag] using ha))⟩

theorem good_within {x : Triple} (hx : x.Good rel) : (∀ a ∈ x.a, a ∈ rel.classes) ∧ (∀ a ∈ x.b, a ∈ rel.classes) ∧
    ∀ a ∈ x.c, a ∈ rel.loops := by
  obtain ⟨⟨a, ha⟩, ⟨b, hb⟩, ⟨c, hc⟩⟩ := (⟨hx.ok.first, hx.ok.second, hx.ok.third⟩ : _ ∧ _ ∧ _)
  exact ⟨fun x hx' => (hx.ok.ok x (List.mem_toFinset.mpr hx') b hb c hc).1,
    fun x hx' => (hx.ok.ok a ha x (List.mem_toFinset.mpr hx') c hc).2.1,
    fun x hx' => (hx.ok.ok a ha b hb x (List.mem_toFinset.mpr hx')).2.2.1⟩

theorem tripleMerge_iff {x y m : Triple} (hx : x.Good rel) (hy : y.Good rel) : tripleMerge rel.rel x y = some m ↔
    TripleV rel (tripleVal x ∪ tripleVal y) ∧ m = x.join y := by
  have hne : (x.join y).a ≠ [] ∧ (x.join y).b ≠ [] ∧ (x.join y).c ≠ [] := by
    have h := union_ne y hx
    rw [← tripleVal_join, tripleVal, untag_tag] at h
    obtain ⟨⟨a, ha⟩, ⟨b, hb⟩, ⟨c, hc⟩⟩ := h
    exact ⟨by intro e; simp [Triple.sets, e] at ha, by intro e; simp [Triple.sets, e] at hb, by intro e; simp [Triple.sets, e] at hc⟩
  unfold tripleMerge
  have hm : ∀ l z, z ∈ sortedSet l ↔ z ∈ l := fun l z => (sortedSet_spec l).2 z
  obtain ⟨x1, x2, x3⟩ := good_within hx
  obtain ⟨y1, y2, y3⟩ := good_within hy
  rw [← tripleVal_join, tripleV_val, ← valid_iff _ hne.1 hne.2.1 hne.2.2
    (fun a ha => (List.mem_append.mp ((hm _ _).mp ha)).elim (x1 a) (y1 a))
    (fun a ha => (List.mem_append.mp ((hm _ _).mp ha)).elim (x2 a) (y2 a))
    (fun a ha => (List.mem_append.mp ((hm _ _).mp ha)).elim (x3 a) (y3 a))]
  split
  · rename_i h; simp [h, eq_comm]
  · rename_i h; simp [h]

theorem triple_same {hash : String → Nat} (hh : TriplesApart hash rel.Ok) {x y : Triple} (hx : x.Good rel) (hy : y.Good rel) :
    Triple.same hash x y = true ↔ x = y := by
  unfold Triple.same
  rw [decide_eq_true_iff]
  refine ⟨fun h => ?_, fun h => by rw [h]⟩
  have := hh (x.a, x.b, x.c) (y.a, y.b, y.c) hx.a hx.b hx.c hy.a hy.b hy.c hx.ok hy.ok h
  cases x; cases y
  simp only [Prod.mk.injEq] at this
  obtain ⟨e1, e2, e3⟩ := this
  rw [e1, e2, e3]

theorem triple_within {t : Finset String × Finset String × Finset String}
    (h : IsTriple rel.Ok t) : t.1 ⊆ rel.classes.toFinset ∧ t.2.1 ⊆ rel.classes.toFinset ∧ t.2.2 ⊆ rel.loops.toFinset := by
  obtain ⟨⟨a, ha⟩, ⟨b, hb⟩, ⟨c, hc⟩⟩ := (⟨h.first, h.second, h.third⟩ : _ ∧ _ ∧ _)
  refine ⟨fun x hx => ?_, fun x hx => ?_, fun x hx => ?_⟩
  · exact List.mem_toFinset.mpr (h.ok x hx b hb c hc).1
  · exact List.mem_toFinset.mpr (h.ok a ha x hx c hc).2.1
  · exact List.mem_toFinset.mpr (h.ok a ha b hb x hx).2.2.1

theorem triple_joins {hash : String → Nat} (hh : TriplesApart hash rel.Ok) :
    Joins (Triple.same hash) (tripleMerge rel.rel) (Triple.Good rel) tripleVal (TripleV rel)
      (rel.classes.length + (rel.classes.length + rel.loops.length)) where
  same x y hx hy := triple_same hh hx hy
  inj x y hx hy h := tripleVal_inj hx hy h
  valid x hx := (tripleV_val x).mpr hx.ok
  merge x y m hx hy := by
    rw [tripleMerge_iff hx hy]
    obtain ⟨j1, j2, j3⟩ := join_sorted x y
    constructor
    · rintro ⟨h, rfl⟩
      refine ⟨h, ?_, tripleVal_join x y⟩
      rw [← tripleVal_join, tripleV_val] at h
      exact ⟨j1, j2, j3, h⟩
    · rintro ⟨h, hm, e⟩
      refine ⟨h, ?_⟩
      rw [← tripleVal_join] at e
      rw [← tripleVal_join, tripleV_val] at h
      exact tripleVal_inj hm ⟨j1, j2, j3, h⟩ e
  total x y hx hy h := ⟨_, (tripleMerge_iff hx hy).mpr ⟨h, rfl⟩⟩
  mono x y s hx _ hs hsub := by
    obtain ⟨u1, u2, u3⟩ := union_ne y hx
    refine ⟨u1, u2, u3, fun a ha b hb c hc => hs.ok a ?_ b ?_ c ?_⟩
    · exact (mem_untag _ _).1.mpr (hsub ((mem_untag _ _).1.mp ha))
    · exact (mem_untag _ _).2.1.mpr (hsub ((mem_untag _ _).2.1.mp hb))
    · exact (mem_untag _ _).2.2.mpr (hsub ((mem_untag _ _).2.2.mp hc))
  nonempty s hs := by
    obtain ⟨a, ha⟩ := hs.first
    exact ⟨_, (mem_untag _ _).1.mp ha⟩
  card s hs := by
    obtain ⟨h1, h2, h3⟩ := triple_within hs
    have e : s = tag (untag s) := (tag_untag s).symm
    rw [e, tag, Finset.card_disjSum, Finset.card_disjSum]
    have c1 := (Finset.card_le_card h1).trans (List.toFinset_card_le _)
    have c2 := (Finset.card_le_card h2).trans (List.toFinset_card_le _)
    have c3 := (Finset.card_le_card h3).trans (List.toFinset_card_le _)
    omega

theorem lw_spec {hash : String → Nat} (hh : TriplesApart hash rel.Ok)
    (it : Iter) (fuel : Nat) (hf : rel.classes.length + (rel.classes.length + rel.loops.length) < fuel) :
    ∃ r, lw it hash fuel rel.rel rel.classes rel.loops = some r ∧ r.Nodup ∧ (∀ x ∈ r, x.Good rel) ∧
      ∀ t, (∃ x ∈ r, x.sets = t) ↔ MaximalTriple rel.Ok t := by
  have J := triple_joins hh
  have hsingle : ∀ a b c, (Triple.new a b c).sets = ({a}, {b}, {c}) := by intro a b c; simp [Triple.sets, Triple.new]
  have hcand : ∀ x, x ∈ tripleCandidates it rel.rel rel.classes rel.loops ↔ ∃ a b c, x = Triple.new a b c ∧ rel.Ok a b c := by
    intro x
    unfold tripleCandidates
    simp only [List.mem_flatMap, List.mem_filterMap, (it.perm _ _ _).mem_iff]
    have hv : ∀ a b c, (Triple.new a b c).valid rel.rel = true ↔ rel.rel.ok a b c = true := by
      intro a b c; simp [Triple.valid, Triple.new]
    constructor
    · rintro ⟨a, ha, b, hb, c, hc, h⟩
      split at h
      · rename_i hval
        cases h
        exact ⟨a, b, c, rfl, ha, hb, hc, (hv a b c).mp hval⟩
      · cases h
    · rintro ⟨a, b, c, rfl, h⟩
      obtain ⟨w1, w2, w3, w4⟩ := h
      exact ⟨a, w1, b, w2, c, w3, by rw [if_pos ((hv a b c).mpr w4)]⟩
  have hgood : ∀ x ∈ tripleCandidates it rel.rel rel.classes rel.loops, x.Good rel := by
    intro x hx
    obtain ⟨a, b, c, rfl, h⟩ := (hcand x).mp hx
    refine ⟨by simp [Triple.new], by simp [Triple.new], by simp [Triple.new], ?_⟩
    rw [hsingle]
    exact ⟨by simp, by simp, by simp, by simpa using h⟩
  obtain ⟨f1, f2⟩ := foldl_insertBy (Triple.same hash) _ J.same (tripleCandidates it rel.rel rel.classes rel.loops) [] hgood (by simp) List.nodup_nil
  simp only [List.not_mem_nil, false_or] at f1
  obtain ⟨r, h1, h2, h3, h4⟩ := maximize_joins J it _ (fun x hx => hgood x ((f1 x).mp hx)) f2 fuel hf
  refine ⟨r, h1, h2, h3, fun t => ?_⟩
  have hcov : ∀ s, TripleV rel s →
      Covered tripleVal ((tripleCandidates it rel.rel rel.classes rel.loops).foldl (insertBy (Triple.same hash)) []) s := by
    intro s hs z hz
    obtain ⟨a, ha⟩ := hs.first
    obtain ⟨b, hb⟩ := hs.second
    obtain ⟨c, hc⟩ := hs.third
    have hsub : ∀ a ∈ (untag s).1, ∀ b ∈ (untag s).2.1, ∀ c ∈ (untag s).2.2,
        Triple.new a b c ∈ (tripleCandidates it rel.rel rel.classes rel.loops).foldl (insertBy (Triple.same hash)) [] ∧
        tripleVal (Triple.new a b c) ⊆ s := by
      intro a ha b hb c hc
      refine ⟨(f1 _).mpr ((hcand _).mpr ⟨a, b, c, rfl, hs.ok a ha b hb c hc⟩), ?_⟩
      intro z hz
      rcases z with z | z | z
      · simp [tripleVal, tag, Triple.sets, Triple.new] at hz; subst hz; exact (mem_untag _ _).1.mp ha
      · simp [tripleVal, tag, Triple.sets, Triple.new] at hz; subst hz; exact (mem_untag _ _).2.1.mp hb
      · simp [tripleVal, tag, Triple.sets, Triple.new] at hz; subst hz; exact (mem_untag _ _).2.2.mp hc
    rcases z with z | z | z
    · obtain ⟨k1, k2⟩ := hsub z ((mem_untag _ _).1.mpr hz) b hb c hc
      exact ⟨_, k1, by simp [tripleVal, tag, Triple.sets, Triple.new], k2⟩
    · obtain ⟨k1, k2⟩ := hsub a ha z ((mem_untag _ _).2.1.mpr hz) c hc
      exact ⟨_, k1, by simp [tripleVal, tag, Triple.sets, Triple.new], k2⟩
    · obtain ⟨k1, k2⟩ := hsub a ha b hb z ((mem_untag _ _).2.2.mpr hz)
      exact ⟨_, k1, by simp [tripleVal, tag, Triple.sets, Triple.new], k2⟩
  have hinj : ∀ t u, tag t = tag u → t = u := by
    intro t u h
    rw [← untag_tag t, h, untag_tag]
  have e1 : (∃ x ∈ r, x.sets = t) ↔ ∃ x ∈ r, tripleVal x = tag t :=
    exists_congr (fun x => and_congr_right (fun _ => ⟨fun h => by rw [tripleVal, h], fun h => hinj _ _ h⟩))
  have hmono : ∀ t u, tag t ⊆ tag u ↔ t.1 ⊆ u.1 ∧ t.2.1 ⊆ u.2.1 ∧ t.2.2 ⊆ u.2.2 := by
    intro t u
    constructor
    · intro h
      refine ⟨fun x hx => ?_, fun x hx => ?_, fun x hx => ?_⟩
      · have := h (show Sum.inl x ∈ tag t by simpa [tag] using hx); simpa [tag] using this
      · have := h (show Sum.inr (Sum.inl x) ∈ tag t by simpa [tag] using hx); simpa [tag] using this
      · have := h (show Sum.inr (Sum.inr x) ∈ tag t by simpa [tag] using hx); simpa [tag] using this
    · rintro ⟨k1, k2, k3⟩
      exact Finset.disjSum_mono k1 (Finset.disjSum_mono k2 k3)
  have hV : ∀ u, TripleV rel (tag u) ↔ IsTriple rel.Ok u := by intro u; unfold TripleV; rw [untag_tag]
  rw [e1, h4]
  unfold Top MaximalTriple
  constructor
  · rintro ⟨hv, _, hm⟩
    refine ⟨(hV t).mp hv, fun u hu k1 k2 k3 => ?_⟩
    exact hinj _ _ (hm _ ((hV u).mpr hu) (hcov _ ((hV u).mpr hu)) ((hmono t u).mpr ⟨k1, k2, k3⟩))
  · rintro ⟨hv, hm⟩
    refine ⟨(hV t).mpr hv, hcov _ ((hV t).mpr hv), fun s hs _ hsub => ?_⟩
    rw [← tag_untag s] at hsub ⊢
    obtain ⟨k1, k2, k3⟩ := (hmono _ _).mp hsub
    rw [hm (untag s) hs k1 k2 k3]

/-! ### Elements that are taken for equal -/

section
variable {α : Type} (same : α → α → Bool)

theorem insertBy_apart (hs : ∀ x y, same x y = same y x) (l s : List α) (h : s.Pairwise (fun x y => same x y = false)) :
    (l.foldl (insertBy same) s).Pairwise (fun x y => same x y = false) := by
  induction l generalizing s with
  | nil => exact h
  | cons x l ih =>
    rw [List.foldl_cons]
    refine ih _ ?_
    unfold insertBy
    split
    · exact h
    · rename_i hx
      rw [List.pairwise_append]
      refine ⟨h, List.pairwise_singleton _ _, ?_⟩
      intro a ha b hb
      rw [List.mem_singleton] at hb
      subst hb
      rw [hs]
      by_contra hne
      exact hx (List.any_eq_true.mpr ⟨a, ha, by simpa using hne⟩)

theorem maximize_apart (hs : ∀ x y, same x y = same y x) (it : Iter) (merger : α → α → Option α) (fuel n : Nat) (c r : List α)
    (h : c.Pairwise (fun x y => same x y = false)) (hr : maximize it same merger fuel n c = some r) :
    r.Pairwise (fun x y => same x y = false) := by
  induction fuel generalizing n c with
  | zero => rw [maximize] at hr; cases hr
  | succ fuel ih =>
    rw [maximize] at hr
    split at hr
    · cases hr; exact h
    · rename_i new hnew
      refine ih _ new ?_ hr
      unfold maximizeRound at hnew
      simp only at hnew
      split at hnew
      · cases hnew
      · cases hnew
        set merges := roundMerges merger (it.order "current" n c) with hmerges
        have h1 := insertBy_apart same hs (merges.map Prod.fst) [] List.Pairwise.nil
        rw [List.foldl_map] at h1
        set idx := merges.flatMap (fun m => [m.2.1, m.2.2])
        have hfil := foldl_if_filter (fun x : α × Nat => !decide (x.2 ∈ idx)) (fun s x => insertBy same s x.1)
          (fun x => decide (x.2 ∈ idx)) (it.order "current" n c).zipIdx (merges.foldl (fun s m => insertBy same s m.1) []) (fun _ => rfl)
        simp only [decide_eq_true_eq] at hfil
        rw [hfil]
        have h2 := insertBy_apart same hs (((it.order "current" n c).zipIdx.filter (fun x : α × Nat => !decide (x.2 ∈ idx))).map Prod.fst) _ h1
        rw [List.foldl_map] at h2
        exact h2

theorem insertBy_all (P : α → Prop) (l s : List α) (hl : ∀ x ∈ l, P x) (h : ∀ x ∈ s, P x) : ∀ x ∈ l.foldl (insertBy same) s, P x := by
  induction l generalizing s with
  | nil => exact h
  | cons y l ih =>
    rw [List.foldl_cons]
    refine ih _ (fun x hx => hl x (by simp [hx])) ?_
    unfold insertBy
    split
    · exact h
    · intro x hx
      rcases List.mem_append.mp hx with hx | hx
      · exact h x hx
      · rw [List.mem_singleton] at hx; subst hx; exact hl x (by simp)

theorem maximize_all (P : α → Prop) (it : Iter) (merger : α → α → Option α) (hm : ∀ x y m, merger x y = some m → P m)
    (fuel n : Nat) (c r : List α) (h : ∀ x ∈ c, P x) (hr : maximize it same merger fuel n c = some r) : ∀ x ∈ r, P x := by
  induction fuel generalizing n c with
  | zero => rw [maximize] at hr; cases hr
  | succ fuel ih =>
    rw [maximize] at hr
    split at hr
    · cases hr; exact h
    · rename_i new hnew
      refine ih _ new ?_ hr
      unfold maximizeRound at hnew
      simp only at hnew
      split at hnew
      · cases hnew
      · cases hnew
        set merges := roundMerges merger (it.order "current" n c) with hmerges
        have h1 := insertBy_all same P (merges.map Prod.fst) [] (by
          intro x hx
          obtain ⟨⟨m, i, j⟩, hmem, rfl⟩ := List.mem_map.mp hx
          obtain ⟨a, b, _, _, _, e⟩ := (mem_roundMerges _ _ _ _ _).mp hmem
          exact hm a b m e) (by simp)
        rw [List.foldl_map] at h1
        set idx := merges.flatMap (fun m => [m.2.1, m.2.2])
        have hfil := foldl_if_filter (fun x : α × Nat => !decide (x.2 ∈ idx)) (fun s x => insertBy same s x.1)
          (fun x => decide (x.2 ∈ idx)) (it.order "current" n c).zipIdx (merges.foldl (fun s m => insertBy same s m.1) []) (fun _ => rfl)
        simp only [decide_eq_true_eq] at hfil
        rw [hfil]
        have h2 := insertBy_all same P (((it.order "current" n c).zipIdx.filter (fun x : α × Nat => !decide (x.2 ∈ idx))).map Prod.fst) _ (by
          intro x hx
          obtain ⟨⟨y, i⟩, hmem, rfl⟩ := List.mem_map.mp hx
          have := List.mem_of_getElem? (List.mem_zipIdx_iff_getElem?.mp (List.mem_filter.mp hmem).1)
          exact h y ((it.perm _ _ _).mem_iff.mp this)) h1
        rw [List.foldl_map] at h2
        exact h2

end

end Ficus.Rs.Nfc
