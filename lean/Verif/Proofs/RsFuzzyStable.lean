import Verif.Proofs.RsFuzzyClusters

/-! What is known about the clusters at the end: they cannot be merged, they are connected, and nodes are with their best partners. -/

namespace Ficus.Rs.Fz
open Ficus.Spec
variable {E : Type} [HasName E]

theorem mem_collectSet (l : List Nat) (x : Nat) : x ∈ collectSet l ↔ x ∈ l := by
  have := mem_unionSets [] l x
  unfold unionSets at this
  unfold collectSet
  rw [this]; simp

/-! ### The end of the merges -/

theorem neighbourClusters_none (home : Dict Nat Nat) (cluster : List Nat) (l : List Nat) : ∀ acc,
    neighbourClusters home cluster l acc = none → ∃ x ∈ l, x ∉ cluster ∧ home.get? x = none := by
  induction l with
  | nil => intro acc h; cases h
  | cons x l ih =>
    intro acc h
    simp only [neighbourClusters] at h
    split at h
    · obtain ⟨y, hy, hc⟩ := ih _ h
      exact ⟨y, List.mem_cons_of_mem _ hy, hc⟩
    · rename_i hx
      split at h
      · rename_i hh; exact ⟨x, by simp, hx, hh⟩
      · obtain ⟨y, hy, hc⟩ := ih _ h
        exact ⟨y, List.mem_cons_of_mem _ hy, hc⟩

theorem neighbourClusters_all (home : Dict Nat Nat) (cluster : List Nat) (l : List Nat) : ∀ acc r,
    neighbourClusters home cluster l acc = some r →
    (∀ c ∈ acc, c ∈ r) ∧ ∀ x ∈ l, x ∈ cluster ∨ ∃ c ∈ r, home.get? x = some c := by
  induction l with
  | nil => intro acc r h; cases h; exact ⟨fun _ hc => hc, by simp⟩
  | cons x l ih =>
    intro acc r h
    simp only [neighbourClusters] at h
    split at h
    · rename_i hx
      obtain ⟨h1, h2⟩ := ih _ _ h
      refine ⟨h1, ?_⟩
      intro y hy
      rcases List.mem_cons.1 hy with rfl | hy
      · exact Or.inl hx
      · exact h2 y hy
    · split at h
      · cases h
      · rename_i c hc
        obtain ⟨h1, h2⟩ := ih _ _ h
        refine ⟨fun c' hc' => h1 c' ((mem_insertNat _ _ _).2 (Or.inl hc')), ?_⟩
        intro y hy
        rcases List.mem_cons.1 hy with rfl | hy
        · exact Or.inr ⟨c, h1 c ((mem_insertNat _ _ _).2 (Or.inr rfl)), hc⟩
        · exact h2 y hy

theorem neighbourClusters_from (home : Dict Nat Nat) (cluster : List Nat) (l : List Nat) : ∀ acc r,
    neighbourClusters home cluster l acc = some r → ∀ c ∈ r, c ∈ acc ∨ ∃ x ∈ l, x ∉ cluster ∧ home.get? x = some c := by
  induction l with
  | nil => intro acc r h c hc; simp only [neighbourClusters] at h; cases h; exact Or.inl hc
  | cons x l ih =>
    intro acc r h c hc
    simp only [neighbourClusters] at h
    split at h
    · rcases ih acc r h c hc with hm | ⟨y, hy, hm⟩
      · exact Or.inl hm
      · exact Or.inr ⟨y, List.mem_cons_of_mem _ hy, hm⟩
    · rename_i hx
      split at h
      · cases h
      · rename_i e he
        rcases ih _ _ h c hc with hm | ⟨y, hy, hm⟩
        · rw [mem_insertNat] at hm
          rcases hm with hm | rfl
          · exact Or.inl hm
          · exact Or.inr ⟨x, by simp, hx, he⟩
        · exact Or.inr ⟨y, List.mem_cons_of_mem _ hy, hm⟩

theorem bestOf_le {α : Type} (value : α → ℚ) (l : List α) (x : α) (h : bestOf value l = some x) :
    ∀ y ∈ l, value y ≤ value x := by
  have key : ∀ (l : List α) (b r : α × ℚ), b.2 = value b.1 →
      l.foldl (fun (best : Option (α × ℚ)) x =>
        match best with
        | none => some (x, value x)
        | some b => if b.2 < value x then some (x, value x) else some b) (some b) = some r →
      r.2 = value r.1 ∧ b.2 ≤ r.2 ∧ ∀ y ∈ l, value y ≤ r.2 := by
    intro l
    induction l with
    | nil => intro b r hb h; cases h; exact ⟨hb, le_rfl, by simp⟩
    | cons a l ih =>
      intro b r hb h
      rw [List.foldl_cons] at h
      simp only at h
      split at h
      · rename_i hlt
        obtain ⟨h1, h2, h3⟩ := ih (a, value a) r rfl h
        simp only at h2
        refine ⟨h1, by linarith, ?_⟩
        intro y hy
        rcases List.mem_cons.1 hy with rfl | hy
        · exact h2
        · exact h3 y hy
      · rename_i hlt
        obtain ⟨h1, h2, h3⟩ := ih b r hb h
        refine ⟨h1, h2, ?_⟩
        intro y hy
        rcases List.mem_cons.1 hy with rfl | hy
        · linarith
        · exact h3 y hy
  cases l with
  | nil => intro y hy; cases hy
  | cons a l =>
    unfold bestOf at h
    rw [Option.map_eq_some_iff] at h
    obtain ⟨r, hr, rfl⟩ := h
    rw [List.foldl_cons] at hr
    obtain ⟨h1, h2, h3⟩ := key l (a, value a) r rfl hr
    rw [← h1]
    intro y hy
    rcases List.mem_cons.1 hy with rfl | hy
    · exact h2
    · exact h3 y hy

theorem mapM_some_length {A B : Type} (f : A → Option B) (l : List A) : ∀ r, l.mapM f = some r → r.length = l.length := by
  induction l with
  | nil => intro r h; cases h; rfl
  | cons a l ih =>
    intro r h
    rw [List.mapM_cons] at h
    cases hf : f a with
    | none => rw [hf] at h; cases h
    | some b =>
      cases hl : l.mapM f with
      | none => rw [hf, hl] at h; cases h
      | some r' =>
        rw [hf, hl] at h
        cases h
        simp [ih r' hl]

theorem mapM_some_mem {A B : Type} (f : A → Option B) (l : List A) : ∀ r, l.mapM f = some r →
    (∀ b ∈ r, ∃ a ∈ l, f a = some b) ∧ ∀ a ∈ l, ∃ b ∈ r, f a = some b := by
  induction l with
  | nil => intro r h; cases h; exact ⟨by simp, by simp⟩
  | cons a l ih =>
    intro r h
    rw [List.mapM_cons] at h
    cases hf : f a with
    | none => rw [hf] at h; cases h
    | some b =>
      cases hl : l.mapM f with
      | none => rw [hf, hl] at h; cases h
      | some r' =>
        rw [hf, hl] at h
        cases h
        obtain ⟨h1, h2⟩ := ih r' hl
        constructor
        · intro b' hb
          rcases List.mem_cons.1 hb with rfl | hb
          · exact ⟨a, by simp, hf⟩
          · obtain ⟨a', ha', e⟩ := h1 b' hb
            exact ⟨a', List.mem_cons_of_mem _ ha', e⟩
        · intro a' ha
          rcases List.mem_cons.1 ha with rfl | ha
          · exact ⟨b, by simp, hf⟩
          · obtain ⟨b', hb', e⟩ := h2 a' ha
            exact ⟨b', List.mem_cons_of_mem _ hb', e⟩

theorem tryMerge_stop (it : Iter) (n : Nat) (corr : String → String → ℚ) (g : FuzzyGraph) (cs : Clusters) (id : Nat)
    (cluster nodes : List Nat) (h : tryMerge it n corr g cs id cluster nodes = some none) :
    (∃ x ∈ nodes, x ∉ cluster ∧ cs.home.get? x = none) ∨ ∀ x ∈ nodes, x ∈ cluster := by
  unfold tryMerge at h
  split at h
  · rename_i hc
    obtain ⟨x, hx, hh⟩ := neighbourClusters_none _ _ _ _ hc
    exact Or.inl ⟨x, (it.perm _ _ _).mem_iff.1 hx, hh⟩
  · rename_i cand hc
    right
    have hcand : cand = [] := by
      cases e : mostCorrelated it n corr g cs.sets cluster cand with
      | none => rw [e] at h; simp at h
      | some r =>
        rw [e] at h
        cases r with
        | some o => simp at h
        | none =>
          unfold mostCorrelated at e
          cases hm : (it.order "candidates" n cand).mapM (fun c => (do
              let s ← cs.sets.get? c
              let v ← clustersCorrelation corr g cluster s
              some ((c, s), v) : Option ((Nat × List Nat) × ℚ))) with
          | none => rw [hm] at e; simp at e
          | some scored =>
            rw [hm] at e
            simp only [Option.bind_eq_bind, Option.bind_some, Option.some.injEq, Option.map_eq_none_iff] at e
            have h0 := bestOf_none _ _ e
            have h1 := mapM_some_length _ _ _ hm
            rw [h0, (it.perm _ _ _).length_eq] at h1
            exact List.length_eq_zero_iff.1 h1.symm
    intro x hx
    rcases (neighbourClusters_all _ _ _ _ _ hc).2 x ((it.perm _ _ _).mem_iff.2 hx) with hx | ⟨c, hc, -⟩
    · exact hx
    · rw [hcand] at hc; cases hc

theorem mergeRound_stop (it : Iter) (n : Nat) (corr : String → String → ℚ) (g : FuzzyGraph) (cs : Clusters)
    (l : List Nat) (h : mergeRound it n corr g cs l = some none) : ∀ id ∈ l, ∀ s, cs.sets.get? id = some s →
    ((∃ x ∈ s.flatMap (g.outgoing it), x ∉ s ∧ cs.home.get? x = none) ∨ ∀ x ∈ s.flatMap (g.outgoing it), x ∈ s) ∧
    ((∃ x ∈ s.flatMap (g.incoming it), x ∉ s ∧ cs.home.get? x = none) ∨ ∀ x ∈ s.flatMap (g.incoming it), x ∈ s) := by
  induction l with
  | nil => intro id hid; cases hid
  | cons a l ih =>
    simp only [mergeRound] at h
    cases e0 : cs.sets.get? a with
    | none => rw [e0] at h; simp at h
    | some cluster =>
      rw [e0] at h
      simp only [Option.bind_eq_bind, Option.bind_some] at h
      cases e1 : tryMerge it n corr g cs a cluster (collectSet (cluster.flatMap (g.outgoing it))) with
      | none => rw [e1] at h; simp at h
      | some r1 =>
        rw [e1] at h
        simp only [Option.bind_some] at h
        cases r1 with
        | some m => cases h
        | none =>
          simp only at h
          cases e2 : tryMerge it n corr g cs a cluster (collectSet (cluster.flatMap (g.incoming it))) with
          | none => rw [e2] at h; simp at h
          | some r2 =>
            rw [e2] at h
            simp only [Option.bind_some] at h
            cases r2 with
            | some m => cases h
            | none =>
              intro id hid s hs
              rcases List.mem_cons.1 hid with rfl | hid
              · rw [e0] at hs; cases hs
                have s1 := tryMerge_stop it n corr g cs id cluster _ e1
                have s2 := tryMerge_stop it n corr g cs id cluster _ e2
                simp only [mem_collectSet] at s1 s2
                exact ⟨s1, s2⟩
              · exact ih h id hid s hs

theorem mergeClusters_stop (it : Iter) (corr : String → String → ℚ) (g : FuzzyGraph) (fuel : Nat) : ∀ cs cs' : Clusters,
    mergeClusters it corr g fuel cs = some cs' → ∀ id s, cs'.sets.get? id = some s →
    ((∃ x ∈ s.flatMap (g.outgoing it), x ∉ s ∧ cs'.home.get? x = none) ∨ ∀ x ∈ s.flatMap (g.outgoing it), x ∈ s) ∧
    ((∃ x ∈ s.flatMap (g.incoming it), x ∉ s ∧ cs'.home.get? x = none) ∨ ∀ x ∈ s.flatMap (g.incoming it), x ∈ s) := by
  induction fuel with
  | zero => intro cs cs' h; cases h
  | succ fuel ih =>
    intro cs cs' h id s hs
    simp only [mergeClusters] at h
    cases e : mergeRound it fuel corr g cs (it.order "clusters" fuel cs.sets.keys) with
    | none => rw [e] at h; simp at h
    | some r =>
      rw [e] at h
      simp only [Option.bind_eq_bind, Option.bind_some] at h
      cases r with
      | none =>
        cases h
        exact mergeRound_stop it fuel corr g cs _ e id
          ((it.perm _ _ _).mem_iff.2 ((Dict.mem_keys_iff _ _).2 ⟨s, hs⟩)) s hs
      | some m => exact ih m cs' h id s hs

/-! ### One merge -/

/-- The mean correlation of two sets of nodes. -/
def setCorrelation (corr : String → String → ℚ) (g : FuzzyGraph) (s t : List Nat) : ℚ :=
  (clustersCorrelation corr g s t).getD 0

theorem tryMerge_cases (it : Iter) (n : Nat) (corr : String → String → ℚ) (g : FuzzyGraph) (cs cs' : Clusters) (id : Nat)
    (cluster nodes : List Nat) (h : tryMerge it n corr g cs id cluster nodes = some (some cs')) :
    ∃ o t, (∃ y ∈ nodes, y ∉ cluster ∧ cs.home.get? y = some o) ∧ cs.sets.get? o = some t ∧
      (∀ y ∈ nodes, y ∉ cluster → ∃ c s, cs.home.get? y = some c ∧ cs.sets.get? c = some s ∧
        setCorrelation corr g cluster s ≤ setCorrelation corr g cluster t) ∧
      cs'.sets = ((cs.sets.del id).del o).set cs.next (unionSets cluster t) ∧
      cs'.home = (unionSets cluster t).foldl (fun h x => h.set x cs.next) cs.home := by
  unfold tryMerge at h
  split at h
  · cases h
  · rename_i cand hc
    cases e : mostCorrelated it n corr g cs.sets cluster cand with
    | none => rw [e] at h; simp at h
    | some r =>
      rw [e] at h
      cases r with
      | none => simp at h
      | some o =>
        obtain ⟨o, t⟩ := o
        simp only [Option.bind_eq_bind, Option.bind_some, Option.some.injEq] at h
        subst h
        unfold mostCorrelated at e
        cases hm : (it.order "candidates" n cand).mapM (fun c => (do
            let s ← cs.sets.get? c
            let v ← clustersCorrelation corr g cluster s
            some ((c, s), v) : Option ((Nat × List Nat) × ℚ))) with
        | none => rw [hm] at e; simp at e
        | some scored =>
          rw [hm] at e
          simp only [Option.bind_eq_bind, Option.bind_some, Option.some.injEq, Option.map_eq_some_iff] at e
          obtain ⟨q, hq, hqe⟩ := e
          have hval : ∀ (b : (Nat × List Nat) × ℚ) (c : Nat), (do
              let s ← cs.sets.get? c
              let v ← clustersCorrelation corr g cluster s
              some ((c, s), v) : Option ((Nat × List Nat) × ℚ)) = some b →
              b.1.1 = c ∧ cs.sets.get? c = some b.1.2 ∧ b.2 = setCorrelation corr g cluster b.1.2 := by
            intro b c hb
            cases h1 : cs.sets.get? c with
            | none => rw [h1] at hb; simp at hb
            | some s =>
              rw [h1] at hb
              simp only [Option.bind_eq_bind, Option.bind_some] at hb
              cases h2 : clustersCorrelation corr g cluster s with
              | none => rw [h2] at hb; simp at hb
              | some v =>
                rw [h2] at hb
                simp only [Option.bind_some, Option.some.injEq] at hb
                subst hb
                refine ⟨rfl, rfl, ?_⟩
                simp [setCorrelation, h2]
          have hmem := mapM_some_mem _ _ _ hm
          obtain ⟨c, hcm, hcv⟩ := hmem.1 q (bestOf_mem _ _ _ hq)
          obtain ⟨v1, v2, v3⟩ := hval q c hcv
          rw [hqe] at v1 v2 v3
          simp only at v1 v2 v3
          subst v1
          have hfrom := neighbourClusters_from _ _ _ _ _ hc o ((it.perm _ _ _).mem_iff.1 hcm)
          refine ⟨o, t, ?_, v2, ?_, rfl, rfl⟩
          · rcases hfrom with hf | ⟨y, hy, hh⟩
            · cases hf
            · exact ⟨y, (it.perm _ _ _).mem_iff.1 hy, hh⟩
          · intro y hy hyc
            rcases (neighbourClusters_all _ _ _ _ _ hc).2 y ((it.perm _ _ _).mem_iff.2 hy) with hy' | ⟨c', hc', hh⟩
            · exact absurd hy' hyc
            · obtain ⟨b, hb, hbv⟩ := hmem.2 c' ((it.perm _ _ _).mem_iff.2 hc')
              obtain ⟨w1, w2, w3⟩ := hval b c' hbv
              refine ⟨c', b.1.2, hh, w2, ?_⟩
              rw [← w3, ← v3]
              exact bestOf_le _ _ _ hq b hb

/-! ### What a merge keeps -/

theorem joined_mono {g : FuzzyGraph} {s t : List Nat} (hst : ∀ x ∈ s, x ∈ t) {a b : Nat}
    (h : Relation.ReflTransGen (fun u v => u ∈ s ∧ v ∈ s ∧ Linked g u v) a b) :
    Relation.ReflTransGen (fun u v => u ∈ t ∧ v ∈ t ∧ Linked g u v) a b := by
  refine Relation.ReflTransGen.mono ?_ _ _ h
  rintro u v ⟨hu, hv, hl⟩
  exact ⟨hst u hu, hst v hv, hl⟩

theorem linked_symm {g : FuzzyGraph} {a b : Nat} (h : Linked g a b) : Linked g b a := by
  unfold Linked at h ⊢
  tauto

theorem joined_union {g : FuzzyGraph} {s t u : List Nat} (hs : Joined g s) (ht : Joined g t) (hu : ∀ x, x ∈ u ↔ x ∈ s ∨ x ∈ t)
    {a b : Nat} (ha : a ∈ s) (hb : b ∈ t) (hl : Linked g a b) : Joined g u := by
  have hsu : ∀ x ∈ s, x ∈ u := fun x hx => (hu x).2 (Or.inl hx)
  have htu : ∀ x ∈ t, x ∈ u := fun x hx => (hu x).2 (Or.inr hx)
  intro x hx y hy
  rcases (hu x).1 hx with hx | hx
  · rcases (hu y).1 hy with hy | hy
    · exact joined_mono hsu (hs x hx y hy)
    · refine (joined_mono hsu (hs x hx a ha)).trans (Relation.ReflTransGen.head ⟨hsu a ha, htu b hb, hl⟩ ?_)
      exact joined_mono htu (ht b hb y hy)
  · rcases (hu y).1 hy with hy | hy
    · refine (joined_mono htu (ht x hx b hb)).trans (Relation.ReflTransGen.head ⟨htu b hb, hsu a ha, linked_symm hl⟩ ?_)
      exact joined_mono hsu (hs a ha y hy)
    · exact joined_mono htu (ht x hx y hy)

theorem joined_single (g : FuzzyGraph) (x : Nat) : Joined g [x] := by
  intro a ha b hb
  rw [List.mem_singleton] at ha hb
  subst ha; subst hb
  exact Relation.ReflTransGen.refl

theorem joined_perm {g : FuzzyGraph} {s t : List Nat} (h : ∀ x, x ∈ s ↔ x ∈ t) (hs : Joined g s) : Joined g t := by
  intro a ha b hb
  exact joined_mono (fun x hx => (h x).1 hx) (hs a ((h a).2 ha) b ((h b).2 hb))

theorem joinCluster_joined {K : Nat → Prop} {g : FuzzyGraph} {cs cs' : Clusters} (hc : CInv K cs)
    (h : ∀ c s, cs.sets.get? c = some s → Joined g s) {x partner : Nat} (hl : Linked g x partner)
    (he : joinCluster cs x partner = some cs') :
    (∀ c s, cs'.sets.get? c = some s → Joined g s) ∧
    (∀ c, cs.home.get? partner = some c → cs'.home.get? x = some c) := by
  unfold joinCluster at he
  cases hp : cs.home.get? partner with
  | some c =>
    rw [hp] at he
    obtain ⟨s, hs, hps⟩ := (hc.home partner c).1 hp
    simp only [hs, Option.bind_eq_bind, Option.bind_some, Option.some.injEq] at he
    subst he
    constructor
    · intro c' s' hs'
      simp only [Dict.get?_set] at hs'
      split at hs'
      · cases hs'
        exact joined_union (h c s hs) (joined_single g x) (by intro z; rw [mem_insertNat]; simp) hps (by simp) (linked_symm hl)
      · exact h c' s' hs'
    · intro c' hc'
      cases hc'
      simp
  | none =>
    rw [hp] at he
    simp only [Option.some.injEq] at he
    subst he
    constructor
    · intro c' s' hs'
      simp only [Dict.get?_set] at hs'
      split at hs'
      · cases hs'; exact joined_single g x
      · exact h c' s' hs'
    · intro c' hc'; cases hc'

theorem tryMerge_joined (it : Iter) (n : Nat) (corr : String → String → ℚ) {K : Nat → Prop} {g : FuzzyGraph} {cs cs' : Clusters}
    (hc : CInv K cs) (hj : ∀ c s, cs.sets.get? c = some s → Joined g s) (id : Nat) (cluster nodes : List Nat)
    (hid : cs.sets.get? id = some cluster) (hn : ∀ y ∈ nodes, ∃ a ∈ cluster, Linked g a y)
    (h : tryMerge it n corr g cs id cluster nodes = some (some cs')) :
    (∀ c s, cs'.sets.get? c = some s → Joined g s) ∧
    (∀ x y c, cs.home.get? x = some c → cs.home.get? y = some c → ∃ c', cs'.home.get? x = some c' ∧ cs'.home.get? y = some c') := by
  obtain ⟨o, t, ⟨y, hy, hyc, hyh⟩, hot, -, e1, e2⟩ := tryMerge_cases it n corr g cs cs' id cluster nodes h
  obtain ⟨t', ht', hyt⟩ := (hc.home y o).1 hyh
  rw [hot] at ht'; cases ht'
  constructor
  · intro c s hs
    rw [e1, Dict.get?_set] at hs
    split at hs
    · cases hs
      obtain ⟨a, ha, hl⟩ := hn y hy
      exact joined_union (hj id cluster hid) (hj o t hot) (mem_unionSets cluster t) ha hyt hl
    · rw [Dict.get?_del, Dict.get?_del] at hs
      split at hs
      · cases hs
      · split at hs
        · cases hs
        · exact hj c s hs
  · intro x z c hx hz
    have hmem : ∀ w, cs.home.get? w = some c → (w ∈ unionSets cluster t ↔ c = id ∨ c = o) := by
      intro w hw
      obtain ⟨s, hs, hws⟩ := (hc.home w c).1 hw
      rw [mem_unionSets]
      constructor
      · rintro (hm | hm)
        · have := (hc.home w id).2 ⟨cluster, hid, hm⟩
          rw [hw] at this; cases this; exact Or.inl rfl
        · have := (hc.home w o).2 ⟨t, hot, hm⟩
          rw [hw] at this; cases this; exact Or.inr rfl
      · rintro (rfl | rfl)
        · rw [hid] at hs; cases hs; exact Or.inl hws
        · rw [hot] at hs; cases hs; exact Or.inr hws
    rw [e2, home_fold, home_fold]
    by_cases hcase : c = id ∨ c = o
    · rw [if_pos ((hmem x hx).2 hcase), if_pos ((hmem z hz).2 hcase)]
      exact ⟨_, rfl, rfl⟩
    · rw [if_neg (fun hm => hcase ((hmem x hx).1 hm)), if_neg (fun hm => hcase ((hmem z hz).1 hm))]
      exact ⟨c, hx, hz⟩

theorem mergeRound_joined (it : Iter) (n : Nat) (corr : String → String → ℚ) {K : Nat → Prop} {g : FuzzyGraph} (hok : FOk g)
    {cs cs' : Clusters} (hc : CInv K cs) (hj : ∀ c s, cs.sets.get? c = some s → Joined g s) (l : List Nat)
    (h : mergeRound it n corr g cs l = some (some cs')) :
    (∀ c s, cs'.sets.get? c = some s → Joined g s) ∧
    (∀ x y c, cs.home.get? x = some c → cs.home.get? y = some c → ∃ c', cs'.home.get? x = some c' ∧ cs'.home.get? y = some c') := by
  induction l with
  | nil => cases h
  | cons id l ih =>
    simp only [mergeRound] at h
    cases e0 : cs.sets.get? id with
    | none => rw [e0] at h; simp at h
    | some cluster =>
      rw [e0] at h
      simp only [Option.bind_eq_bind, Option.bind_some] at h
      have n1 : ∀ y ∈ collectSet (cluster.flatMap (g.outgoing it)), ∃ a ∈ cluster, Linked g a y := by
        intro y hy
        rw [mem_collectSet, List.mem_flatMap] at hy
        obtain ⟨a, ha, hm⟩ := hy
        exact ⟨a, ha, Or.inl ((mem_outgoing it g a y).1 hm)⟩
      have n2 : ∀ y ∈ collectSet (cluster.flatMap (g.incoming it)), ∃ a ∈ cluster, Linked g a y := by
        intro y hy
        rw [mem_collectSet, List.mem_flatMap] at hy
        obtain ⟨a, ha, hm⟩ := hy
        exact ⟨a, ha, Or.inr (Or.inl ((mem_incoming it hok a y).1 hm))⟩
      cases e1 : tryMerge it n corr g cs id cluster (collectSet (cluster.flatMap (g.outgoing it))) with
      | none => rw [e1] at h; simp at h
      | some r1 =>
        rw [e1] at h
        simp only [Option.bind_some] at h
        cases r1 with
        | some m => cases h; exact tryMerge_joined it n corr hc hj id cluster _ e0 n1 e1
        | none =>
          simp only at h
          cases e2 : tryMerge it n corr g cs id cluster (collectSet (cluster.flatMap (g.incoming it))) with
          | none => rw [e2] at h; simp at h
          | some r2 =>
            rw [e2] at h
            simp only [Option.bind_some] at h
            cases r2 with
            | some m => cases h; exact tryMerge_joined it n corr hc hj id cluster _ e0 n2 e2
            | none => exact ih h

theorem mergeClusters_joined (it : Iter) (corr : String → String → ℚ) {K : Nat → Prop} {g : FuzzyGraph} (hok : FOk g)
    (hK : ∀ x, K x → x ∈ g.nodes.keys) (fuel : Nat) : ∀ cs cs' : Clusters, CInv K cs →
    (∀ c s, cs.sets.get? c = some s → Joined g s) → mergeClusters it corr g fuel cs = some cs' →
    (∀ c s, cs'.sets.get? c = some s → Joined g s) ∧
    (∀ x y c, cs.home.get? x = some c → cs.home.get? y = some c →
      ∃ c', cs'.home.get? x = some c' ∧ cs'.home.get? y = some c') := by
  induction fuel with
  | zero => intro cs cs' _ _ h; cases h
  | succ fuel ih =>
    intro cs cs' hc hj h
    simp only [mergeClusters] at h
    obtain ⟨r, e, p⟩ := mergeRound_inv it fuel corr hK hc (it.order "clusters" fuel cs.sets.keys)
      (fun c hc => (it.perm _ _ _).mem_iff.1 hc)
    rw [e] at h
    simp only [Option.bind_eq_bind, Option.bind_some] at h
    cases r with
    | none => cases h; exact ⟨hj, fun x y c hx hy => ⟨c, hx, hy⟩⟩
    | some m =>
      obtain ⟨j1, j2⟩ := mergeRound_joined it fuel corr hok hc hj _ e
      obtain ⟨k1, k2⟩ := ih m cs' (p m rfl).1 j1 h
      refine ⟨k1, ?_⟩
      intro x y c hx hy
      obtain ⟨c', hx', hy'⟩ := j2 x y c hx hy
      exact k2 x y c' hx' hy'

/-! ### The first clusters -/

/-- `BestPartner` for any correlation. -/
def BestBy (corr : String → String → ℚ) (g : FuzzyGraph) (x : Nat) (n : String) (y : Nat) : Prop :=
  ∃ m, (y, m) ∈ g.nodes ∧ y ≠ x ∧ ((FuzzyEdge g x y).isSome ∨ (FuzzyEdge g y y).isSome) ∧
    ∀ z k, (z, k) ∈ g.nodes → z ≠ x → ((FuzzyEdge g x z).isSome ∨ (FuzzyEdge g z z).isSome) → corr n k ≤ corr n m

theorem clusterNode_best (it : Iter) (corr : String → String → ℚ) (i : Info) (p : FuzzyArgs) {g : FuzzyGraph} (hok : FOk g)
    {cs cs' : Clusters} (hc : CInv (RareNode i p g) cs) (hj : ∀ c s, cs.sets.get? c = some s → Joined g s) (x : Nat) (n : String)
    (hn : (x, n) ∈ g.nodes) (h : clusterNode it corr i p g cs (x, n) = some cs') :
    (∀ c s, cs'.sets.get? c = some s → Joined g s) ∧
    (RareNode i p g x → ∃ y, BestBy corr g x n y ∧ ∀ c, cs.home.get? y = some c → cs'.home.get? x = some c) := by
  unfold clusterNode at h
  simp only at h
  have hname : ∀ m, (x, m) ∈ g.nodes → m = n := by
    intro m hm
    have h1 := Dict.get?_of_mem hok.nodes hm
    have h2 := Dict.get?_of_mem hok.nodes hn
    rw [h1] at h2; exact Option.some.inj h2
  split at h
  · rename_i hle
    cases h
    refine ⟨hj, ?_⟩
    rintro ⟨m, hm, hlt, -⟩
    rw [hname m hm] at hlt
    exact absurd hlt (not_lt.2 hle)
  · rw [namedNodes_ok (by
      intro y hy
      rw [List.mem_filter, mem_allConnected it hok] at hy
      rcases hy.1 with he | he
      · exact (edge_nodes hok he).2
      · exact (edge_nodes hok he).2)] at h
    simp only [Option.bind_eq_bind, Option.bind_some] at h
    split at h
    · rename_i partner hb
      obtain ⟨y, hy, hye⟩ := List.mem_map.1 (bestOf_mem _ _ _ hb)
      rw [List.mem_filter, mem_allConnected it hok] at hy
      have hyk : y ∈ g.nodes.keys := by
        rcases hy.1 with he | he
        · exact (edge_nodes hok he).2
        · exact (edge_nodes hok he).2
      subst hye
      have hl : Linked g x y := by
        rcases hy.1 with he | he
        · exact Or.inl he
        · exact Or.inr (Or.inr (Or.inr he))
      obtain ⟨j1, j2⟩ := joinCluster_joined hc hj hl h
      refine ⟨j1, fun _ => ⟨y, ⟨nameAt g.nodes y, Dict.mem_of_get? (nameAt_mem hyk), by simpa using hy.2, hy.1, ?_⟩, j2⟩⟩
      intro z k hz hzx hzc
      have := bestOf_le _ _ _ hb (z, nameAt g.nodes z) (List.mem_map.2 ⟨z, List.mem_filter.2
        ⟨(mem_allConnected it hok x z).2 hzc, by simpa using hzx⟩, rfl⟩)
      simp only at this
      rw [nameAt_eq hok.nodes hz] at this
      exact this
    · rename_i hb
      cases h
      refine ⟨hj, ?_⟩
      rintro ⟨-, -, -, y, hyx, hy⟩
      have he := bestOf_none _ _ hb
      rw [List.map_eq_nil_iff] at he
      have : y ∈ (g.allConnected it x).filter (fun y => decide (y ≠ x)) :=
        List.mem_filter.2 ⟨(mem_allConnected it hok x y).2 hy, by simpa using hyx⟩
      rw [he] at this
      cases this

theorem initialFold_best (it : Iter) (corr : String → String → ℚ) (i : Info) (p : FuzzyArgs) {g : FuzzyGraph} (hok : FOk g)
    (l : List (Nat × String)) : ∀ cs cs' : Clusters, CInv (RareNode i p g) cs →
    (∀ c s, cs.sets.get? c = some s → Joined g s) → (l.map Prod.fst).Nodup →
    (∀ e ∈ l, e ∈ g.nodes ∧ cs.home.get? e.1 = none) → l.foldlM (clusterNode it corr i p g) cs = some cs' →
    (∀ c s, cs'.sets.get? c = some s → Joined g s) ∧
    (∀ y c, cs.home.get? y = some c → cs'.home.get? y = some c) ∧
    ∀ l1 x n l2, l = l1 ++ (x, n) :: l2 → RareNode i p g x → ∃ y, BestBy corr g x n y ∧
      ((cs.home.get? y).isSome ∨ (y ∈ l1.map Prod.fst ∧ RareNode i p g y) →
        ∃ c, cs'.home.get? x = some c ∧ cs'.home.get? y = some c) := by
  induction l with
  | nil =>
    intro cs cs' _ hj _ _ h
    cases h
    refine ⟨hj, fun _ _ hy => hy, ?_⟩
    intro l1 x n l2 e
    simp at e
  | cons e l ih =>
    obtain ⟨a, m⟩ := e
    intro cs cs' hc hj hn hl h
    rw [List.map_cons, List.nodup_cons] at hn
    rw [List.foldlM_cons] at h
    obtain ⟨ham, hah⟩ := hl (a, m) (by simp)
    obtain ⟨cs1, e1, hc1, hsame⟩ := clusterNode_inv it corr i p hok hc a m ham hah
    rw [e1] at h
    obtain ⟨b1, b2⟩ := clusterNode_best it corr i p hok hc hj a m ham e1
    obtain ⟨h1, h2⟩ := clusterNode_home it corr i p hok a m e1
    have hmono : ∀ y c, cs.home.get? y = some c → cs1.home.get? y = some c := by
      intro y c hy
      have hya : y ≠ a := by rintro rfl; rw [hah] at hy; cases hy
      rw [hsame y hya]; exact hy
    obtain ⟨i1, i2, i3⟩ := ih cs1 cs' hc1 b1 hn.2 (by
      intro e he
      refine ⟨(hl e (List.mem_cons_of_mem _ he)).1, ?_⟩
      rw [hsame e.1]
      · exact (hl e (List.mem_cons_of_mem _ he)).2
      · intro ex; exact hn.1 (List.mem_map.2 ⟨e, he, ex⟩)) h
    refine ⟨i1, fun y c hy => i2 y c (hmono y c hy), ?_⟩
    intro l1 x n l2 e hx
    cases l1 with
    | nil =>
      simp only [List.nil_append, List.cons.injEq, Prod.mk.injEq] at e
      obtain ⟨⟨rfl, rfl⟩, -⟩ := e
      obtain ⟨y, hb, hy⟩ := b2 hx
      refine ⟨y, hb, ?_⟩
      rintro (hs | ⟨hm, -⟩)
      · obtain ⟨c, hcy⟩ := Option.isSome_iff_exists.1 hs
        exact ⟨c, i2 _ _ (hy c hcy), i2 _ _ (hmono y c hcy)⟩
      · cases hm
    | cons e' l1 =>
      simp only [List.cons_append, List.cons.injEq] at e
      obtain ⟨rfl, e⟩ := e
      obtain ⟨y, hb, hy⟩ := i3 l1 x n l2 e hx
      refine ⟨y, hb, ?_⟩
      rintro (hs | ⟨hm, hr⟩)
      · exact hy (Or.inl (h1 y hs))
      · rw [List.map_cons, List.mem_cons] at hm
        rcases hm with hm | hm
        · simp only at hm
          subst hm
          obtain ⟨m', hm', hlt, hex⟩ := hr
          have e1' := Dict.get?_of_mem hok.nodes hm'
          have e2' := Dict.get?_of_mem hok.nodes ham
          rw [e1'] at e2'
          cases e2'
          exact hy (Or.inl (h2 hlt hex))
        · exact hy (Or.inr ⟨hm, hr⟩)

/-- All that is known about the clusters. -/
theorem discoverClusters_spec (it : Iter) (corr : String → String → ℚ) (i : Info) (p : FuzzyArgs) {g : FuzzyGraph} (hok : FOk g)
    (next : Nat) : ∃ cs, discoverClusters it corr i p g next = some cs ∧ CInv (RareNode i p g) cs ∧
      (∀ x, RareNode i p g x → (cs.home.get? x).isSome) ∧
      (∀ c s, cs.sets.get? c = some s → Joined g s) ∧
      (∀ c s, cs.sets.get? c = some s →
        ((∃ x ∈ s.flatMap (g.outgoing it), x ∉ s ∧ cs.home.get? x = none) ∨ ∀ x ∈ s.flatMap (g.outgoing it), x ∈ s) ∧
        ((∃ x ∈ s.flatMap (g.incoming it), x ∉ s ∧ cs.home.get? x = none) ∨ ∀ x ∈ s.flatMap (g.incoming it), x ∈ s)) ∧
      ∀ l1 x n l2, g.allNodes it = l1 ++ (x, n) :: l2 → RareNode i p g x → ∃ y, BestBy corr g x n y ∧
        (y ∈ l1.map Prod.fst → RareNode i p g y → ∃ c, cs.home.get? x = some c ∧ cs.home.get? y = some c) := by
  obtain ⟨cs, e1, h1⟩ := initialClusters_inv it corr i p hok next
  have hK : ∀ x, RareNode i p g x → x ∈ g.nodes.keys := by
    rintro x ⟨n, hn, -⟩
    exact mem_keys_of_mem hn
  obtain ⟨cs', e2, h2⟩ := mergeClusters_inv it corr (K := RareNode i p g) (g := g) hK (cs.sets.length + 1) cs h1 (by omega)
  have hd : discoverClusters it corr i p g next = some cs' := by
    unfold discoverClusters
    simp only [e1, Option.bind_eq_bind, Option.bind_some]
    exact e2
  have hperm := it.perm "nodes" 0 g.nodes
  have hinit : CInv (RareNode i p g) ({ next := next } : Clusters) := by
    refine ⟨Dict.WF_nil, ?_, ?_, ?_, ?_, ?_⟩ <;> simp
  obtain ⟨k1, -, k3⟩ := initialFold_best it corr i p hok (g.allNodes it) { next := next } cs hinit (by simp) (by
      unfold FuzzyGraph.allNodes
      rw [(hperm.map Prod.fst).nodup_iff]; exact hok.nodes) (by
      intro e he
      exact ⟨hperm.mem_iff.1 he, rfl⟩) e1
  obtain ⟨m1, m2⟩ := mergeClusters_joined it corr hok hK _ cs cs' h1 k1 e2
  refine ⟨cs', hd, h2, discoverClusters_home it corr i p hok next hd, m1, mergeClusters_stop it corr g _ cs cs' e2, ?_⟩
  intro l1 x n l2 e hx
  obtain ⟨y, hb, hy⟩ := k3 l1 x n l2 e hx
  refine ⟨y, hb, ?_⟩
  intro hm hr
  obtain ⟨c, c1, c2⟩ := hy (Or.inr ⟨hm, hr⟩)
  exact m2 x y c c1 c2

end Ficus.Rs.Fz
