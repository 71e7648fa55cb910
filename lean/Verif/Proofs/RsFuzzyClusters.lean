import Verif.Proofs.RsFuzzyEdges

/-! The clusters of a fuzzy graph. -/

namespace Ficus.Rs.Fz
open Ficus.Spec
variable {E : Type} [HasName E]

/-! ### The clusters -/

/-- What holds of the clusters: they are disjoint sets of the given nodes, and `home` names the cluster of each node. -/
structure CInv (K : Nat → Prop) (cs : Clusters) : Prop where
  wf : cs.sets.WF
  bound : ∀ c s, cs.sets.get? c = some s → c < cs.next
  nonempty : ∀ c s, cs.sets.get? c = some s → s ≠ []
  nodup : ∀ c s, cs.sets.get? c = some s → s.Nodup
  inside : ∀ c s, cs.sets.get? c = some s → ∀ x ∈ s, K x
  home : ∀ x c, cs.home.get? x = some c ↔ ∃ s, cs.sets.get? c = some s ∧ x ∈ s

theorem bestOf_mem {α : Type} (value : α → ℚ) (l : List α) (x : α) (h : bestOf value l = some x) : x ∈ l := by
  have key : ∀ (l : List α) (b : Option (α × ℚ)) (r : α × ℚ),
      l.foldl (fun (best : Option (α × ℚ)) x =>
        match best with
        | none => some (x, value x)
        | some b => if b.2 < value x then some (x, value x) else some b) b = some r → r.1 ∈ l ∨ b = some r := by
    intro l
    induction l with
    | nil => intro b r h; exact Or.inr h
    | cons a l ih =>
      intro b r h
      rw [List.foldl_cons] at h
      rcases ih _ _ h with h | h
      · exact Or.inl (List.mem_cons_of_mem _ h)
      · cases b with
        | none => simp only at h; cases h; exact Or.inl (by simp)
        | some b =>
          simp only at h
          split at h
          · cases h; exact Or.inl (by simp)
          · exact Or.inr h
  unfold bestOf at h
  rw [Option.map_eq_some_iff] at h
  obtain ⟨r, hr, rfl⟩ := h
  rcases key _ _ _ hr with h | h
  · exact h
  · cases h

theorem namedNodes_ok {g : FuzzyGraph} {l : List Nat} (h : ∀ x ∈ l, x ∈ g.nodes.keys) :
    namedNodes g l = some (l.map (fun x => (x, nameAt g.nodes x))) := by
  unfold namedNodes
  apply mapM_total
  intro x hx
  rw [nameAt_mem (h x hx)]; rfl

theorem mem_outgoing (it : Iter) (g : FuzzyGraph) (x y : Nat) : y ∈ g.outgoing it x ↔ (FuzzyEdge g x y).isSome := by
  unfold FuzzyGraph.outgoing FuzzyEdge
  cases hc : g.conns.get? x with
  | none => simp
  | some c =>
    simp only [Option.bind_some]
    rw [(it.perm _ _ _).mem_iff, Dict.mem_keys_iff, Option.isSome_iff_exists]

theorem mem_incoming (it : Iter) {g : FuzzyGraph} (h : FOk g) (x y : Nat) :
    y ∈ g.incoming it x ↔ (FuzzyEdge g y x).isSome := by
  unfold FuzzyGraph.incoming FuzzyEdge
  rw [List.mem_filterMap]
  constructor
  · rintro ⟨⟨y', c⟩, hm, hi⟩
    rw [(it.perm _ _ _).mem_iff] at hm
    simp only at hi
    split at hi
    · rename_i hc
      cases hi
      rw [Dict.get?_of_mem h.conns hm, Option.bind_some]
      exact hc
    · cases hi
  · intro hs
    cases hc : g.conns.get? y with
    | none => rw [hc] at hs; simp at hs
    | some c =>
      rw [hc, Option.bind_some] at hs
      refine ⟨(y, c), (it.perm _ _ _).mem_iff.2 (Dict.mem_of_get? hc), ?_⟩
      rw [if_pos]; exact hs

theorem mem_allConnected (it : Iter) {g : FuzzyGraph} (h : FOk g) (x y : Nat) :
    y ∈ g.allConnected it x ↔ (FuzzyEdge g x y).isSome ∨ (FuzzyEdge g y y).isSome := by
  unfold FuzzyGraph.allConnected
  rw [List.mem_append, mem_outgoing]
  refine or_congr_right ?_
  rw [List.mem_filterMap]
  unfold FuzzyEdge
  constructor
  · rintro ⟨⟨y', c⟩, hm, hi⟩
    rw [(it.perm _ _ _).mem_iff] at hm
    simp only at hi
    split at hi
    · rename_i hc
      cases hi
      rw [Dict.get?_of_mem h.conns hm, Option.bind_some]
      exact hc
    · cases hi
  · intro hs
    cases hc : g.conns.get? y with
    | none => rw [hc] at hs; simp at hs
    | some c =>
      rw [hc, Option.bind_some] at hs
      refine ⟨(y, c), (it.perm _ _ _).mem_iff.2 (Dict.mem_of_get? hc), ?_⟩
      rw [if_pos]; exact hs

theorem edge_nodes {g : FuzzyGraph} (h : FOk g) {x y : Nat} (he : (FuzzyEdge g x y).isSome) :
    x ∈ g.nodes.keys ∧ y ∈ g.nodes.keys := by
  obtain ⟨d, hd⟩ := Option.isSome_iff_exists.1 he
  exact h.ends x y d hd

theorem joinCluster_inv {K : Nat → Prop} {cs : Clusters} (h : CInv K cs) (x partner : Nat) (hx : cs.home.get? x = none)
    (hK : K x) : ∃ cs', joinCluster cs x partner = some cs' ∧ CInv K cs' ∧
      ∀ y, y ≠ x → cs'.home.get? y = cs.home.get? y := by
  have hno : ∀ c s, cs.sets.get? c = some s → x ∉ s := by
    intro c s hs hm
    have := (h.home x c).2 ⟨s, hs, hm⟩
    rw [hx] at this; cases this
  unfold joinCluster
  cases hp : cs.home.get? partner with
  | some c =>
    obtain ⟨s, hs, hps⟩ := (h.home partner c).1 hp
    simp only [hs, Option.bind_eq_bind, Option.bind_some]
    refine ⟨_, rfl, ⟨Dict.WF_set h.wf _ _, ?_, ?_, ?_, ?_, ?_⟩, ?_⟩
    · intro c' s' hs'
      rw [Dict.get?_set] at hs'
      split at hs'
      · rename_i e; subst e; exact h.bound c s hs
      · exact h.bound c' s' hs'
    · intro c' s' hs'
      rw [Dict.get?_set] at hs'
      split at hs'
      · cases hs'; exact insertNat_ne_nil _ _
      · exact h.nonempty c' s' hs'
    · intro c' s' hs'
      rw [Dict.get?_set] at hs'
      split at hs'
      · cases hs'; exact insertNat_nodup (h.nodup c s hs) _
      · exact h.nodup c' s' hs'
    · intro c' s' hs' z hz
      rw [Dict.get?_set] at hs'
      split at hs'
      · cases hs'
        rw [mem_insertNat] at hz
        rcases hz with hz | rfl
        · exact h.inside c s hs z hz
        · exact hK
      · exact h.inside c' s' hs' z hz
    · intro z c'
      simp only [Dict.get?_set]
      by_cases hz : x = z
      · subst hz
        rw [if_pos rfl]
        constructor
        · intro e; cases e
          exact ⟨_, by rw [if_pos rfl], by rw [mem_insertNat]; exact Or.inr rfl⟩
        · rintro ⟨s', hs', hm⟩
          split at hs'
          · rename_i e; rw [e]
          · exact absurd hm (hno _ _ hs')
      · rw [if_neg hz, h.home]
        constructor
        · rintro ⟨s', hs', hm⟩
          by_cases e : c = c'
          · subst e
            rw [hs] at hs'; cases hs'
            exact ⟨_, by rw [if_pos rfl], by rw [mem_insertNat]; exact Or.inl hm⟩
          · exact ⟨s', by rw [if_neg e]; exact hs', hm⟩
        · rintro ⟨s', hs', hm⟩
          split at hs'
          · rename_i e
            cases hs'
            rw [mem_insertNat] at hm
            rcases hm with hm | hm
            · exact ⟨s, by rw [← e]; exact hs, hm⟩
            · exact absurd hm.symm hz
          · exact ⟨s', hs', hm⟩
    · intro y hy
      exact Dict.get?_set_ne _ _ (fun e => hy e.symm)
  | none =>
    refine ⟨_, rfl, ⟨Dict.WF_set h.wf _ _, ?_, ?_, ?_, ?_, ?_⟩, ?_⟩
    · intro c' s' hs'
      rw [Dict.get?_set] at hs'
      simp only
      split at hs'
      · rename_i e; subst e; omega
      · have := h.bound c' s' hs'; omega
    · intro c' s' hs'
      rw [Dict.get?_set] at hs'
      split at hs'
      · cases hs'; simp
      · exact h.nonempty c' s' hs'
    · intro c' s' hs'
      rw [Dict.get?_set] at hs'
      split at hs'
      · cases hs'; simp
      · exact h.nodup c' s' hs'
    · intro c' s' hs' z hz
      rw [Dict.get?_set] at hs'
      split at hs'
      · cases hs'
        simp at hz; subst hz; exact hK
      · exact h.inside c' s' hs' z hz
    · intro z c'
      simp only [Dict.get?_set]
      by_cases hz : x = z
      · subst hz
        rw [if_pos rfl]
        constructor
        · intro e; cases e
          exact ⟨[x], by rw [if_pos rfl], by simp⟩
        · rintro ⟨s', hs', hm⟩
          split at hs'
          · rename_i e; rw [e]
          · exact absurd hm (hno _ _ hs')
      · rw [if_neg hz, h.home]
        constructor
        · rintro ⟨s', hs', hm⟩
          have := h.bound c' s' hs'
          exact ⟨s', by rw [if_neg (by omega)]; exact hs', hm⟩
        · rintro ⟨s', hs', hm⟩
          split at hs'
          · cases hs'; simp at hm; exact absurd hm.symm hz
          · exact ⟨s', hs', hm⟩
    · intro y hy
      exact Dict.get?_set_ne _ _ (fun e => hy e.symm)

/-- The nodes of the activities that occur less often than the cutoff and that `all_connected_nodes` connects with another
node. -/
def RareNode (i : Info) (p : FuzzyArgs) (g : FuzzyGraph) (x : Nat) : Prop :=
  ∃ n, (x, n) ∈ g.nodes ∧ unarySig i n < p.nodeCutoff ∧
    ∃ y, y ≠ x ∧ ((FuzzyEdge g x y).isSome ∨ (FuzzyEdge g y y).isSome)

theorem clusterNode_inv (it : Iter) (corr : String → String → ℚ) (i : Info) (p : FuzzyArgs) {g : FuzzyGraph} (hok : FOk g)
    {cs : Clusters} (h : CInv (RareNode i p g) cs) (x : Nat) (n : String) (hn : (x, n) ∈ g.nodes)
    (hx : cs.home.get? x = none) :
    ∃ cs', clusterNode it corr i p g cs (x, n) = some cs' ∧ CInv (RareNode i p g) cs' ∧
      ∀ y, y ≠ x → cs'.home.get? y = cs.home.get? y := by
  unfold clusterNode
  simp only
  split
  · exact ⟨cs, rfl, h, fun _ _ => rfl⟩
  · rename_i hr
    rw [namedNodes_ok (by
      intro y hy
      rw [List.mem_filter, mem_allConnected it hok] at hy
      rcases hy.1 with he | he
      · exact (edge_nodes hok he).2
      · exact (edge_nodes hok he).2)]
    simp only [Option.bind_eq_bind, Option.bind_some]
    split
    · rename_i partner hb
      have hm := bestOf_mem _ _ _ hb
      obtain ⟨y, hy, rfl⟩ := List.mem_map.1 hm
      rw [List.mem_filter, mem_allConnected it hok] at hy
      exact joinCluster_inv h x _ hx ⟨n, hn, not_le.1 hr, y, by simpa using hy.2, hy.1⟩
    · exact ⟨cs, rfl, h, fun _ _ => rfl⟩

theorem initialClusters_inv (it : Iter) (corr : String → String → ℚ) (i : Info) (p : FuzzyArgs) {g : FuzzyGraph} (hok : FOk g)
    (next : Nat) : ∃ cs, initialClusters it corr i p g next = some cs ∧ CInv (RareNode i p g) cs := by
  unfold initialClusters FuzzyGraph.allNodes
  have key : ∀ (l : List (Nat × String)) (cs : Clusters), CInv (RareNode i p g) cs → (l.map Prod.fst).Nodup →
      (∀ e ∈ l, e ∈ g.nodes ∧ cs.home.get? e.1 = none) →
      ∃ cs', l.foldlM (clusterNode it corr i p g) cs = some cs' ∧ CInv (RareNode i p g) cs' := by
    intro l
    induction l with
    | nil => intro cs h _ _; exact ⟨cs, rfl, h⟩
    | cons e l ih =>
      obtain ⟨x, n⟩ := e
      intro cs h hn hl
      rw [List.map_cons, List.nodup_cons] at hn
      obtain ⟨cs1, h1, h2, h3⟩ := clusterNode_inv it corr i p hok h x n (hl (x, n) (by simp)).1 (hl (x, n) (by simp)).2
      obtain ⟨cs2, h4, h5⟩ := ih cs1 h2 hn.2 (by
        intro e he
        refine ⟨(hl e (List.mem_cons_of_mem _ he)).1, ?_⟩
        rw [h3 e.1]
        · exact (hl e (List.mem_cons_of_mem _ he)).2
        · intro ex; exact hn.1 (List.mem_map.2 ⟨e, he, ex⟩))
      exact ⟨cs2, by rw [List.foldlM_cons, h1]; exact h4, h5⟩
  have hp := it.perm "nodes" 0 g.nodes
  apply key
  · refine ⟨Dict.WF_nil, ?_, ?_, ?_, ?_, ?_⟩ <;> simp
  · rw [(hp.map Prod.fst).nodup_iff]; exact hok.nodes
  · intro e he
    exact ⟨hp.mem_iff.1 he, rfl⟩

theorem mem_unionSets (s t : List Nat) (x : Nat) : x ∈ unionSets s t ↔ x ∈ s ∨ x ∈ t := by
  unfold unionSets
  induction t generalizing s with
  | nil => simp
  | cons a t ih => rw [List.foldl_cons, ih, mem_insertNat, List.mem_cons, or_assoc]

theorem unionSets_nodup {s : List Nat} (hs : s.Nodup) (t : List Nat) : (unionSets s t).Nodup := by
  unfold unionSets
  induction t generalizing s with
  | nil => exact hs
  | cons a t ih => rw [List.foldl_cons]; exact ih (insertNat_nodup hs a)

theorem neighbourClusters_mem (home : Dict Nat Nat) (cluster : List Nat) (l : List Nat) : ∀ acc r,
    neighbourClusters home cluster l acc = some r → ∀ c ∈ r, c ∈ acc ∨ ∃ x, x ∉ cluster ∧ home.get? x = some c := by
  induction l with
  | nil => intro acc r h c hc; simp only [neighbourClusters] at h; cases h; exact Or.inl hc
  | cons x l ih =>
    intro acc r h c hc
    simp only [neighbourClusters] at h
    split at h
    · exact ih acc r h c hc
    · rename_i hx
      split at h
      · cases h
      · rename_i e he
        rcases ih _ _ h c hc with hm | hm
        · rw [mem_insertNat] at hm
          rcases hm with hm | rfl
          · exact Or.inl hm
          · exact Or.inr ⟨x, hx, he⟩
        · exact Or.inr hm

theorem home_fold (l : List Nat) (n : Nat) : ∀ (h : Dict Nat Nat) (x : Nat),
    (l.foldl (fun (h : Dict Nat Nat) x => h.set x n) h).get? x = if x ∈ l then some n else h.get? x := by
  induction l with
  | nil => intro h x; simp
  | cons a l ih =>
    intro h x
    rw [List.foldl_cons, ih, Dict.get?_set]
    by_cases hl : x ∈ l
    · simp [hl]
    · by_cases ha : a = x
      · subst ha; simp
      · have ha' : ¬ x = a := fun e => ha e.symm
        simp [hl, ha, ha']

theorem del_length {V : Type} {d : Dict Nat V} (h : d.WF) {k : Nat} (hk : k ∈ d.keys) : (d.del k).length + 1 = d.length := by
  have h1 : (d.del k).length = (d.del k).keys.length := by simp [Dict.keys]
  have h2 : d.length = d.keys.length := by simp [Dict.keys]
  rw [h1, h2, Dict.keys_del]
  have hf : d.keys.filter (fun a => decide (a ≠ k)) = d.keys.erase k := by
    rw [List.Nodup.erase_eq_filter h]
    congr 1
    funext a
    by_cases e : a = k <;> simp [e]
  rw [hf, List.length_erase_of_mem hk]
  have : 0 < d.keys.length := List.length_pos_of_mem hk
  omega

theorem tryMerge_inv (it : Iter) (n : Nat) (corr : String → String → ℚ) {K : Nat → Prop} {g : FuzzyGraph}
    (hK : ∀ x, K x → x ∈ g.nodes.keys) {cs : Clusters} (h : CInv K cs) (id : Nat) (cluster nodes : List Nat)
    (hid : cs.sets.get? id = some cluster) :
    ∃ r, tryMerge it n corr g cs id cluster nodes = some r ∧
      ∀ cs', r = some cs' → CInv K cs' ∧ cs'.sets.length < cs.sets.length := by
  unfold tryMerge
  cases hc : neighbourClusters cs.home cluster (it.order "nodes of try_merge_clusters" n nodes) [] with
  | none => exact ⟨none, rfl, by simp⟩
  | some candidates =>
    simp only
    have hcand : ∀ c ∈ candidates, c ≠ id ∧ ∃ s, cs.sets.get? c = some s := by
      intro c hcm
      rcases neighbourClusters_mem _ _ _ _ _ hc c hcm with hm | ⟨x, hx, hh⟩
      · cases hm
      · obtain ⟨s, hs, hxs⟩ := (h.home x c).1 hh
        refine ⟨?_, s, hs⟩
        rintro rfl
        rw [hid] at hs; cases hs
        exact hx hxs
    have hcorr : ∀ c s, cs.sets.get? c = some s → ∃ v, clustersCorrelation corr g cluster s = some v := by
      intro c s hs
      unfold clustersCorrelation
      rw [namedNodes_ok (fun x hx => hK x (h.inside id cluster hid x hx)),
        namedNodes_ok (fun x hx => hK x (h.inside c s hs x hx))]
      exact ⟨_, rfl⟩
    have hmost : ∃ r, mostCorrelated it n corr g cs.sets cluster candidates = some r ∧
        ∀ o, r = some o → o.1 ≠ id ∧ cs.sets.get? o.1 = some o.2 := by
      unfold mostCorrelated
      have hmap : (it.order "candidates" n candidates).mapM (fun c => (do
          let s ← cs.sets.get? c
          let v ← clustersCorrelation corr g cluster s
          some ((c, s), v) : Option ((Nat × List Nat) × ℚ))) =
          some ((it.order "candidates" n candidates).map (fun c =>
            ((c, (cs.sets.get? c).getD []), (clustersCorrelation corr g cluster ((cs.sets.get? c).getD [])).getD 0))) := by
        apply mapM_total
        intro c hcm
        obtain ⟨-, s, hs⟩ := hcand c ((it.perm _ _ _).mem_iff.1 hcm)
        obtain ⟨v, hv⟩ := hcorr c s hs
        simp [hs, hv]
      rw [hmap]
      simp only [Option.bind_eq_bind, Option.bind_some]
      refine ⟨_, rfl, ?_⟩
      intro o ho
      rw [Option.map_eq_some_iff] at ho
      obtain ⟨q, hq, rfl⟩ := ho
      have hqm := bestOf_mem _ _ _ hq
      rw [List.mem_map] at hqm
      obtain ⟨c, hcm, rfl⟩ := hqm
      obtain ⟨hne, s, hs⟩ := hcand c ((it.perm _ _ _).mem_iff.1 hcm)
      exact ⟨hne, by simp [hs]⟩
    obtain ⟨r, hr, hro⟩ := hmost
    rw [hr]
    simp only [Option.bind_eq_bind, Option.bind_some]
    cases r with
    | none => exact ⟨none, rfl, by simp⟩
    | some other =>
      obtain ⟨o, t⟩ := other
      obtain ⟨hne, hot⟩ := hro (o, t) rfl
      simp only at hne hot ⊢
      refine ⟨_, rfl, ?_⟩
      intro cs' hcs'
      cases hcs'
      have hget : ∀ c s, (((cs.sets.del id).del o).set cs.next (unionSets cluster t)).get? c = some s ↔
          (c = cs.next ∧ s = unionSets cluster t) ∨ (c ≠ cs.next ∧ c ≠ id ∧ c ≠ o ∧ cs.sets.get? c = some s) := by
        intro c s
        rw [Dict.get?_set, Dict.get?_del, Dict.get?_del]
        by_cases e1 : cs.next = c
        · subst e1; simp [eq_comm]
        · have e1' : ¬ c = cs.next := fun e => e1 e.symm
          rw [if_neg e1]
          by_cases e2 : c = o
          · subst e2; simp [e1']
          · by_cases e3 : c = id
            · subst e3; simp [e1']
            · have e2' : ¬ o = c := fun e => e2 e.symm
              have e3' : ¬ id = c := fun e => e3 e.symm
              simp [e1', e2, e3, e2', e3']
      refine ⟨⟨Dict.WF_set (Dict.WF_del (Dict.WF_del h.wf _) _) _ _, ?_, ?_, ?_, ?_, ?_⟩, ?_⟩
      · intro c s hs
        rw [hget] at hs
        simp only
        rcases hs with ⟨rfl, -⟩ | ⟨-, -, -, hs⟩
        · omega
        · have := h.bound c s hs; omega
      · intro c s hs
        rw [hget] at hs
        rcases hs with ⟨-, rfl⟩ | ⟨-, -, -, hs⟩
        · obtain ⟨x, hx⟩ := List.exists_mem_of_ne_nil _ (h.nonempty id cluster hid)
          have : x ∈ unionSets cluster t := (mem_unionSets _ _ _).2 (Or.inl hx)
          intro e; rw [e] at this; cases this
        · exact h.nonempty c s hs
      · intro c s hs
        rw [hget] at hs
        rcases hs with ⟨-, rfl⟩ | ⟨-, -, -, hs⟩
        · exact unionSets_nodup (h.nodup id cluster hid) _
        · exact h.nodup c s hs
      · intro c s hs x hx
        rw [hget] at hs
        rcases hs with ⟨-, rfl⟩ | ⟨-, -, -, hs⟩
        · rw [mem_unionSets] at hx
          rcases hx with hx | hx
          · exact h.inside id cluster hid x hx
          · exact h.inside o t hot x hx
        · exact h.inside c s hs x hx
      · intro x c
        simp only
        rw [home_fold]
        simp only [hget]
        by_cases hx : x ∈ unionSets cluster t
        · rw [if_pos hx]
          constructor
          · intro e; cases e
            exact ⟨_, Or.inl ⟨rfl, rfl⟩, hx⟩
          · rintro ⟨s, (⟨rfl, -⟩ | ⟨-, n1, n2, hs⟩), hm⟩
            · rfl
            · exfalso
              have hh := (h.home x c).2 ⟨s, hs, hm⟩
              rw [mem_unionSets] at hx
              rcases hx with hx | hx
              · have := (h.home x id).2 ⟨cluster, hid, hx⟩
                rw [hh] at this; cases this; exact n1 rfl
              · have := (h.home x o).2 ⟨t, hot, hx⟩
                rw [hh] at this; cases this; exact n2 rfl
        · rw [if_neg hx, h.home]
          rw [mem_unionSets, not_or] at hx
          constructor
          · rintro ⟨s, hs, hm⟩
            refine ⟨s, Or.inr ⟨?_, ?_, ?_, hs⟩, hm⟩
            · have := h.bound c s hs; omega
            · rintro rfl; rw [hid] at hs; cases hs; exact hx.1 hm
            · rintro rfl; rw [hot] at hs; cases hs; exact hx.2 hm
          · rintro ⟨s, (⟨-, rfl⟩ | ⟨-, -, -, hs⟩), hm⟩
            · rw [mem_unionSets] at hm
              exact absurd hm (not_or.2 hx)
            · exact ⟨s, hs, hm⟩
      · simp only
        have k1 : id ∈ cs.sets.keys := (Dict.mem_keys_iff _ _).2 ⟨_, hid⟩
        have k2 : o ∈ (cs.sets.del id).keys := by
          rw [Dict.mem_keys_iff]
          refine ⟨t, ?_⟩
          rw [Dict.get?_del]
          have e3' : ¬ id = o := fun e => hne e.symm
          simp [e3', hot]
        have l1 := del_length h.wf k1
        have l2 := del_length (Dict.WF_del h.wf id) k2
        have l3 : (((cs.sets.del id).del o).set cs.next (unionSets cluster t)).length = ((cs.sets.del id).del o).length + 1 := by
          rw [set_append_of_notMem]
          · simp
          · rw [Dict.keys_del, Dict.keys_del]
            intro hm
            have hm' := (List.mem_filter.1 (List.mem_filter.1 hm).1).1
            obtain ⟨s, hs⟩ := (Dict.mem_keys_iff _ _).1 hm'
            have := h.bound _ _ hs
            omega
        omega

theorem mergeRound_inv (it : Iter) (n : Nat) (corr : String → String → ℚ) {K : Nat → Prop} {g : FuzzyGraph}
    (hK : ∀ x, K x → x ∈ g.nodes.keys) {cs : Clusters} (h : CInv K cs) (l : List Nat) (hl : ∀ c ∈ l, c ∈ cs.sets.keys) :
    ∃ r, mergeRound it n corr g cs l = some r ∧ ∀ cs', r = some cs' → CInv K cs' ∧ cs'.sets.length < cs.sets.length := by
  induction l with
  | nil => exact ⟨none, rfl, by simp⟩
  | cons id l ih =>
    obtain ⟨cluster, hid⟩ := (Dict.mem_keys_iff _ _).1 (hl id (by simp))
    simp only [mergeRound, hid, Option.bind_eq_bind, Option.bind_some]
    obtain ⟨r1, e1, p1⟩ := tryMerge_inv it n corr hK h id cluster (collectSet (cluster.flatMap (g.outgoing it))) hid
    rw [e1]
    simp only [Option.bind_some]
    cases r1 with
    | some m => exact ⟨some m, rfl, p1⟩
    | none =>
      simp only
      obtain ⟨r2, e2, p2⟩ := tryMerge_inv it n corr hK h id cluster (collectSet (cluster.flatMap (g.incoming it))) hid
      rw [e2]
      simp only [Option.bind_some]
      cases r2 with
      | some m => exact ⟨some m, rfl, p2⟩
      | none => exact ih (fun c hc => hl c (List.mem_cons_of_mem _ hc))

theorem mergeClusters_inv (it : Iter) (corr : String → String → ℚ) {K : Nat → Prop} {g : FuzzyGraph}
    (hK : ∀ x, K x → x ∈ g.nodes.keys) (fuel : Nat) : ∀ cs : Clusters, CInv K cs → cs.sets.length < fuel →
    ∃ cs', mergeClusters it corr g fuel cs = some cs' ∧ CInv K cs' := by
  induction fuel with
  | zero => intro cs _ h; omega
  | succ fuel ih =>
    intro cs h hlt
    obtain ⟨r, e, p⟩ := mergeRound_inv it fuel corr hK h (it.order "clusters" fuel cs.sets.keys)
      (fun c hc => (it.perm _ _ _).mem_iff.1 hc)
    simp only [mergeClusters, e, Option.bind_eq_bind, Option.bind_some]
    cases r with
    | none => exact ⟨cs, rfl, h⟩
    | some m =>
      obtain ⟨h1, h2⟩ := p m rfl
      exact ih m h1 (by omega)

theorem discoverClusters_inv (it : Iter) (corr : String → String → ℚ) (i : Info) (p : FuzzyArgs) {g : FuzzyGraph} (hok : FOk g)
    (next : Nat) : ∃ cs, discoverClusters it corr i p g next = some cs ∧ CInv (RareNode i p g) cs := by
  obtain ⟨cs, h1, h2⟩ := initialClusters_inv it corr i p hok next
  obtain ⟨cs', h3, h4⟩ := mergeClusters_inv it corr (K := RareNode i p g) (g := g)
    (by rintro x ⟨n, hn, -⟩; exact mem_keys_of_mem hn) (cs.sets.length + 1) cs h2 (by omega)
  refine ⟨cs', ?_, h4⟩
  unfold discoverClusters
  simp only [h1, Option.bind_eq_bind, Option.bind_some]
  exact h3

/-! ### Each such node gets a cluster -/

theorem bestOf_none {α : Type} (value : α → ℚ) (l : List α) (h : bestOf value l = none) : l = [] := by
  have key : ∀ (l : List α) (b : α × ℚ),
      l.foldl (fun (best : Option (α × ℚ)) x =>
        match best with
        | none => some (x, value x)
        | some b => if b.2 < value x then some (x, value x) else some b) (some b) ≠ none := by
    intro l
    induction l with
    | nil => intro b; simp
    | cons a l ih =>
      intro b
      rw [List.foldl_cons]
      simp only
      split <;> exact ih _
  cases l with
  | nil => rfl
  | cons a l =>
    unfold bestOf at h
    rw [Option.map_eq_none_iff, List.foldl_cons] at h
    exact absurd h (key l (a, value a))

theorem joinCluster_home {cs cs' : Clusters} {x partner : Nat} (h : joinCluster cs x partner = some cs') :
    (cs'.home.get? x).isSome ∧ ∀ y, (cs.home.get? y).isSome → (cs'.home.get? y).isSome := by
  unfold joinCluster at h
  have key : ∀ (d : Dict Nat Nat) c y, (d.get? y).isSome → ((d.set x c).get? y).isSome := by
    intro d c y hy
    rw [Dict.get?_set]
    split
    · rfl
    · exact hy
  split at h
  · rename_i c hc
    cases hs : cs.sets.get? c with
    | none => rw [hs] at h; simp at h
    | some s =>
      rw [hs] at h
      simp only [Option.bind_eq_bind, Option.bind_some, Option.some.injEq] at h
      subst h
      exact ⟨by simp, key _ _⟩
  · cases h
    exact ⟨by simp, key _ _⟩

theorem clusterNode_home (it : Iter) (corr : String → String → ℚ) (i : Info) (p : FuzzyArgs) {g : FuzzyGraph} (hok : FOk g)
    {cs cs' : Clusters} (x : Nat) (n : String) (h : clusterNode it corr i p g cs (x, n) = some cs') :
    (∀ y, (cs.home.get? y).isSome → (cs'.home.get? y).isSome) ∧
    (unarySig i n < p.nodeCutoff → (∃ y, y ≠ x ∧ ((FuzzyEdge g x y).isSome ∨ (FuzzyEdge g y y).isSome)) →
      (cs'.home.get? x).isSome) := by
  unfold clusterNode at h
  simp only at h
  split at h
  · rename_i hle
    cases h
    exact ⟨fun _ hy => hy, fun hlt => absurd hlt (not_lt.2 hle)⟩
  · rename_i hr
    rw [namedNodes_ok (by
      intro y hy
      rw [List.mem_filter, mem_allConnected it hok] at hy
      rcases hy.1 with he | he
      · exact (edge_nodes hok he).2
      · exact (edge_nodes hok he).2)] at h
    simp only [Option.bind_eq_bind, Option.bind_some] at h
    split at h
    · exact ⟨(joinCluster_home h).2, fun _ _ => (joinCluster_home h).1⟩
    · rename_i hb
      cases h
      refine ⟨fun _ hy => hy, ?_⟩
      rintro - ⟨y, hyx, hy⟩
      have he := bestOf_none _ _ hb
      rw [List.map_eq_nil_iff] at he
      have : y ∈ (g.allConnected it x).filter (fun y => decide (y ≠ x)) :=
        List.mem_filter.2 ⟨(mem_allConnected it hok x y).2 hy, by simpa using hyx⟩
      rw [he] at this
      cases this

theorem initialClusters_home (it : Iter) (corr : String → String → ℚ) (i : Info) (p : FuzzyArgs) {g : FuzzyGraph} (hok : FOk g)
    (next : Nat) {cs : Clusters} (h : initialClusters it corr i p g next = some cs) (x : Nat) (hx : RareNode i p g x) :
    (cs.home.get? x).isSome := by
  unfold initialClusters FuzzyGraph.allNodes at h
  obtain ⟨n, hn, hlt, hy⟩ := hx
  have key : ∀ (l : List (Nat × String)) (c c' : Clusters), l.foldlM (clusterNode it corr i p g) c = some c' →
      ((c.home.get? x).isSome ∨ (x, n) ∈ l) → (c'.home.get? x).isSome := by
    intro l
    induction l with
    | nil =>
      intro c c' h ho
      cases h
      rcases ho with ho | ho
      · exact ho
      · cases ho
    | cons e l ih =>
      obtain ⟨z, m⟩ := e
      intro c c' h ho
      rw [List.foldlM_cons] at h
      cases e1 : clusterNode it corr i p g c (z, m) with
      | none => rw [e1] at h; simp at h
      | some c1 =>
        rw [e1] at h
        refine ih c1 c' h ?_
        have hh := clusterNode_home it corr i p hok z m e1
        rcases ho with ho | ho
        · exact Or.inl (hh.1 x ho)
        · rcases List.mem_cons.1 ho with e | ho
          · cases e; exact Or.inl (hh.2 hlt hy)
          · exact Or.inr ho
  exact key _ _ _ h (Or.inr ((it.perm "nodes" 0 g.nodes).mem_iff.2 hn))

theorem tryMerge_home (it : Iter) (n : Nat) (corr : String → String → ℚ) (g : FuzzyGraph) (cs cs' : Clusters) (id : Nat)
    (cluster nodes : List Nat) (h : tryMerge it n corr g cs id cluster nodes = some (some cs')) (x : Nat)
    (hx : (cs.home.get? x).isSome) : (cs'.home.get? x).isSome := by
  unfold tryMerge at h
  split at h
  · cases h
  · rename_i cand _
    cases e : mostCorrelated it n corr g cs.sets cluster cand with
    | none => rw [e] at h; simp at h
    | some r =>
      rw [e] at h
      simp only [Option.bind_eq_bind, Option.bind_some] at h
      cases r with
      | none => cases h
      | some o =>
        simp only [Option.some.injEq] at h
        subst h
        simp only
        rw [home_fold]
        split
        · rfl
        · exact hx

theorem mergeRound_home (it : Iter) (n : Nat) (corr : String → String → ℚ) (g : FuzzyGraph) (cs cs' : Clusters)
    (l : List Nat) (h : mergeRound it n corr g cs l = some (some cs')) (x : Nat) (hx : (cs.home.get? x).isSome) :
    (cs'.home.get? x).isSome := by
  induction l with
  | nil => cases h
  | cons id l ih =>
    simp only [mergeRound] at h
    cases e0 : cs.sets.get? id with
    | none => rw [e0] at h; simp at h
    | some cluster =>
      rw [e0] at h
      simp only [Option.bind_eq_bind, Option.bind_some] at h
      cases e1 : tryMerge it n corr g cs id cluster (collectSet (cluster.flatMap (g.outgoing it))) with
      | none => rw [e1] at h; simp at h
      | some r1 =>
        rw [e1] at h
        simp only [Option.bind_some] at h
        cases r1 with
        | some m => cases h; exact tryMerge_home it n corr g cs _ id cluster _ e1 x hx
        | none =>
          simp only at h
          cases e2 : tryMerge it n corr g cs id cluster (collectSet (cluster.flatMap (g.incoming it))) with
          | none => rw [e2] at h; simp at h
          | some r2 =>
            rw [e2] at h
            simp only [Option.bind_some] at h
            cases r2 with
            | some m => cases h; exact tryMerge_home it n corr g cs _ id cluster _ e2 x hx
            | none => exact ih h

theorem mergeClusters_home (it : Iter) (corr : String → String → ℚ) (g : FuzzyGraph) (fuel : Nat) : ∀ cs cs' : Clusters,
    mergeClusters it corr g fuel cs = some cs' → ∀ x, (cs.home.get? x).isSome → (cs'.home.get? x).isSome := by
  induction fuel with
  | zero => intro cs cs' h; cases h
  | succ fuel ih =>
    intro cs cs' h x hx
    simp only [mergeClusters] at h
    cases e : mergeRound it fuel corr g cs (it.order "clusters" fuel cs.sets.keys) with
    | none => rw [e] at h; simp at h
    | some r =>
      rw [e] at h
      simp only [Option.bind_eq_bind, Option.bind_some] at h
      cases r with
      | none => cases h; exact hx
      | some m => exact ih m cs' h x (mergeRound_home it fuel corr g cs m _ e x hx)

theorem discoverClusters_home (it : Iter) (corr : String → String → ℚ) (i : Info) (p : FuzzyArgs) {g : FuzzyGraph} (hok : FOk g)
    (next : Nat) {cs : Clusters} (h : discoverClusters it corr i p g next = some cs) (x : Nat) (hx : RareNode i p g x) :
    (cs.home.get? x).isSome := by
  unfold discoverClusters at h
  cases e : initialClusters it corr i p g next with
  | none => rw [e] at h; simp at h
  | some c =>
    rw [e] at h
    simp only [Option.bind_eq_bind, Option.bind_some] at h
    exact mergeClusters_home it corr g _ c cs h x (initialClusters_home it corr i p hok next e x hx)

end Ficus.Rs.Fz
