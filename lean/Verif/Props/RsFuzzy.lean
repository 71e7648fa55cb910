import Verif.Props.RsFuzzyEdges
import Verif.Proofs.RsFuzzyStable
import Verif.Proofs.RsFuzzyMerge

/-! C147: the clusters of a fuzzy graph. -/

namespace Ficus.Rs
open Ficus.Spec Fz
variable {E : Type} [HasName E]

theorem rareNode_iff (it : Iter) (p : FuzzyArgs) (log : List (List E)) (g : FuzzyGraph) (x : Nat) :
    RareNode (createInfo it log) p g x ↔ InCluster p log g x := by
  unfold RareNode InCluster
  simp only [unarySig_eq]

theorem bestBy_iff (millis : E → E → Int) (log : List (List E)) (g : FuzzyGraph) (x : Nat) (n : String) (y : Nat) :
    BestBy (proximity millis log) g x n y ↔ BestPartner millis log g x n y := by
  unfold BestBy BestPartner
  simp only [proximity_eq]

/-- The discovery never fails and always ends. Its graph arises from the graph of C146: each node of that graph belongs to
exactly one node of the result, those that `InCluster` describes to a cluster and all others to themselves; and the edges
between different nodes have the sums of the weights of the edges between their members. The members of a cluster are joined
by links inside of it, the clusters cannot be merged any more, and, for some order of the nodes, each node in a cluster is
together with its best partner if that comes before it in this order and is in a cluster. This holds for each order of
iteration of the maps. -/
theorem C147_grouping (it : Iter) (millis : E → E → Int) (p : FuzzyArgs) (log : List (List E)) (next nextSet : Nat) :
    ∃ next' g₀ g members, fuzzyEdges it millis p log next = some (next', g₀) ∧
      discoverFuzzy it millis p log next nextSet = some g ∧ Grouping p log g₀ g members ∧ Summed g₀ g members ∧
      (∀ x ∈ g.nodes.map Prod.fst, x ∉ g₀.nodes.map Prod.fst → Joined g₀ (members x) ∧ Settled p log g₀ (members x)) ∧
      ∃ order : List (Nat × String), order.Perm g₀.nodes ∧ ∀ before x n after, order = before ++ (x, n) :: after →
        InCluster p log g₀ x → ∃ y, BestPartner millis log g₀ x n y ∧
          (y ∈ before.map Prod.fst → InCluster p log g₀ y →
            ∃ z ∈ g.nodes.map Prod.fst, x ∈ members z ∧ y ∈ members z) := by
  obtain ⟨n1, g₀, e1, -, -, hb, hok⟩ := C146_total it millis p log next
  obtain ⟨cs, e2, h2, hcov, hjoin, hstop, hbest⟩ :=
    discoverClusters_spec it (proximity millis log) (createInfo it log) p hok nextSet
  simp only [rareNode_iff, bestBy_iff] at hcov hbest
  have hperm := it.perm "clusters of merge_nodes" 0 cs.sets
  have hget : ∀ e ∈ it.order "clusters of merge_nodes" 0 cs.sets, cs.sets.get? e.1 = some e.2 := by
    intro e he
    exact Dict.get?_of_mem h2.wf (hperm.mem_iff.1 he)
  have start := start_inv (fun s => ∃ c t, cs.sets.get? c = some t ∧ s.Perm t) p log g₀ hok n1 (by
      intro x hx
      obtain ⟨e, he, rfl⟩ := List.mem_map.1 hx
      exact (hb e he).2) ((it.order "clusters of merge_nodes" 0 cs.sets).map Prod.snd)
    (by
      rw [List.pairwise_map]
      have hn : ((it.order "clusters of merge_nodes" 0 cs.sets).map Prod.fst).Nodup :=
        (hperm.map Prod.fst).nodup_iff.2 h2.wf
      rw [List.Nodup, List.pairwise_map] at hn
      refine List.Pairwise.imp_of_mem ?_ hn
      intro a b ha hb' hne x hxa hxb
      have h3 := (h2.home x a.1).2 ⟨a.2, hget a ha, hxa⟩
      have h4 := (h2.home x b.1).2 ⟨b.2, hget b hb', hxb⟩
      rw [h3] at h4
      exact hne (Option.some.inj h4))
    (by
      intro s hs
      obtain ⟨e, he, rfl⟩ := List.mem_map.1 hs
      refine ⟨⟨e.1, e.2, hget e he, List.Perm.refl _⟩, h2.nodup _ _ (hget e he), h2.nonempty _ _ (hget e he), ?_⟩
      intro x hx
      exact (rareNode_iff it p log g₀ x).1 (h2.inside _ _ (hget e he) x hx))
    (by
      intro x hx
      obtain ⟨c, hc⟩ := Option.isSome_iff_exists.1 (hcov x hx)
      obtain ⟨s, hs, hxs⟩ := (h2.home x c).1 hc
      exact ⟨s, List.mem_map.2 ⟨(c, s), hperm.mem_iff.2 (Dict.mem_of_get? hs), rfl⟩, hxs⟩)
  obtain ⟨g, members, n2, e3, h3⟩ := mergeNodes_inv (by
    rintro s t hst ⟨c, u, hu, htu⟩
    exact ⟨c, u, hu, hst.trans htu⟩) it p log g₀ _ g₀ _ n1 start
  have hG : Grouping p log g₀ g members := by
    refine ⟨h3.ok.nodes, h3.partition, ?_, h3.node⟩
    intro x hx
    rw [← h3.kept x hx]
    simp
  have hhome : ∀ x, cs.home.get? x = none → ¬ InCluster p log g₀ x := by
    intro x hx hin
    have := hcov x hin
    rw [hx] at this; cases this
  refine ⟨n1, g₀, g, members, e1, ?_, hG, h3.summed, ?_, g₀.allNodes it, it.perm _ _ _, ?_⟩
  · unfold discoverFuzzy
    simp only [e1, Option.bind_eq_bind, Option.bind_some, e2]
    exact e3
  · intro x hx hx₀
    obtain ⟨c, s, hs, hp⟩ := h3.clusters x hx hx₀
    refine ⟨joined_perm (fun z => hp.symm.mem_iff) (hjoin c s hs), ?_⟩
    obtain ⟨s1, s2⟩ := hstop c s hs
    constructor
    · rcases s1 with ⟨b, hb1, hb2, hb3⟩ | hall
      · obtain ⟨a, ha, hm⟩ := List.mem_flatMap.1 hb1
        exact Or.inl ⟨a, hp.mem_iff.2 ha, b, (mem_outgoing it g₀ a b).1 hm, fun h => hb2 (hp.mem_iff.1 h), hhome b hb3⟩
      · refine Or.inr ?_
        intro a ha b hab
        exact hp.mem_iff.2 (hall b (List.mem_flatMap.2 ⟨a, hp.mem_iff.1 ha, (mem_outgoing it g₀ a b).2 hab⟩))
    · rcases s2 with ⟨b, hb1, hb2, hb3⟩ | hall
      · obtain ⟨a, ha, hm⟩ := List.mem_flatMap.1 hb1
        exact Or.inl ⟨a, hp.mem_iff.2 ha, b, (mem_incoming it hok a b).1 hm, fun h => hb2 (hp.mem_iff.1 h), hhome b hb3⟩
      · refine Or.inr ?_
        intro a ha b hab
        exact hp.mem_iff.2 (hall b (List.mem_flatMap.2 ⟨a, hp.mem_iff.1 ha, (mem_incoming it hok a b).2 hab⟩))
  · intro before x n after he hx
    obtain ⟨y, hy1, hy2⟩ := hbest before x n after he hx
    refine ⟨y, hy1, ?_⟩
    intro hyb hyc
    obtain ⟨c, c1, c2⟩ := hy2 hyb hyc
    have hxk : x ∈ g₀.nodes.map Prod.fst := by
      obtain ⟨m, hm, -⟩ := hx
      exact List.mem_map.2 ⟨_, hm, rfl⟩
    obtain ⟨z, hz, hxz⟩ := List.mem_flatMap.1 (hG.partition.mem_iff.2 hxk)
    refine ⟨z, hz, hxz, ?_⟩
    have hz₀ : z ∉ g₀.nodes.map Prod.fst := by
      intro hz₀
      obtain ⟨⟨z', m⟩, hzm, rfl⟩ := List.mem_map.1 hz
      rcases hG.node z' m hzm with ⟨-, hmz⟩ | ⟨hno, -⟩
      · simp only at hxz
        rw [hmz, List.mem_singleton] at hxz
        subst hxz
        exact (hG.kept x hxk).1 hz hx
      · exact hno hz₀
    obtain ⟨c', s, hs, hp⟩ := h3.clusters z hz hz₀
    have hxc := (h2.home x c').2 ⟨s, hs, hp.mem_iff.1 hxz⟩
    rw [c1] at hxc
    cases hxc
    obtain ⟨s', hs', hys⟩ := (h2.home y c).1 c2
    rw [hs] at hs'; cases hs'
    exact hp.mem_iff.2 hys

/-- In the result each cluster with edges to other nodes has an edge to an activity outside of clusters, and the same for the
edges into it. -/
theorem C147_settled (it : Iter) (millis : E → E → Int) (p : FuzzyArgs) (log : List (List E)) (next nextSet : Nat) :
    ∃ next' g₀ g, fuzzyEdges it millis p log next = some (next', g₀) ∧
      discoverFuzzy it millis p log next nextSet = some g ∧
      ∀ c ∈ g.nodes.map Prod.fst, c ∉ g₀.nodes.map Prod.fst →
        ((∃ y, (FuzzyEdge g c y).isSome) → ∃ y ∈ g₀.nodes.map Prod.fst, (FuzzyEdge g c y).isSome) ∧
        ((∃ y, (FuzzyEdge g y c).isSome) → ∃ y ∈ g₀.nodes.map Prod.fst, (FuzzyEdge g y c).isSome) := by
  obtain ⟨n1, g₀, g, members, e1, e2, hG, hS, hset, -⟩ := C147_grouping it millis p log next nextSet
  obtain ⟨n2, g₁, e1', -, -, -, hok₀⟩ := C146_total it millis p log next
  rw [e1] at e1'; cases e1'
  have hmem : ∀ y ∈ g₀.nodes.map Prod.fst, ¬ InCluster p log g₀ y → y ∈ g.nodes.map Prod.fst ∧ members y = [y] := by
    intro y hy hn
    have hk := (hG.kept y hy).2 hn
    obtain ⟨⟨y', m⟩, hym, rfl⟩ := List.mem_map.1 hk
    rcases hG.node y' m hym with ⟨-, hmy⟩ | ⟨hno, -⟩
    · exact ⟨hk, hmy⟩
    · exact absurd hy hno
  have huniq : ∀ x ∈ g.nodes.map Prod.fst, ∀ y ∈ g.nodes.map Prod.fst, ∀ a, a ∈ members x → a ∈ members y → x = y := by
    intro x hx y hy a hax hay
    by_contra hne
    have hnd : ((g.nodes.map Prod.fst).flatMap members).Nodup := by
      rw [hG.partition.nodup_iff]; exact hok₀.nodes
    have hpw := (List.nodup_flatMap.1 hnd).2
    have : Std.Symm (Function.onFun List.Disjoint members) := ⟨fun a b h => List.Disjoint.symm h⟩
    exact hpw.forall hx hy hne hax hay
  refine ⟨n1, g₀, g, e1, e2, ?_⟩
  intro c hc hc₀
  have hloop : FuzzyEdge g c c = none := by rw [hS.loops c hc, if_neg hc₀]
  have hends : ∀ {x y}, (FuzzyEdge g x y).isSome → x ∈ g.nodes.map Prod.fst ∧ y ∈ g.nodes.map Prod.fst := hS.ends _ _
  obtain ⟨-, s1, s2⟩ := hset c hc hc₀
  constructor
  · rintro ⟨y, hy⟩
    have hyc : c ≠ y := by rintro rfl; rw [hloop] at hy; cases hy
    have hyk := (hends hy).2
    obtain ⟨a, ha, b, hb, hab⟩ := (hS.exist c hc y hyk hyc).1 hy
    rcases s1 with ⟨a', ha', b', hab', hb1, hb2⟩ | hall
    · have hb₀ : b' ∈ g₀.nodes.map Prod.fst := (edge_nodes hok₀ hab').2
      obtain ⟨hbk, hbm⟩ := hmem b' hb₀ hb2
      refine ⟨b', hb₀, (hS.exist c hc b' hbk ?_).2 ⟨a', ha', b', by rw [hbm]; simp, hab'⟩⟩
      rintro rfl; exact hc₀ hb₀
    · exact absurd (huniq c hc y hyk b (hall a ha b hab) hb) hyc
  · rintro ⟨y, hy⟩
    have hyc : y ≠ c := by rintro rfl; rw [hloop] at hy; cases hy
    have hyk := (hends hy).1
    obtain ⟨b, hb, a, ha, hab⟩ := (hS.exist y hyk c hc hyc).1 hy
    rcases s2 with ⟨a', ha', b', hab', hb1, hb2⟩ | hall
    · have hb₀ : b' ∈ g₀.nodes.map Prod.fst := (edge_nodes hok₀ hab').1
      obtain ⟨hbk, hbm⟩ := hmem b' hb₀ hb2
      refine ⟨b', hb₀, (hS.exist b' hbk c hc ?_).2 ⟨b', by rw [hbm]; simp, a', ha', hab'⟩⟩
      rintro rfl; exact hc₀ hb₀
    · exact absurd (huniq c hc y hyk b (hall a ha b hab) hb).symm hyc

theorem setCorrelation_eq (corr : String → String → ℚ) (g : FuzzyGraph) (s t : List Nat) (hs : ∀ x ∈ s, x ∈ g.nodes.keys)
    (ht : ∀ x ∈ t, x ∈ g.nodes.keys) :
    setCorrelation corr g s t =
      (s.map (fun a => (t.map (fun b => corr (nameAt g.nodes a) (nameAt g.nodes b))).sum)).sum / ((s.length * t.length : Nat) : ℚ) := by
  unfold setCorrelation clustersCorrelation
  rw [namedNodes_ok hs, namedNodes_ok ht]
  simp only [Option.bind_eq_bind, Option.bind_some, Option.getD_some]
  have hsum : ∀ l : List Nat, ((l.map (fun x => (x, nameAt g.nodes x))).flatMap (fun a =>
      (t.map (fun x => (x, nameAt g.nodes x))).map (fun b => corr a.2 b.2))).sum =
      (l.map (fun a => (t.map (fun b => corr (nameAt g.nodes a) (nameAt g.nodes b))).sum)).sum := by
    intro l
    induction l with
    | nil => rfl
    | cons a l ih =>
      rw [List.map_cons, List.flatMap_cons, List.sum_append, ih, List.map_cons, List.sum_cons, List.map_map]
      rfl
  have hlen : ((s.map (fun x => (x, nameAt g.nodes x))).flatMap (fun a =>
      (t.map (fun x => (x, nameAt g.nodes x))).map (fun b => corr a.2 b.2))).length = s.length * t.length := by
    clear hs hsum
    induction s with
    | nil => simp
    | cons a s ih => rw [List.map_cons, List.flatMap_cons, List.length_append, ih]; simp; ring
  rw [hlen, hsum]
  split
  · rename_i h0; rw [h0]; simp
  · rfl

/-- A merge of clusters joins a cluster with the cluster of one of the given nodes outside of it, if all of these have a cluster,
and with one for which the mean of the correlations between the members is greatest. -/
theorem C147_merge_choice (it : Iter) (n : Nat) (millis : E → E → Int) (log : List (List E)) (g : FuzzyGraph) (cs cs' : Clusters)
    (id : Nat) (cluster nodes : List Nat) (hid : cs.sets.get? id = some cluster)
    (hk : ∀ c s, cs.sets.get? c = some s → ∀ x ∈ s, x ∈ g.nodes.keys)
    (h : tryMerge it n (proximity millis log) g cs id cluster nodes = some (some cs')) :
    let mean := fun s t : List Nat => (s.map (fun a => (t.map (fun b =>
      meanDelay millis log (nameAt g.nodes a) (nameAt g.nodes b))).sum)).sum / ((s.length * t.length : Nat) : ℚ)
    ∃ o t, (∃ y ∈ nodes, y ∉ cluster ∧ cs.home.get? y = some o) ∧ cs.sets.get? o = some t ∧
      (∀ y ∈ nodes, y ∉ cluster → ∃ c s, cs.home.get? y = some c ∧ cs.sets.get? c = some s ∧ mean cluster s ≤ mean cluster t) ∧
      ∃ m s, cs'.sets.get? m = some s ∧ (∀ x, x ∈ s ↔ x ∈ cluster ∨ x ∈ t) ∧ ∀ x ∈ s, cs'.home.get? x = some m := by
  obtain ⟨o, t, h1, h2, h3, h4, h5⟩ := tryMerge_cases it n _ g cs cs' id cluster nodes h
  refine ⟨o, t, h1, h2, ?_, cs.next, unionSets cluster t, ?_, mem_unionSets cluster t, ?_⟩
  · intro y hy hyc
    obtain ⟨c, s, e1, e2, hle⟩ := h3 y hy hyc
    refine ⟨c, s, e1, e2, ?_⟩
    rw [setCorrelation_eq _ g cluster s (hk id cluster hid) (hk c s e2),
      setCorrelation_eq _ g cluster t (hk id cluster hid) (hk o t h2)] at hle
    simpa only [proximity_eq] using hle
  · rw [h4, Dict.get?_set, if_pos rfl]
  · intro x hx
    rw [h5, home_fold, if_pos hx]

theorem forall₂_exists_left {A B : Type} {R : A → B → Prop} {l : List A} {m : List B} (h : List.Forall₂ R l m) :
    ∀ b ∈ m, ∃ a, R a b := by
  induction h with
  | nil => intro b hb; cases hb
  | cons ha _ ih =>
    intro b hb
    rcases List.mem_cons.1 hb with rfl | hb
    · exact ⟨_, ha⟩
    · exact ih b hb

/-- The names of the activities of the graph: each frequent activity has a node or is listed in exactly one cluster. -/
theorem C147_names (it : Iter) (millis : E → E → Int) (p : FuzzyArgs) (log : List (List E)) (next nextSet : Nat) :
    ∃ g listed, discoverFuzzy it millis p log next nextSet = some g ∧
      List.Forall₂ (fun node names => names = [node] ∨
        (node = "Cluster[" ++ ",".intercalate names ++ "]" ∧ ∀ c ∈ names, (namePlaces log c : ℚ) < p.nodeCutoff))
        (g.nodes.map Prod.snd) listed ∧
      listed.flatten.Perm (frequentNames p log) := by
  obtain ⟨n1, g₀, g, members, e1, e2, hG, -, -, -⟩ := C147_grouping it millis p log next nextSet
  obtain ⟨n1', g₀', e1', hn, hperm, -, -⟩ := C146_total it millis p log next
  rw [e1] at e1'; cases e1'
  refine ⟨g, g.nodes.map (fun e => (members e.1).map (nameAt g₀.nodes)), e2, ?_, ?_⟩
  · rw [List.forall₂_map_left_iff, List.forall₂_map_right_iff, List.forall₂_same]
    rintro ⟨x, n⟩ hx
    rcases hG.node x n hx with ⟨h1, h2⟩ | ⟨-, -, names, h3, h4⟩
    · refine Or.inl ?_
      simp only [h2, List.map_cons, List.map_nil, nameAt_eq hn h1]
    · have hnames : (members x).map (nameAt g₀.nodes) = names := by
        clear h4
        revert h3
        generalize members x = l
        intro h3
        induction h3 with
        | nil => rfl
        | cons ha _ ih => rw [List.map_cons, ih, nameAt_eq hn ha.1]
      refine Or.inr ⟨by rw [hnames]; exact h4, ?_⟩
      intro c hc
      simp only at hc
      rw [hnames] at hc
      obtain ⟨y, hy, m, hm, hlt, -⟩ := forall₂_exists_left h3 c hc
      rw [← nameAt_eq hn hy, nameAt_eq hn hm]
      exact hlt
  · have h1 : (g.nodes.map (fun e => (members e.1).map (nameAt g₀.nodes))).flatten =
        ((g.nodes.map Prod.fst).flatMap members).map (nameAt g₀.nodes) := by
      rw [List.map_flatMap, List.flatMap_map, List.flatMap_def]
    rw [h1]
    refine (hG.partition.map _).trans ?_
    have h2 : (g₀.nodes.map Prod.fst).map (nameAt g₀.nodes) = g₀.nodes.map Prod.snd := by
      rw [List.map_map]
      apply List.map_congr_left
      rintro ⟨x, n⟩ hx
      exact nameAt_eq hn hx
    rw [h2]
    exact hperm

/-- If no activity occurs less often than the cutoff, the result is the graph of C146. -/
theorem C147_no_clusters (it : Iter) (millis : E → E → Int) (p : FuzzyArgs) (log : List (List E)) (next nextSet : Nat)
    (h : ∀ c ∈ frequentNames p log, p.nodeCutoff ≤ (namePlaces log c : ℚ)) :
    ∃ next' g, fuzzyEdges it millis p log next = some (next', g) ∧ discoverFuzzy it millis p log next nextSet = some g := by
  obtain ⟨n1, g₀, e1, -, hperm, -, hok⟩ := C146_total it millis p log next
  obtain ⟨cs, e2, h2⟩ := discoverClusters_inv it (proximity millis log) (createInfo it log) p hok nextSet
  refine ⟨n1, g₀, e1, ?_⟩
  have hsets : cs.sets = [] := by
    by_contra hne
    obtain ⟨⟨c, s⟩, hc⟩ := List.exists_mem_of_ne_nil _ hne
    have hs := Dict.get?_of_mem h2.wf hc
    obtain ⟨x, hx⟩ := List.exists_mem_of_ne_nil _ (h2.nonempty c s hs)
    obtain ⟨n, hn, hlt, -⟩ := (rareNode_iff it p log g₀ x).1 (h2.inside c s hs x hx)
    have := h n (hperm.mem_iff.1 (List.mem_map.2 ⟨_, hn, rfl⟩))
    exact absurd hlt (not_lt.2 this)
  have hnil : it.order "clusters of merge_nodes" 0 cs.sets = [] := by
    have := it.perm "clusters of merge_nodes" 0 cs.sets
    rw [hsets] at this ⊢
    exact this.eq_nil
  unfold discoverFuzzy
  simp only [e1, Option.bind_eq_bind, Option.bind_some, e2, hnil]
  rfl

/-- With the default arguments of the part the fuzzy graph is the graph of direct successions with their counts. -/
theorem C147_defaults (it : Iter) (millis : E → E → Int) (log : List (List E)) (next nextSet : Nat) (rate : ℚ) :
    ∃ g, discoverFuzzy it millis { rate := rate } log next nextSet = some g ∧
      (g.nodes.map Prod.fst).Nodup ∧ (g.nodes.map Prod.snd).Perm (log.flatMap (fun t => t.map name)).dedup ∧
      ∀ x y d, FuzzyEdge g x y = some d ↔
        ∃ a b, (x, a) ∈ g.nodes ∧ (y, b) ∈ g.nodes ∧ 0 < followPlaces log a b ∧ d = (followPlaces log a b : ℚ) := by
  obtain ⟨n1, g, e1, e2⟩ := C147_no_clusters it millis { rate := rate } log next nextSet (by intro c _; positivity)
  obtain ⟨n2, g', e3, h1, h2, h3⟩ := C146_defaults it millis { rate := rate } le_rfl le_rfl le_rfl log next
  rw [e1] at e3; cases e3
  refine ⟨g, e2, h1, ?_, ?_⟩
  · refine h2.trans ?_
    unfold frequentNames
    rw [List.filter_eq_self.2]
    intro c hc
    rw [List.mem_dedup, ← List.count_pos_iff] at hc
    simpa [namePlaces] using hc
  · intro x y d
    rw [h3]
    simp

/-! ### Examples -/

/-- A log for the examples. -/
def exClusters : List (List (String × Nat)) :=
  [[("x", 0), ("a", 0), ("b", 10), ("x", 10)], [("x", 0), ("a", 0), ("x", 1)], [("x", 0), ("b", 0), ("x", 1)]]

/-- Activities that occur less often than three times are put into clusters. -/
def exCut : FuzzyArgs := { nodeCutoff := 3 }

example : (discoverFuzzy .plain exMillis exCut [[("x", 0), ("x", 1), ("x", 2), ("a", 3), ("b", 4), ("x", 5)]] 0 0).map
    FuzzyGraph.parts = some ([(0, "x"), (3, "Cluster[a,b]")], [(0, [(0, 2), (3, 1)]), (3, [(0, 1)])]) := by decide +kernel

example : ∀ c ∈ frequentNames { nodeCutoff := 1 } exClusters, (1 : ℚ) ≤ (namePlaces exClusters c : ℚ) := by decide +kernel

example : (discoverFuzzy .plain exMillis {} exClusters 0 0).map FuzzyGraph.parts =
    some ([(0, "x"), (1, "a"), (2, "b")], [(0, [(1, 2), (2, 1)]), (1, [(0, 1), (2, 1)]), (2, [(0, 2)])]) := by decide +kernel

example : (tryMerge .plain 0 (proximity exMillis exClusters) { nodes := [(0, "x"), (1, "a"), (2, "b")] }
    { sets := [(0, [0]), (1, [1]), (2, [2])], home := [(0, 0), (1, 1), (2, 2)], next := 3 } 1 [1] [0, 2]).map
      (fun r => r.map (fun c => (c.sets, c.home))) =
    some (some ([(0, [0]), (3, [1, 2])], [(0, 0), (1, 3), (2, 3)])) := by decide +kernel

/-! ### What does not hold -/

/-- C147 (negation): the clusters depend on the order of iteration over the nodes. -/
theorem C147_order :
    (discoverFuzzy .plain exMillis exCut exClusters 0 0).map (fun g => g.nodes.map Prod.snd) =
      some ["x", "Cluster[a]", "Cluster[b]"] ∧
    (discoverFuzzy (onlyReversed "nodes") exMillis exCut exClusters 0 0).map (fun g => g.nodes.map Prod.snd) =
      some ["x", "Cluster[b,a]"] := by
  decide +kernel

/-- C147 (negation): an activity without any neighbour gets into a cluster with activities it has nothing to do with, as
another activity repeats. -/
theorem C147_unrelated :
    (discoverFuzzy .plain exMillis exCut [[("x", 0), ("x", 1), ("z", 2)], [("a", 0)]] 0 0).map FuzzyGraph.parts =
      some ([(3, "Cluster[x,z,a]")], [(3, [])]) := by
  decide +kernel

/-- C147 (negation): a rare activity at the end of traces stays outside of the clusters, although it is connected. -/
theorem C147_only_incoming :
    (discoverFuzzy .plain exMillis exCut [[("x", 0), ("b", 1)]] 0 0).map FuzzyGraph.parts =
      some ([(1, "b"), (2, "Cluster[x]")], [(2, [(1, 1)])]) := by
  decide +kernel

/-- C147 (negation): a cluster of one activity loses the edge of the activity to itself. -/
theorem C147_loop_lost :
    (discoverFuzzy .plain exMillis exCut [[("a", 0), ("a", 1), ("x", 2), ("x", 3), ("x", 4)]] 0 0).map FuzzyGraph.parts =
      some ([(1, "x"), (2, "Cluster[a]")], [(1, [(1, 2)]), (2, [(1, 1)])]) := by
  decide +kernel

end Ficus.Rs
