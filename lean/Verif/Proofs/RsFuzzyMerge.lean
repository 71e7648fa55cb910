import Verif.Proofs.RsFuzzyClusters

/-! Merging the nodes of a cluster. -/

namespace Ficus.Rs.Fz
open Ficus.Spec
variable {E : Type} [HasName E]

/-- The sum of the weights that are there. -/
def gather (l : List (Option ℚ)) : Option ℚ := if l.filterMap id = [] then none else some (l.filterMap id).sum

theorem gather_isSome (l : List (Option ℚ)) : (gather l).isSome ↔ ∃ o ∈ l, o.isSome := by
  unfold gather
  by_cases h : l.filterMap id = []
  · simp only [if_pos h, Option.isSome_none, Bool.false_eq_true, false_iff]
    rintro ⟨o, ho, hs⟩
    obtain ⟨d, rfl⟩ := Option.isSome_iff_exists.1 hs
    have : d ∈ l.filterMap id := List.mem_filterMap.2 ⟨some d, ho, rfl⟩
    rw [h] at this; cases this
  · simp only [if_neg h, Option.isSome_some, true_iff]
    obtain ⟨d, hd⟩ := List.exists_mem_of_ne_nil _ h
    obtain ⟨o, ho, he⟩ := List.mem_filterMap.1 hd
    exact ⟨o, ho, by simp only [id] at he; rw [he]; rfl⟩

theorem gather_getD (l : List (Option ℚ)) : (gather l).getD 0 = (l.map (fun o => o.getD 0)).sum := by
  have h1 : (l.filterMap id).sum = (l.map (fun o => o.getD 0)).sum := by
    induction l with
    | nil => rfl
    | cons o l ih => cases o <;> simp_all
  unfold gather
  by_cases h : l.filterMap id = []
  · rw [if_pos h, ← h1, h]; rfl
  · rw [if_neg h, ← h1]; rfl

theorem del_fold {V : Type} (l : List Nat) : ∀ (d : Dict Nat V),
    (∀ k, (l.foldl (fun (d : Dict Nat V) x => d.del x) d).get? k = if k ∈ l then none else d.get? k) ∧
    (d.WF → (l.foldl (fun (d : Dict Nat V) x => d.del x) d).WF) := by
  induction l with
  | nil => intro d; exact ⟨by simp, id⟩
  | cons a l ih =>
    intro d
    rw [List.foldl_cons]
    obtain ⟨h1, h2⟩ := ih (d.del a)
    refine ⟨?_, fun h => h2 (Dict.WF_del h a)⟩
    intro k
    rw [h1, Dict.get?_del]
    by_cases hl : k ∈ l
    · simp [hl]
    · by_cases ha : k = a
      · subst ha; simp
      · have ha' : ¬ a = k := fun e => ha e.symm
        simp [hl, ha, ha']

theorem get?_mapVals {V W : Type} (f : V → W) (d : Dict Nat V) (k : Nat) :
    Dict.get? (d.map (fun e => (e.1, f e.2)) : Dict Nat W) k = (d.get? k).map f := by
  induction d with
  | nil => rfl
  | cons e d ih =>
    obtain ⟨a, b⟩ := e
    rw [List.map_cons, Dict.get?_cons, Dict.get?_cons, ih]
    split <;> rfl

theorem mapVals_WF {V W : Type} (f : V → W) {d : Dict Nat V} (h : d.WF) : Dict.WF (d.map (fun e => (e.1, f e.2)) : Dict Nat W) := by
  unfold Dict.WF Dict.keys at *
  rw [List.map_map]
  exact h

/-! ### The edges to the cluster -/

theorem incoming_fold (id : Nat) (inc : List (Nat × ℚ)) : ∀ (d : Dict Nat (Dict Nat ℚ)),
    (inc.map Prod.fst).Nodup → (∀ e ∈ inc, e.1 ∈ d.keys) → d.WF → (∀ x c, d.get? x = some c → c.WF) →
    ∃ d', inc.foldl (fun (d : Dict Nat (Dict Nat ℚ)) e =>
        match d.get? e.1 with
        | some c => d.set e.1 (c.set id e.2)
        | none => d) d = d' ∧ d'.WF ∧ (∀ x c, d'.get? x = some c → c.WF) ∧
      ∀ u v, (d'.get? u).bind (fun c => c.get? v) =
        if v = id then (match Dict.get? (inc : Dict Nat ℚ) u with
          | some w => some w
          | none => (d.get? u).bind (fun c => c.get? v))
        else (d.get? u).bind (fun c => c.get? v) := by
  induction inc with
  | nil => intro d _ _ h1 h2; exact ⟨d, rfl, h1, h2, by intro u v; simp⟩
  | cons e inc ih =>
    obtain ⟨x, w⟩ := e
    intro d hn hk h1 h2
    rw [List.map_cons, List.nodup_cons] at hn
    obtain ⟨c, hc⟩ := (Dict.mem_keys_iff _ _).1 (hk (x, w) (by simp))
    simp only at hc
    rw [List.foldl_cons]
    simp only [hc]
    obtain ⟨d', e1, e2, e3, e4⟩ := ih (d.set x (c.set id w)) hn.2 (by
        intro e he
        rw [Dict.mem_keys_set]
        exact Or.inr (hk e (List.mem_cons_of_mem _ he))) (Dict.WF_set h1 _ _) (by
        intro y c' hc'
        rw [Dict.get?_set] at hc'
        split at hc'
        · cases hc'; exact Dict.WF_set (h2 x c hc) _ _
        · exact h2 y c' hc')
    refine ⟨d', e1, e2, e3, ?_⟩
    intro u v
    rw [e4, Dict.get?_set, Dict.get?_cons]
    by_cases hu : x = u
    · subst hu
      have hnone : Dict.get? (inc : Dict Nat ℚ) x = none := by
        rw [Dict.get?_eq_none_iff]; exact hn.1
      rw [hnone]
      by_cases hv : v = id
      · subst hv; simp
      · have hv' : ¬ id = v := fun e => hv e.symm
        simp [hv, hc, Dict.get?_set, hv']
    · have hu' : ¬ u = x := fun e => hu e.symm
      simp [hu]

theorem incomingMerged_spec (it : Iter) {g : FuzzyGraph} (h : FOk g) (cluster : List Nat) :
    ((incomingMerged it g cluster).map Prod.fst).Nodup ∧
    (∀ e ∈ incomingMerged it g cluster, e.1 ∈ g.conns.keys) ∧
    ∀ u, Dict.get? (incomingMerged it g cluster : Dict Nat ℚ) u =
      if u ∈ g.nodes.keys ∧ u ∉ cluster then gather (cluster.map (fun x => FuzzyEdge g u x)) else none := by
  have hval : ∀ u c, g.conns.get? u = some c →
      cluster.filterMap (fun x => c.get? x) = (cluster.map (fun x => FuzzyEdge g u x)).filterMap id := by
    intro u c hc
    rw [List.filterMap_map]
    apply List.filterMap_congr
    intro x _
    simp [FuzzyEdge, hc]
  have hform : ∃ f : Nat × String → Option (Nat × ℚ), incomingMerged it g cluster = (g.allNodes it).filterMap f ∧
      ∀ e, f e = (if e.1 ∉ cluster then gather (cluster.map (fun x => FuzzyEdge g e.1 x)) else none).map (fun w => (e.1, w)) := by
    refine ⟨_, rfl, ?_⟩
    intro e
    by_cases he : e.1 ∈ cluster
    · simp [he]
    · simp only [he, if_false, not_false_eq_true, if_true]
      cases hc : g.conns.get? e.1 with
      | none =>
        have : gather (cluster.map (fun x => FuzzyEdge g e.1 x)) = none := by
          rw [← Option.not_isSome_iff_eq_none, gather_isSome]
          rintro ⟨o, ho, hs⟩
          rw [List.mem_map] at ho
          obtain ⟨x, -, rfl⟩ := ho
          simp [FuzzyEdge, hc] at hs
        rw [this]; rfl
      | some c =>
        simp only
        rw [hval _ _ hc]
        unfold gather
        by_cases hnil : (cluster.map (fun x => FuzzyEdge g e.1 x)).filterMap id = []
        · rw [if_pos (by rw [hnil]; rfl), if_pos hnil]; rfl
        · rw [if_neg (fun e => hnil (List.length_eq_zero_iff.1 e)), if_neg hnil]; rfl
  obtain ⟨f, hf, hfe⟩ := hform
  have hnod : ((g.allNodes it).map Prod.fst).Nodup := by
    unfold FuzzyGraph.allNodes
    rw [((it.perm _ _ _).map Prod.fst).nodup_iff]
    exact h.nodes
  have hfst : ∀ e r, f e = some r → r.1 = e.1 := by
    intro e r hr
    rw [hfe, Option.map_eq_some_iff] at hr
    obtain ⟨w, -, rfl⟩ := hr; rfl
  have hnodup : ((incomingMerged it g cluster).map Prod.fst).Nodup := by
    rw [hf]
    generalize g.allNodes it = l at hnod
    induction l with
    | nil => simp
    | cons e l ih =>
      rw [List.map_cons, List.nodup_cons] at hnod
      rw [List.filterMap_cons]
      cases hr : f e with
      | none => exact ih hnod.2
      | some r =>
        simp only [List.map_cons, List.nodup_cons]
        refine ⟨?_, ih hnod.2⟩
        intro hm
        rw [List.mem_map] at hm
        obtain ⟨r', hr', he'⟩ := hm
        obtain ⟨e', he1, he2⟩ := List.mem_filterMap.1 hr'
        apply hnod.1
        rw [← hfst e r hr, ← he', hfst e' r' he2]
        exact List.mem_map.2 ⟨e', he1, rfl⟩
  have hmem : ∀ u w, (u, w) ∈ incomingMerged it g cluster ↔
      u ∈ g.nodes.keys ∧ u ∉ cluster ∧ gather (cluster.map (fun x => FuzzyEdge g u x)) = some w := by
    intro u w
    rw [hf, List.mem_filterMap]
    constructor
    · rintro ⟨e, he, hr⟩
      have hu := hfst e _ hr
      simp only at hu
      rw [hfe, Option.map_eq_some_iff] at hr
      obtain ⟨w', hw', hww⟩ := hr
      cases hww
      split at hw'
      · rename_i hc
        refine ⟨?_, hc, hw'⟩
        rw [FuzzyGraph.allNodes, (it.perm _ _ _).mem_iff] at he
        exact List.mem_map.2 ⟨e, he, rfl⟩
      · cases hw'
    · rintro ⟨hu, hc, hw⟩
      obtain ⟨e, he, rfl⟩ := List.mem_map.1 hu
      refine ⟨e, ?_, ?_⟩
      · rw [FuzzyGraph.allNodes, (it.perm _ _ _).mem_iff]; exact he
      · rw [hfe, if_pos hc, hw]; rfl
  refine ⟨hnodup, ?_, ?_⟩
  · rintro ⟨u, w⟩ he
    obtain ⟨-, -, hw⟩ := (hmem u w).1 he
    have : (gather (cluster.map (fun x => FuzzyEdge g u x))).isSome := by rw [hw]; rfl
    rw [gather_isSome] at this
    obtain ⟨o, ho, hs⟩ := this
    obtain ⟨x, -, rfl⟩ := List.mem_map.1 ho
    simp only
    rw [Dict.mem_keys_iff]
    unfold FuzzyEdge at hs
    cases hc : g.conns.get? u with
    | none => rw [hc] at hs; simp at hs
    | some c => exact ⟨c, rfl⟩
  · intro u
    by_cases hu : u ∈ g.nodes.keys ∧ u ∉ cluster
    · rw [if_pos hu]
      cases hw : gather (cluster.map (fun x => FuzzyEdge g u x)) with
      | none =>
        rw [Dict.get?_eq_none_iff]
        intro hm
        obtain ⟨⟨u', w⟩, he, hee⟩ := List.mem_map.1 hm
        simp only at hee; subst hee
        obtain ⟨-, -, hw'⟩ := (hmem u' w).1 he
        rw [hw] at hw'; cases hw'
      | some w =>
        exact Dict.get?_of_mem hnodup ((hmem u w).2 ⟨hu.1, hu.2, hw⟩)
    · rw [if_neg hu, Dict.get?_eq_none_iff]
      intro hm
      obtain ⟨⟨u', w⟩, he, hee⟩ := List.mem_map.1 hm
      simp only at hee; subst hee
      obtain ⟨h1, h2, -⟩ := (hmem u' w).1 he
      exact hu ⟨h1, h2⟩

/-! ### The edges from the cluster -/

theorem noteOutgoing_fold (cluster : List Nat) (l : List (Nat × ℚ)) : ∀ (d : Dict Nat (List ℚ)), (l.map Prod.fst).Nodup →
    (d.WF → (l.foldl (noteOutgoing cluster) d).WF) ∧
    ∀ v, (l.foldl (noteOutgoing cluster) d).get? v =
      match (if v ∈ cluster then none else Dict.get? (l : Dict Nat ℚ) v) with
      | some w => some ((d.get? v).getD [] ++ [w])
      | none => d.get? v := by
  induction l with
  | nil => intro d _; exact ⟨id, by intro v; simp⟩
  | cons e l ih =>
    obtain ⟨x, w⟩ := e
    intro d hn
    rw [List.map_cons, List.nodup_cons] at hn
    rw [List.foldl_cons]
    obtain ⟨h1, h2⟩ := ih (noteOutgoing cluster d (x, w)) hn.2
    have hstep : noteOutgoing cluster d (x, w) = if x ∈ cluster then d else d.set x ((d.get? x).getD [] ++ [w]) := by
      unfold noteOutgoing
      simp only
      split
      · rfl
      · cases d.get? x <;> rfl
    refine ⟨?_, ?_⟩
    · intro hd
      apply h1
      rw [hstep]
      split
      · exact hd
      · exact Dict.WF_set hd _ _
    · intro v
      rw [h2, hstep, Dict.get?_cons]
      by_cases hx : x = v
      · subst hx
        have hnone : Dict.get? (l : Dict Nat ℚ) x = none := by
          rw [Dict.get?_eq_none_iff]; exact hn.1
        rw [hnone]
        by_cases hc : x ∈ cluster
        · simp [hc]
        · simp [hc]
      · have hset : (if x ∈ cluster then d else d.set x ((d.get? x).getD [] ++ [w])).get? v = d.get? v := by
          split
          · rfl
          · exact Dict.get?_set_ne _ _ hx
        rw [hset]
        simp [hx]

theorem outgoingMerged_spec (it : Iter) {g : FuzzyGraph} (h : FOk g) (cluster : List Nat) :
    (outgoingMerged it g cluster).WF ∧
    ∀ v, (outgoingMerged it g cluster).get? v =
      if v ∈ cluster then none else gather (cluster.map (fun x => FuzzyEdge g x v)) := by
  have key : ∀ (l : List Nat) (f : Dict Nat (List ℚ) → Nat → Dict Nat (List ℚ)),
      (∀ d x, f d x = match g.conns.get? x with
        | some c => (it.order ("connections of " ++ Nat.repr x) 2 c).foldl (noteOutgoing cluster) d
        | none => d) →
      ∀ d : Dict Nat (List ℚ), d.WF →
      (l.foldl f d).WF ∧ ∀ v, ((l.foldl f d).get? v) =
        if v ∈ cluster ∨ (l.map (fun x => FuzzyEdge g x v)).filterMap id = [] then d.get? v
        else some ((d.get? v).getD [] ++ (l.map (fun x => FuzzyEdge g x v)).filterMap id) := by
    intro l f hf
    induction l with
    | nil => intro d hd; exact ⟨hd, by intro v; simp⟩
    | cons x l ih =>
      intro d hd
      rw [List.foldl_cons]
      have hx : (f d x).WF ∧ ∀ v, (f d x).get? v =
          match (if v ∈ cluster then none else FuzzyEdge g x v) with
          | some w => some ((d.get? v).getD [] ++ [w])
          | none => d.get? v := by
        rw [hf]
        cases hc : g.conns.get? x with
        | none => exact ⟨hd, by intro v; simp [FuzzyEdge, hc]⟩
        | some c =>
          have hp := it.perm ("connections of " ++ Nat.repr x) 2 c
          have hwf := h.inner x c hc
          obtain ⟨h1, h2⟩ := noteOutgoing_fold cluster (it.order ("connections of " ++ Nat.repr x) 2 c) d
            (by rw [(hp.map Prod.fst).nodup_iff]; exact hwf)
          refine ⟨h1 hd, ?_⟩
          intro v
          refine (h2 v).trans ?_
          have : Dict.get? (it.order ("connections of " ++ Nat.repr x) 2 c : Dict Nat ℚ) v = FuzzyEdge g x v := by
            rw [FuzzyEdge, hc, Option.bind_some]
            exact (Dict.get?_eq_of_perm hwf hp.symm v).symm
          rw [this]
      obtain ⟨h1, h2⟩ := ih (f d x) hx.1
      refine ⟨h1, ?_⟩
      intro v
      rw [h2, hx.2]
      by_cases hv : v ∈ cluster
      · simp [hv]
      · simp only [hv, if_false, false_or, List.map_cons]
        cases he : FuzzyEdge g x v with
        | none => simp
        | some w =>
          have hfm : (some w :: l.map (fun x => FuzzyEdge g x v)).filterMap id =
              w :: (l.map (fun x => FuzzyEdge g x v)).filterMap id := rfl
          simp only [hfm]
          by_cases hl : (l.map (fun x => FuzzyEdge g x v)).filterMap id = []
          · rw [if_pos hl, hl, if_neg (by simp)]
          · rw [if_neg hl, if_neg (by simp)]
            simp
  obtain ⟨h1, h2⟩ := key cluster (fun d x => match g.conns.get? x with
        | some c => (it.order ("connections of " ++ Nat.repr x) 2 c).foldl (noteOutgoing cluster) d
        | none => d) (fun _ _ => rfl) [] Dict.WF_nil
  refine ⟨mapVals_WF List.sum h1, ?_⟩
  intro v
  refine (get?_mapVals List.sum _ v).trans ?_
  refine (congrArg (Option.map List.sum) (h2 v)).trans ?_
  unfold gather
  by_cases hv : v ∈ cluster
  · simp [hv]
  · by_cases hn : (cluster.map (fun x => FuzzyEdge g x v)).filterMap id = []
    · rw [if_pos (Or.inr hn), if_neg hv, if_pos hn]; rfl
    · rw [if_neg (not_or.2 ⟨hv, hn⟩), if_neg hv, if_neg hn]
      simp

/-! ### One merge -/

theorem mergeInto_spec (it : Iter) (next : Nat) {g : FuzzyGraph} (h : FOk g) (hnext : ∀ x ∈ g.nodes.keys, x < next)
    (cluster : List Nat) (hset : ∀ x ∈ cluster, x ∈ g.nodes.keys) :
    ∃ (g' : FuzzyGraph) (ns : List Nat), mergeInto it next g cluster = some g' ∧ ns.Perm cluster ∧ FOk g' ∧
      (∀ x n, (x, n) ∈ g'.nodes ↔ ((x, n) ∈ g.nodes ∧ x ∉ cluster) ∨
        (x = next ∧ n = clusterName (ns.map (nameAt g.nodes)))) ∧
      (g'.nodes.map Prod.fst = (g.nodes.map Prod.fst).filter (fun x => decide (x ∉ cluster)) ++ [next]) ∧
      ∀ u v, FuzzyEdge g' u v =
        if u ∈ cluster ∨ v ∈ cluster then none
        else if u = next then (if v = next then none else gather (ns.map (fun x => FuzzyEdge g x v)))
        else if v = next then gather (ns.map (fun x => FuzzyEdge g u x))
        else FuzzyEdge g u v := by
  have hp := it.perm "cluster_nodes" next cluster
  unfold mergeInto
  generalize it.order "cluster_nodes" next cluster = ns at hp
  simp only
  rw [mapM_total (fun x => g.nodes.get? x) (nameAt g.nodes) ns (fun x hx => nameAt_mem (hset x (hp.mem_iff.1 hx)))]
  simp only [Option.bind_eq_bind, Option.bind_some]
  have hfresh : next ∉ g.nodes.keys := fun hm => by have := hnext _ hm; omega
  have hnotin : next ∉ cluster := fun hm => hfresh (hset _ hm)
  generalize hg1 : ({ nodes := g.nodes.set next (clusterName (ns.map (nameAt g.nodes))), conns := g.conns } : FuzzyGraph) = g1
  have hnodes1 : g1.nodes = g.nodes.set next (clusterName (ns.map (nameAt g.nodes))) := by rw [← hg1]
  have hconns1 : g1.conns = g.conns := by rw [← hg1]
  have hedge1 : ∀ u v, FuzzyEdge g1 u v = FuzzyEdge g u v := by intro u v; unfold FuzzyEdge; rw [hconns1]
  have hno : ∀ v, FuzzyEdge g next v = none ∧ FuzzyEdge g v next = none := by
    intro v
    constructor
    · cases he : FuzzyEdge g next v with
      | none => rfl
      | some d => exact absurd (h.ends _ _ d he).1 hfresh
    · cases he : FuzzyEdge g v next with
      | none => rfl
      | some d => exact absurd (h.ends _ _ d he).2 hfresh
  have hok1 : FOk g1 := by
    refine ⟨by rw [hnodes1]; exact Dict.WF_set h.nodes _ _, by rw [hconns1]; exact h.conns, by rw [hconns1]; exact h.inner, ?_⟩
    intro x y d hd
    rw [hedge1] at hd
    rw [hnodes1, Dict.mem_keys_set, Dict.mem_keys_set]
    exact ⟨Or.inr (h.ends x y d hd).1, Or.inr (h.ends x y d hd).2⟩
  obtain ⟨i1, i2, i3⟩ := incomingMerged_spec it hok1 ns
  obtain ⟨o1, o2⟩ := outgoingMerged_spec it hok1 ns
  obtain ⟨d1, e1, e2, e3, e4⟩ := incoming_fold next (incomingMerged it g1 ns) g1.conns i1 i2 hok1.conns hok1.inner
  have hset1 : (d1.set next (outgoingMerged it g1 ns)).WF := Dict.WF_set e2 _ _
  obtain ⟨f1, f2⟩ := del_fold ns (d1.set next (outgoingMerged it g1 ns))
  obtain ⟨n1, n2⟩ := del_fold ns g1.nodes
  -- the connections
  have hadj : adjustTransitions g1 ns next (incomingMerged it g1 ns) (outgoingMerged it g1 ns) =
      FuzzyGraph.mk (ns.foldl (fun (d : Dict Nat String) x => d.del x) g1.nodes)
        ((ns.foldl (fun (d : Dict Nat (Dict Nat ℚ)) x => d.del x) (d1.set next (outgoingMerged it g1 ns))).map
          (fun e => (e.1, ns.foldl (fun (d : Dict Nat ℚ) x => d.del x) e.2)) ) := by
    rw [← e1]
    rfl
  rw [hadj]
  have hget : ∀ u, Dict.get? ((ns.foldl (fun (d : Dict Nat (Dict Nat ℚ)) x => d.del x)
      (d1.set next (outgoingMerged it g1 ns))).map
        (fun e => (e.1, ns.foldl (fun (d : Dict Nat ℚ) x => d.del x) e.2)) : Dict Nat (Dict Nat ℚ)) u =
      (if u ∈ ns then none else if next = u then some (outgoingMerged it g1 ns) else d1.get? u).map
        (fun c => ns.foldl (fun (d : Dict Nat ℚ) x => d.del x) c) := by
    intro u
    refine (get?_mapVals (fun c : Dict Nat ℚ => ns.foldl (fun (d : Dict Nat ℚ) x => d.del x) c) _ u).trans ?_
    rw [f1, Dict.get?_set]
  have hedge : ∀ u v, FuzzyEdge (FuzzyGraph.mk (ns.foldl (fun (d : Dict Nat String) x => d.del x) g1.nodes)
        ((ns.foldl (fun (d : Dict Nat (Dict Nat ℚ)) x => d.del x) (d1.set next (outgoingMerged it g1 ns))).map
          (fun e => (e.1, ns.foldl (fun (d : Dict Nat ℚ) x => d.del x) e.2)) )) u v =
        if u ∈ cluster ∨ v ∈ cluster then none
        else if u = next then (if v = next then none else gather (ns.map (fun x => FuzzyEdge g x v)))
        else if v = next then gather (ns.map (fun x => FuzzyEdge g u x))
        else FuzzyEdge g u v := by
    intro u v
    conv_lhs => rw [FuzzyEdge]
    simp only
    rw [hget]
    by_cases hu : u ∈ ns
    · rw [if_pos hu, if_pos (Or.inl (hp.mem_iff.1 hu))]; rfl
    · rw [if_neg hu]
      have hu' : u ∉ cluster := fun hm => hu (hp.mem_iff.2 hm)
      by_cases hv : v ∈ ns
      · rw [if_pos (Or.inr (hp.mem_iff.1 hv))]
        split
        · simp only [Option.map_some, Option.bind_some]
          rw [(del_fold ns _).1, if_pos hv]
        · cases d1.get? u with
          | none => rfl
          | some c =>
            simp only [Option.map_some, Option.bind_some]
            rw [(del_fold ns _).1, if_pos hv]
      · have hv' : v ∉ cluster := fun hm => hv (hp.mem_iff.2 hm)
        rw [if_neg (not_or.2 ⟨hu', hv'⟩)]
        by_cases hun : u = next
        · subst hun
          rw [if_pos rfl, if_pos rfl]
          simp only [Option.map_some, Option.bind_some]
          rw [(del_fold ns _).1, if_neg hv, o2, if_neg hv]
          simp only [hedge1]
          by_cases hvn : v = u
          · subst hvn
            rw [if_pos rfl]
            rw [← Option.not_isSome_iff_eq_none, gather_isSome]
            rintro ⟨o, ho, hs⟩
            obtain ⟨x, -, rfl⟩ := List.mem_map.1 ho
            rw [(hno x).2] at hs; cases hs
          · rw [if_neg hvn]
        · have hun' : ¬ next = u := fun e => hun e.symm
          rw [if_neg hun', if_neg hun]
          have hbind : ((d1.get? u).map (fun c => ns.foldl (fun (d : Dict Nat ℚ) x => d.del x) c)).bind
              (fun c => c.get? v) = (d1.get? u).bind (fun c => c.get? v) := by
            cases d1.get? u with
            | none => rfl
            | some c =>
              simp only [Option.map_some, Option.bind_some]
              rw [(del_fold ns _).1, if_neg hv]
          rw [hbind, e4, i3]
          by_cases hvn : v = next
          · subst hvn
            rw [if_pos rfl, if_pos rfl]
            have hold : (g1.conns.get? u).bind (fun c => c.get? v) = none := by
              have := hedge1 u v
              rw [(hno u).2] at this
              exact this
            rw [hold]
            simp only [hedge1]
            by_cases hk : u ∈ g1.nodes.keys ∧ u ∉ ns
            · rw [if_pos hk]
              cases gather (ns.map (fun x => FuzzyEdge g u x)) <;> rfl
            · rw [if_neg hk]
              have : gather (ns.map (fun x => FuzzyEdge g u x)) = none := by
                rw [← Option.not_isSome_iff_eq_none, gather_isSome]
                rintro ⟨o, ho, hs⟩
                obtain ⟨x, -, rfl⟩ := List.mem_map.1 ho
                apply hk
                refine ⟨?_, hu⟩
                rw [hnodes1, Dict.mem_keys_set]
                exact Or.inr (edge_nodes h hs).1
              rw [this]
          · rw [if_neg hvn, if_neg hvn]
            exact hedge1 u v
  have hkeys : (ns.foldl (fun (d : Dict Nat String) x => d.del x) g1.nodes).map Prod.fst =
      (g.nodes.map Prod.fst).filter (fun x => decide (x ∉ cluster)) ++ [next] := by
    have hk : ∀ (l : List Nat) (d : Dict Nat String), (l.foldl (fun (d : Dict Nat String) x => d.del x) d).map Prod.fst =
        (d.map Prod.fst).filter (fun x => decide (x ∉ l)) := by
      intro l
      induction l with
      | nil => intro d; simp
      | cons a l ih =>
        intro d
        rw [List.foldl_cons, ih]
        have := Dict.keys_del d a
        unfold Dict.keys at this
        rw [this, List.filter_filter]
        apply List.filter_congr
        intro x _
        by_cases e : x = a <;> simp [e]
    rw [hk, hnodes1, set_append_of_notMem _ _ _ hfresh, List.map_append, List.filter_append]
    have hin : ∀ x, x ∈ ns ↔ x ∈ cluster := fun x => hp.mem_iff
    simp only [hin, List.map_cons, List.map_nil]
    congr 1
    simp [hnotin]
  have hmemn : ∀ x n, (x, n) ∈ ns.foldl (fun (d : Dict Nat String) x => d.del x) g1.nodes ↔
      ((x, n) ∈ g.nodes ∧ x ∉ cluster) ∨ (x = next ∧ n = clusterName (ns.map (nameAt g.nodes))) := by
    intro x n
    rw [← Dict.get?_eq_some_iff (n2 hok1.nodes), n1, hnodes1, Dict.get?_set]
    by_cases hx : x ∈ ns
    · rw [if_pos hx]
      have hx' := hp.mem_iff.1 hx
      constructor
      · intro e; cases e
      · rintro (⟨-, hn⟩ | ⟨rfl, -⟩)
        · exact absurd hx' hn
        · exact absurd hx' hnotin
    · have hx' : x ∉ cluster := fun hm => hx (hp.mem_iff.2 hm)
      rw [if_neg hx]
      by_cases hxn : next = x
      · subst hxn
        rw [if_pos rfl]
        constructor
        · intro e; cases e; exact Or.inr ⟨rfl, rfl⟩
        · rintro (⟨hm, -⟩ | ⟨-, rfl⟩)
          · exact absurd (mem_keys_of_mem hm) hfresh
          · rfl
      · rw [if_neg hxn, Dict.get?_eq_some_iff h.nodes]
        constructor
        · intro hm; exact Or.inl ⟨hm, hx'⟩
        · rintro (⟨hm, -⟩ | ⟨e, -⟩)
          · exact hm
          · exact absurd e.symm hxn
  refine ⟨_, ns, rfl, hp, ⟨n2 hok1.nodes, ?_, ?_, ?_⟩, hmemn, hkeys, hedge⟩
  · exact mapVals_WF (fun c : Dict Nat ℚ => ns.foldl (fun (d : Dict Nat ℚ) x => d.del x) c) (f2 hset1)
  · intro x c hc
    simp only at hc
    rw [hget, Option.map_eq_some_iff] at hc
    obtain ⟨c', hc', rfl⟩ := hc
    apply (del_fold ns c').2
    split at hc'
    · cases hc'
    · split at hc'
      · cases hc'; exact o1
      · exact e3 _ _ hc'
  · intro x y d hd
    have hall : ∀ z, z ∈ (ns.foldl (fun (d : Dict Nat String) x => d.del x) g1.nodes).keys ↔
        (z ∈ g.nodes.keys ∧ z ∉ cluster) ∨ z = next := by
      intro z
      unfold Dict.keys
      rw [hkeys]
      simp
    simp only
    rw [hall, hall]
    rw [hedge] at hd
    split at hd
    · cases hd
    · rename_i hns
      rw [not_or] at hns
      split at hd
      · rename_i hx
        split at hd
        · cases hd
        · have hs : (gather (ns.map (fun x => FuzzyEdge g x y))).isSome := by rw [hd]; rfl
          rw [gather_isSome] at hs
          obtain ⟨o, ho, hs⟩ := hs
          obtain ⟨z, -, rfl⟩ := List.mem_map.1 ho
          exact ⟨Or.inr hx, Or.inl ⟨(edge_nodes h hs).2, hns.2⟩⟩
      · split at hd
        · rename_i hy
          have hs : (gather (ns.map (fun z => FuzzyEdge g x z))).isSome := by rw [hd]; rfl
          rw [gather_isSome] at hs
          obtain ⟨o, ho, hs⟩ := hs
          obtain ⟨z, -, rfl⟩ := List.mem_map.1 ho
          exact ⟨Or.inl ⟨(edge_nodes h hs).1, hns.1⟩, Or.inr hy⟩
        · exact ⟨Or.inl ⟨(h.ends x y d hd).1, hns.1⟩, Or.inl ⟨(h.ends x y d hd).2, hns.2⟩⟩

/-! ### All merges -/

theorem sum_swap {A B : Type} (l : List A) (m : List B) (f : A → B → ℚ) :
    (l.map (fun a => (m.map (fun b => f a b)).sum)).sum = (m.map (fun b => (l.map (fun a => f a b)).sum)).sum := by
  induction l with
  | nil => simp
  | cons a l ih => simp only [List.map_cons, List.sum_cons, ih, List.sum_map_add]

/-- What holds while the nodes are merged. -/
structure MInv (S : List Nat → Prop) (p : FuzzyArgs) (log : List (List E)) (g₀ g : FuzzyGraph) (members : Nat → List Nat)
    (next : Nat) (rest : List (List Nat)) : Prop where
  ok : FOk g
  ok₀ : FOk g₀
  bound : ∀ x ∈ g.nodes.keys, x < next
  bound₀ : ∀ x ∈ g₀.nodes.keys, x < next
  partition : ((g.nodes.map Prod.fst).flatMap members).Perm (g₀.nodes.map Prod.fst)
  kept : ∀ x ∈ g₀.nodes.map Prod.fst, (x ∈ g.nodes.map Prod.fst ∧ ∀ s ∈ rest, x ∉ s) ↔ ¬ InCluster p log g₀ x
  node : ∀ x n, (x, n) ∈ g.nodes →
    ((x, n) ∈ g₀.nodes ∧ members x = [x]) ∨
      (x ∉ g₀.nodes.map Prod.fst ∧ members x ≠ [] ∧ ∃ names : List String,
        List.Forall₂ (fun y c => (y, c) ∈ g₀.nodes ∧ InCluster p log g₀ y) (members x) names ∧
        n = "Cluster[" ++ ",".intercalate names ++ "]")
  summed : Summed g₀ g members
  clusters : ∀ x ∈ g.nodes.map Prod.fst, x ∉ g₀.nodes.map Prod.fst → S (members x)
  disjoint : rest.Pairwise List.Disjoint
  sets : ∀ s ∈ rest, S s ∧ s.Nodup ∧ s ≠ [] ∧ ∀ x ∈ s, ∃ n, (x, n) ∈ g.nodes ∧ (x, n) ∈ g₀.nodes ∧ InCluster p log g₀ x

theorem mergeInto_inv {S : List Nat → Prop} (hS : ∀ s t, s.Perm t → S t → S s) (it : Iter) (p : FuzzyArgs) (log : List (List E)) (g₀ g : FuzzyGraph) (members : Nat → List Nat)
    (next : Nat) (s : List Nat) (rest : List (List Nat)) (h : MInv S p log g₀ g members next (s :: rest)) :
    ∃ g' members', mergeInto it next g s = some g' ∧ MInv S p log g₀ g' members' (next + 1) rest := by
  obtain ⟨hsS, hsn, hsne, hsm⟩ := h.sets s (by simp)
  have hsk : ∀ x ∈ s, x ∈ g.nodes.keys := by
    intro x hx
    obtain ⟨n, hn, -⟩ := hsm x hx
    exact mem_keys_of_mem hn
  obtain ⟨g', ns, e1, hp, hok', hnodes, hkeys, hedge⟩ := mergeInto_spec it next h.ok h.bound s hsk
  have hfresh : next ∉ g.nodes.keys := fun hm => by have := h.bound _ hm; omega
  have hfresh₀ : next ∉ g₀.nodes.keys := fun hm => by have := h.bound₀ _ hm; omega
  have hmem1 : ∀ x ∈ s, members x = [x] := by
    intro x hx
    obtain ⟨n, hn, hn₀, -⟩ := hsm x hx
    rcases h.node x n hn with ⟨-, hm⟩ | ⟨hno, -⟩
    · exact hm
    · exact absurd (mem_keys_of_mem hn₀) hno
  have hmk : ∀ x, x ∈ g'.nodes.map Prod.fst ↔ (x ∈ g.nodes.map Prod.fst ∧ x ∉ s) ∨ x = next := by
    intro x; rw [hkeys]; simp
  set members' : Nat → List Nat := fun x => if x = next then ns else members x with hmem'
  have m1 : members' next = ns := by simp [hmem']
  have m2 : ∀ x, x ≠ next → members' x = members x := by intro x hx; simp [hmem', hx]
  have hne : ∀ x, x ∈ g.nodes.map Prod.fst → x ≠ next := by
    rintro x hx rfl; exact hfresh hx
  have hG : ((g'.nodes.map Prod.fst).flatMap members').Perm (g₀.nodes.map Prod.fst) ∧
      (∀ x ∈ g₀.nodes.map Prod.fst, (x ∈ g'.nodes.map Prod.fst ∧ ∀ t ∈ rest, x ∉ t) ↔ ¬ InCluster p log g₀ x) ∧
      (∀ x n, (x, n) ∈ g'.nodes →
        ((x, n) ∈ g₀.nodes ∧ members' x = [x]) ∨
          (x ∉ g₀.nodes.map Prod.fst ∧ members' x ≠ [] ∧ ∃ names : List String,
            List.Forall₂ (fun y c => (y, c) ∈ g₀.nodes ∧ InCluster p log g₀ y) (members' x) names ∧
            n = "Cluster[" ++ ",".intercalate names ++ "]")) := by
    refine ⟨?_, ?_, ?_⟩
    · rw [hkeys, List.flatMap_append]
      have h1 : ((g.nodes.map Prod.fst).filter (fun x => decide (x ∉ s))).flatMap members' =
          ((g.nodes.map Prod.fst).filter (fun x => decide (x ∉ s))).flatMap members := by
        apply List.flatMap_congr
        intro x hx
        exact m2 x (hne x (List.mem_filter.1 hx).1)
      have h2 : [next].flatMap members' = ns := by simp [m1]
      rw [h1, h2]
      have h3 : ((g.nodes.map Prod.fst).filter (fun x => decide (x ∈ s))).Perm ns := by
        have hn1 : (g.nodes.map Prod.fst).Nodup := h.ok.nodes
        rw [List.perm_ext_iff_of_nodup (hn1.filter _) (hp.nodup_iff.2 hsn)]
        intro x
        rw [List.mem_filter, hp.mem_iff]
        constructor
        · rintro ⟨-, hx⟩; simpa using hx
        · intro hx; exact ⟨hsk x hx, by simpa using hx⟩
      have h4 : ((g.nodes.map Prod.fst).filter (fun x => decide (x ∈ s))).flatMap members =
          (g.nodes.map Prod.fst).filter (fun x => decide (x ∈ s)) := by
        have : ∀ l : List Nat, (∀ x ∈ l, members x = [x]) → l.flatMap members = l := by
          intro l hl
          induction l with
          | nil => rfl
          | cons a l ih =>
            rw [List.flatMap_cons, hl a (by simp), ih (fun x hx => hl x (List.mem_cons_of_mem _ hx))]; rfl
        apply this
        intro x hx
        have := (List.mem_filter.1 hx).2
        exact hmem1 x (by simpa using this)
      have h5 : (((g.nodes.map Prod.fst).filter (fun x => decide (x ∉ s))) ++
          ((g.nodes.map Prod.fst).filter (fun x => decide (x ∈ s)))).Perm (g.nodes.map Prod.fst) := by
        have := List.filter_append_perm (fun x => decide (x ∉ s)) (g.nodes.map Prod.fst)
        simpa using this
      refine List.Perm.trans ?_ h.partition
      refine List.Perm.trans ?_ (List.Perm.flatMap_right members h5)
      rw [List.flatMap_append, h4]
      exact List.Perm.append_left _ h3.symm
    · intro x hx
      rw [← h.kept x hx, hmk]
      have hxn : x ≠ next := by rintro rfl; exact hfresh₀ hx
      simp only [List.mem_cons, forall_eq_or_imp]
      tauto
    · intro x n hx
      rw [hnodes] at hx
      rcases hx with ⟨hx, hxs⟩ | ⟨rfl, rfl⟩
      · have hxn := hne x (mem_keys_of_mem hx)
        rw [m2 x hxn]
        exact h.node x n hx
      · refine Or.inr ⟨hfresh₀, ?_, ns.map (nameAt g.nodes), ?_, rfl⟩
        · rw [m1]; intro e; rw [e] at hp; exact hsne hp.symm.eq_nil
        · rw [m1]
          rw [List.forall₂_map_right_iff, List.forall₂_same]
          intro y hy
          obtain ⟨n, hn, hn₀, hc⟩ := hsm y (hp.mem_iff.1 hy)
          rw [nameAt_eq h.ok.nodes hn]
          exact ⟨hn₀, hc⟩
  have hSum : Summed g₀ g' members' := by
    refine ⟨?_, ?_, ?_, ?_⟩
    · intro x hx y hy hxy
      rw [hmk] at hx hy
      rw [hedge]
      rcases hx with ⟨hx, hxs⟩ | rfl
      · rcases hy with ⟨hy, hys⟩ | rfl
        · rw [if_neg (not_or.2 ⟨hxs, hys⟩), if_neg (hne x hx), if_neg (hne y hy), m2 x (hne x hx), m2 y (hne y hy)]
          exact h.summed.exist x hx y hy hxy
        · have hys : y ∉ s := fun hm => hfresh (hsk _ hm)
          rw [if_neg (not_or.2 ⟨hxs, hys⟩), if_neg (hne x hx), if_pos rfl, m2 x (hne x hx), m1, gather_isSome]
          constructor
          · rintro ⟨o, ho, hs⟩
            obtain ⟨b, hb, rfl⟩ := List.mem_map.1 ho
            have hbs := hp.mem_iff.1 hb
            obtain ⟨a, ha, b', hb', hab⟩ := (h.summed.exist x hx b (hsk b hbs) (by rintro rfl; exact hxs hbs)).1 hs
            rw [hmem1 b hbs, List.mem_singleton] at hb'
            subst hb'
            exact ⟨a, ha, b', hb, hab⟩
          · rintro ⟨a, ha, b, hb, hab⟩
            have hbs := hp.mem_iff.1 hb
            refine ⟨_, List.mem_map.2 ⟨b, hb, rfl⟩, ?_⟩
            rw [h.summed.exist x hx b (hsk b hbs) (by rintro rfl; exact hxs hbs)]
            exact ⟨a, ha, b, by rw [hmem1 b hbs]; simp, hab⟩
      · have hxs : x ∉ s := fun hm => hfresh (hsk _ hm)
        rcases hy with ⟨hy, hys⟩ | rfl
        · rw [if_neg (not_or.2 ⟨hxs, hys⟩), if_pos rfl, if_neg (hne y hy), m2 y (hne y hy), m1, gather_isSome]
          constructor
          · rintro ⟨o, ho, hs⟩
            obtain ⟨a, ha, rfl⟩ := List.mem_map.1 ho
            have has := hp.mem_iff.1 ha
            obtain ⟨a', ha', b, hb, hab⟩ := (h.summed.exist a (hsk a has) y hy (by rintro rfl; exact hys has)).1 hs
            rw [hmem1 a has, List.mem_singleton] at ha'
            subst ha'
            exact ⟨a', ha, b, hb, hab⟩
          · rintro ⟨a, ha, b, hb, hab⟩
            have has := hp.mem_iff.1 ha
            refine ⟨_, List.mem_map.2 ⟨a, ha, rfl⟩, ?_⟩
            rw [h.summed.exist a (hsk a has) y hy (by rintro rfl; exact hys has)]
            exact ⟨a, by rw [hmem1 a has]; simp, b, hb, hab⟩
        · exact absurd rfl hxy
    · intro x hx y hy hxy
      rw [hmk] at hx hy
      rw [hedge]
      rcases hx with ⟨hx, hxs⟩ | rfl
      · rcases hy with ⟨hy, hys⟩ | rfl
        · rw [if_neg (not_or.2 ⟨hxs, hys⟩), if_neg (hne x hx), if_neg (hne y hy), m2 x (hne x hx), m2 y (hne y hy)]
          exact h.summed.weight x hx y hy hxy
        · have hys : y ∉ s := fun hm => hfresh (hsk _ hm)
          rw [if_neg (not_or.2 ⟨hxs, hys⟩), if_neg (hne x hx), if_pos rfl, m2 x (hne x hx), m1, gather_getD, List.map_map]
          rw [sum_swap]
          congr 1
          apply List.map_congr_left
          intro b hb
          have hbs := hp.mem_iff.1 hb
          show (FuzzyEdge g x b).getD 0 = _
          rw [h.summed.weight x hx b (hsk b hbs) (by rintro rfl; exact hxs hbs), hmem1 b hbs]
          simp
      · have hxs : x ∉ s := fun hm => hfresh (hsk _ hm)
        rcases hy with ⟨hy, hys⟩ | rfl
        · rw [if_neg (not_or.2 ⟨hxs, hys⟩), if_pos rfl, if_neg (hne y hy), m2 y (hne y hy), m1, gather_getD, List.map_map]
          congr 1
          apply List.map_congr_left
          intro a ha
          have has := hp.mem_iff.1 ha
          show (FuzzyEdge g a y).getD 0 = _
          rw [h.summed.weight a (hsk a has) y hy (by rintro rfl; exact hys has), hmem1 a has]
          simp
        · exact absurd rfl hxy
    · intro x y he
      obtain ⟨d, hd⟩ := Option.isSome_iff_exists.1 he
      exact hok'.ends x y d hd
    · intro x hx
      rw [hmk] at hx
      rw [hedge]
      rcases hx with ⟨hx, hxs⟩ | rfl
      · rw [if_neg (not_or.2 ⟨hxs, hxs⟩), if_neg (hne x hx), if_neg (hne x hx)]
        exact h.summed.loops x hx
      · have hxs : x ∉ s := fun hm => hfresh (hsk _ hm)
        rw [if_neg (not_or.2 ⟨hxs, hxs⟩), if_pos rfl, if_pos rfl]
        exact (if_neg (show x ∉ g₀.nodes.map Prod.fst from hfresh₀)).symm
  refine ⟨g', members', e1, hok', h.ok₀, ?_, ?_, hG.1, hG.2.1, hG.2.2, hSum, ?_, (List.pairwise_cons.1 h.disjoint).2, ?_⟩
  · intro x hx
    rcases (hmk x).1 hx with ⟨hx, -⟩ | rfl
    · have := h.bound x hx; omega
    · omega
  · intro x hx; have := h.bound₀ x hx; omega
  · intro x hx hx₀
    rcases (hmk x).1 hx with ⟨hx, -⟩ | rfl
    · rw [m2 x (hne x hx)]; exact h.clusters x hx hx₀
    · rw [m1]; exact hS _ _ hp hsS
  · intro t ht
    obtain ⟨t0, t1, t2, t3⟩ := h.sets t (List.mem_cons_of_mem _ ht)
    refine ⟨t0, t1, t2, ?_⟩
    intro x hx
    obtain ⟨n, hn, hn₀, hc⟩ := t3 x hx
    refine ⟨n, (hnodes x n).2 (Or.inl ⟨hn, ?_⟩), hn₀, hc⟩
    intro hxs
    exact (List.pairwise_cons.1 h.disjoint).1 t ht hxs hx

theorem mergeNodes_inv {S : List Nat → Prop} (hS : ∀ s t, s.Perm t → S t → S s) (it : Iter) (p : FuzzyArgs) (log : List (List E)) (g₀ : FuzzyGraph) (rest : List (List Nat)) :
    ∀ (g : FuzzyGraph) (members : Nat → List Nat) (next : Nat), MInv S p log g₀ g members next rest →
    ∃ g' members' next', mergeNodes it rest next g = some g' ∧ MInv S p log g₀ g' members' next' [] := by
  induction rest with
  | nil => intro g members next h; exact ⟨g, members, next, rfl, h⟩
  | cons s rest ih =>
    intro g members next h
    obtain ⟨g1, m1, e1, h1⟩ := mergeInto_inv hS it p log g₀ g members next s rest h
    obtain ⟨g2, m2, n2, e2, h2⟩ := ih g1 m1 (next + 1) h1
    refine ⟨g2, m2, n2, ?_, h2⟩
    simp only [mergeNodes, e1, Option.bind_eq_bind, Option.bind_some]
    exact e2

theorem start_inv (S : List Nat → Prop) (p : FuzzyArgs) (log : List (List E)) (g : FuzzyGraph) (hok : FOk g) (next : Nat)
    (hb : ∀ x ∈ g.nodes.keys, x < next) (rest : List (List Nat)) (hd : rest.Pairwise List.Disjoint)
    (hs : ∀ s ∈ rest, S s ∧ s.Nodup ∧ s ≠ [] ∧ ∀ x ∈ s, InCluster p log g x)
    (hc : ∀ x, InCluster p log g x → ∃ s ∈ rest, x ∈ s) :
    MInv S p log g g (fun x => [x]) next rest := by
  refine ⟨hok, hok, hb, hb, ?_, ?_, ?_, ⟨?_, ?_, ?_, ?_⟩, ?_, hd, ?_⟩
  · rw [List.flatMap_singleton']
  · intro x hx
    constructor
    · rintro ⟨-, hno⟩ hin
      obtain ⟨s, hsm, hxs⟩ := hc x hin
      exact hno s hsm hxs
    · intro hno
      exact ⟨hx, fun s hsm hxs => hno ((hs s hsm).2.2.2 x hxs)⟩
  · intro x n hx; exact Or.inl ⟨hx, rfl⟩
  · intro x _ y _ _; simp
  · intro x _ y _ _; simp
  · intro x y he
    obtain ⟨d, hd⟩ := Option.isSome_iff_exists.1 he
    exact hok.ends x y d hd
  · intro x hx; rw [if_pos hx]
  · intro x hx hx₀; exact absurd hx hx₀
  · intro s hsm
    obtain ⟨h0, h1, h2, h3⟩ := hs s hsm
    refine ⟨h0, h1, h2, ?_⟩
    intro x hx
    obtain ⟨n, hn, hlt⟩ := h3 x hx
    exact ⟨n, hn, hn, n, hn, hlt⟩

end Ficus.Rs.Fz
