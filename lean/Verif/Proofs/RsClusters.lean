import Verif.Spec.RsClusters
import Verif.Proofs.Dict
import Verif.Proofs.RsTables
import Mathlib.Data.List.Perm.Basic
import Mathlib.Data.List.Chain
import Mathlib.Data.List.Forall2
import Mathlib.Data.Finset.Card
import Mathlib.Data.Finset.Dedup

/-! Helpers for the clusters of the backend. -/

namespace Ficus.Rs.Cl

/-! ### Logs of clusters -/

theorem addToLog_fold {T : Type} : ∀ (l done : List (T × Nat)) (d : Dict Nat (List T)), d.WF →
    (∀ k, k ∈ d.keys ↔ ∃ p ∈ done, p.2 = k) →
    (∀ k v, d.get? k = some v → v = (done.filter (fun p => decide (p.2 = k))).map Prod.fst) →
    (l.foldl addToLog d).WF ∧ (∀ k, k ∈ (l.foldl addToLog d).keys ↔ ∃ p ∈ done ++ l, p.2 = k) ∧
    ∀ k v, (l.foldl addToLog d).get? k = some v → v = ((done ++ l).filter (fun p => decide (p.2 = k))).map Prod.fst
  | [], done, d, h1, h2, h3 => by
    rw [List.append_nil, List.foldl_nil]
    exact ⟨h1, h2, h3⟩
  | p :: l, done, d, h1, h2, h3 => by
    have hadd : (addToLog d p).WF ∧ (∀ k, k ∈ (addToLog d p).keys ↔ ∃ q ∈ done ++ [p], q.2 = k) ∧
        ∀ k v, (addToLog d p).get? k = some v → v = ((done ++ [p]).filter (fun p => decide (p.2 = k))).map Prod.fst := by
      have hk : ∀ v, (∀ k, k ∈ (d.set p.2 v).keys ↔ ∃ q ∈ done ++ [p], q.2 = k) := by
        intro v k
        rw [Dict.mem_keys_set, h2 k]
        simp only [List.mem_append, List.mem_singleton, or_and_right, exists_or, exists_eq_left]
        constructor
        · rintro (rfl | k)
          · exact .inr rfl
          · exact .inl k
        · rintro (k | rfl)
          · exact .inr k
          · exact .inl rfl
      unfold addToLog
      split
      · rename_i log hlog
        refine ⟨Dict.WF_set h1 _ _, hk _, fun k v hv => ?_⟩
        rw [Dict.get?_set] at hv
        split at hv
        · rename_i e
          subst e
          cases hv
          rw [h3 _ _ hlog]
          simp
        · rename_i e
          rw [h3 _ _ hv]
          simp [e]
      · rename_i hnone
        refine ⟨Dict.WF_set h1 _ _, hk _, fun k v hv => ?_⟩
        rw [Dict.get?_set] at hv
        split at hv
        · rename_i e
          subst e
          cases hv
          have : ∀ q ∈ done, q.2 ≠ p.2 := by
            intro q hq e
            exact (Dict.get?_eq_none_iff d p.2).1 hnone ((h2 p.2).2 ⟨q, hq, e⟩)
          have : done.filter (fun q => decide (q.2 = p.2)) = [] := by
            rw [List.filter_eq_nil_iff]
            intro q hq
            simpa using this q hq
          simp [this]
        · rename_i e
          rw [h3 _ _ hv]
          simp [e]
    obtain ⟨a1, a2, a3⟩ := hadd
    have := addToLog_fold l (done ++ [p]) (addToLog d p) a1 a2 a3
    simpa [List.append_assoc] using this

theorem clusterLogs_spec {T : Type} (it : Iter) (traces : List T) (labels : List Nat) (h : traces.length = labels.length) :
    ∃ ks : List Nat, ks.Perm labels.dedup ∧ clusterLogs it traces labels = ks.map (tracesWith traces labels) := by
  obtain ⟨h1, h2, h3⟩ := addToLog_fold (traces.zip labels) [] [] Dict.WF_nil (by simp [Dict.keys]) (by simp [Dict.get?])
  simp only [List.nil_append] at h2 h3
  generalize hd : (traces.zip labels).foldl addToLog [] = d at h1 h2 h3
  have hp := it.perm "new_logs" 0 d
  refine ⟨(it.order "new_logs" 0 d).map Prod.fst, ?_, ?_⟩
  · refine (hp.map _).trans ((List.perm_ext_iff_of_nodup h1 (List.nodup_dedup _)).2 (fun k => ?_))
    refine (h2 k).trans ?_
    rw [List.mem_dedup]
    have e : labels = (traces.zip labels).map Prod.snd := (List.map_snd_zip (by omega)).symm
    conv_rhs => rw [e]
    rw [List.mem_map]
  · rw [clusterLogs, hd, List.map_map]
    refine List.map_congr_left (fun p hp' => ?_)
    have hm : p ∈ d := hp.mem_iff.1 hp'
    exact h3 p.1 p.2 (Dict.get?_of_mem h1 hm)

/-! ### Merging -/

/-- What is known of the groups of the activities seen. -/
structure GInv (done : List (RNode × Option Nat)) (g : Grouped) : Prop where
  wf : g.clusters.WF
  names : ∀ n k, g.names.get? n = some k → ∃ p ∈ done, p.1.name = n ∧ p.2 = some k
  named : ∀ p ∈ done, ∀ k, p.2 = some k → ∃ k', g.names.get? p.1.name = some k'
  clusters : ∀ k, g.clusters.get? k = if ∃ p ∈ done, p.2 = some k then
    some ((done.filter (fun p => decide (p.2 = some k))).map Prod.fst) else none

theorem filter_none {done : List (RNode × Option Nat)} {k : Nat} (h : ¬∃ p ∈ done, p.2 = some k) :
    done.filter (fun p => decide (p.2 = some k)) = [] := by
  rw [List.filter_eq_nil_iff]
  intro p hp
  simp only [decide_eq_true_eq]
  exact fun e => h ⟨p, hp, e⟩

theorem groupActivity_inv {done : List (RNode × Option Nat)} {g : Grouped} (h : GInv done g) (p : RNode × Option Nat) :
    GInv (done ++ [p]) (groupActivity g p) := by
  obtain ⟨node, label⟩ := p
  cases label with
  | none =>
    refine ⟨h.wf, fun n k hk => ?_, fun p hp k hk => ?_, fun k => ?_⟩
    · obtain ⟨q, hq, e⟩ := h.names n k hk
      exact ⟨q, by simp [hq], e⟩
    · rcases List.mem_append.1 hp with hp | hp
      · exact h.named p hp k hk
      · rw [List.mem_singleton] at hp
        subst hp
        cases hk
    · show g.clusters.get? k = _
      rw [h.clusters k]
      have he : (∃ p ∈ done ++ [(node, none)], p.2 = some k) ↔ ∃ p ∈ done, p.2 = some k := by
        constructor
        · rintro ⟨p, hp, e⟩
          rcases List.mem_append.1 hp with hp | hp
          · exact ⟨p, hp, e⟩
          · rw [List.mem_singleton] at hp
            subst hp
            cases e
        · rintro ⟨p, hp, e⟩
          exact ⟨p, List.mem_append_left _ hp, e⟩
      simp only [he]
      simp
  | some k₀ =>
    have hcl : (groupActivity g (node, some k₀)).clusters =
        g.clusters.set k₀ ((done.filter (fun p => decide (p.2 = some k₀))).map Prod.fst ++ [node]) := by
      show (match g.clusters.get? k₀ with
        | some members => g.clusters.set k₀ (members ++ [node])
        | none => g.clusters.set k₀ [node]) = _
      rw [h.clusters k₀]
      by_cases hex : ∃ p ∈ done, p.2 = some k₀
      · rw [if_pos hex]
      · rw [if_neg hex, filter_none hex]; rfl
    refine ⟨by rw [hcl]; exact Dict.WF_set h.wf _ _, fun n k hk => ?_, fun p hp k hk => ?_, fun k => ?_⟩
    · change (g.names.set node.name k₀).get? n = some k at hk
      rw [Dict.get?_set] at hk
      split at hk
      · rename_i e
        cases hk
        exact ⟨(node, some k₀), by simp, e, rfl⟩
      · obtain ⟨q, hq, e⟩ := h.names n k hk
        exact ⟨q, by simp [hq], e⟩
    · change ∃ k', (g.names.set node.name k₀).get? p.1.name = some k'
      rw [Dict.get?_set]
      split
      · exact ⟨_, rfl⟩
      · rename_i e
        rcases List.mem_append.1 hp with hp | hp
        · exact h.named p hp k hk
        · rw [List.mem_singleton] at hp
          subst hp
          exact absurd rfl e
    · rw [hcl, Dict.get?_set]
      by_cases e : k₀ = k
      · subst e
        rw [if_pos rfl, if_pos ⟨(node, some k₀), by simp, rfl⟩]
        simp
      · rw [if_neg e, h.clusters k]
        have he : (∃ p ∈ done ++ [(node, some k₀)], p.2 = some k) ↔ ∃ p ∈ done, p.2 = some k := by
          constructor
          · rintro ⟨p, hp, e'⟩
            rcases List.mem_append.1 hp with hp | hp
            · exact ⟨p, hp, e'⟩
            · rw [List.mem_singleton] at hp
              subst hp
              exact absurd (Option.some.inj e') e
          · rintro ⟨p, hp, e'⟩
            exact ⟨p, List.mem_append_left _ hp, e'⟩
        simp only [he]
        simp [e]

theorem group_inv (l : List (RNode × Option Nat)) : ∀ {done : List (RNode × Option Nat)} {g : Grouped}, GInv done g →
    GInv (done ++ l) (l.foldl groupActivity g) := by
  induction l with
  | nil => intro done g h; simpa using h
  | cons p l ih =>
    intro done g h
    have := ih (groupActivity_inv h p)
    simpa [List.append_assoc] using this

/-- The nodes of clusters, from the clusters seen. -/
theorem addClusterNode_fold (traces : List Nat) : ∀ (l : List (Nat × List RNode)) (d : Dict Nat RNode),
    (l.map Prod.fst).Nodup → (∀ c ∈ l, c.2 ≠ [] ∧ ∀ m ∈ c.2, checkRepeat traces m = some ()) →
    ∃ d', l.foldlM (addClusterNode traces) d = some d' ∧ ∀ k, d'.get? k =
      match l.find? (fun c => decide (c.1 = k)) with
      | some c => if c.2.length < 2 then d.get? k else clusterNodeOf traces k c.2
      | none => d.get? k
  | [], d, _, _ => ⟨d, rfl, fun k => rfl⟩
  | c :: l, d, hn, hok => by
    rw [List.map_cons, List.nodup_cons] at hn
    have hmap : ∀ ms : List RNode, (∀ m ∈ ms, checkRepeat traces m = some ()) → ∃ us, ms.mapM (checkRepeat traces) = some us := by
      intro ms
      induction ms with
      | nil => intro _; exact ⟨[], rfl⟩
      | cons m ms ih =>
        intro k
        obtain ⟨us, e⟩ := ih (fun x hx => k x (by simp [hx]))
        exact ⟨() :: us, by rw [List.mapM_cons, k m (by simp), e]; rfl⟩
    have hnode : ∃ node, clusterNodeOf traces c.1 c.2 = some node := by
      obtain ⟨hne, hm⟩ := hok c (by simp)
      obtain ⟨us, e⟩ := hmap c.2 hm
      unfold clusterNodeOf
      rw [e]
      rcases hc : c.2 with _ | ⟨first, rest⟩
      · exact absurd hc hne
      · exact ⟨_, rfl⟩
    have hno : ∀ k, k = c.1 → l.find? (fun c => decide (c.1 = k)) = none := by
      intro k e
      rw [List.find?_eq_none]
      intro x hx
      simp only [decide_eq_true_eq]
      rintro e'
      exact hn.1 (List.mem_map.2 ⟨x, hx, by rw [e', e]⟩)
    rw [List.foldlM_cons]
    by_cases hlt : c.2.length < 2
    · have hstep : addClusterNode traces d c = some d := by rw [addClusterNode, if_pos hlt]
      obtain ⟨d', e, h⟩ := addClusterNode_fold traces l d hn.2 (fun x hx => hok x (by simp [hx]))
      refine ⟨d', by rw [hstep]; exact e, fun k => ?_⟩
      rw [h k, List.find?_cons]
      by_cases hk : c.1 = k
      · simp only [hk, decide_true, if_pos hlt]
        rw [hno k hk.symm]
      · simp [hk]
    · obtain ⟨node, hnode⟩ := hnode
      have hstep : addClusterNode traces d c = some (d.set c.1 node) := by rw [addClusterNode, if_neg hlt, hnode]; rfl
      obtain ⟨d', e, h⟩ := addClusterNode_fold traces l (d.set c.1 node) hn.2 (fun x hx => hok x (by simp [hx]))
      refine ⟨d', by rw [hstep]; exact e, fun k => ?_⟩
      rw [h k, List.find?_cons]
      by_cases hk : c.1 = k
      · simp only [hk, decide_true, if_neg hlt]
        rw [hno k hk.symm, ← hk, hnode]
        simp
      · simp only [hk, decide_false]
        have : (d.set c.1 node).get? k = d.get? k := by rw [Dict.get?_set, if_neg hk]
        rw [this]

theorem find?_perm_dict {d e : Dict Nat (List RNode)} (hd : d.WF) (hp : e.Perm d) (k : Nat) :
    (e.find? (fun c => decide (c.1 = k))) = (d.get? k).map (fun v => (k, v)) := by
  have he : Dict.WF e := by
    have := (hp.map Prod.fst).nodup_iff
    exact this.2 hd
  rw [← Dict.get?_eq_of_perm he hp k]
  clear hp hd d
  induction e with
  | nil => rfl
  | cons c e ih =>
    obtain ⟨a, b⟩ := c
    rw [List.find?_cons, Dict.get?_cons]
    have hw : Dict.WF e := by
      rw [Dict.WF, Dict.keys, List.map_cons, List.nodup_cons] at he
      exact he.2
    by_cases h : a = k
    · simp [h]
    · simp [h, ih hw]

theorem joinFrom_spec : ∀ (rest : List Held) (last : Held) (run : List Held), IsUnion run last →
    ∃ (runs : List (List Held)) (out : List Held), run ++ rest = runs.flatten ∧ joinFrom last rest = out ∧
      List.Forall₂ IsUnion runs out ∧ out.IsChain (fun a b => ¬Continues a b) ∧
      ∃ head tail, out = head :: tail ∧ head.node = last.node ∧ head.startPos = last.startPos
  | [], last, run, h => ⟨[run], [last], by simp, rfl, .cons h .nil, .singleton _, last, [], rfl, rfl, rfl⟩
  | a :: rest, last, run, h => by
    by_cases hc : last.node.name = a.node.name ∧ last.startPos + last.length = a.startPos
    · have hu : IsUnion (run ++ [a]) { last with length := last.length + a.length } := by
        obtain ⟨first, more, rfl, hch, rfl⟩ := h
        refine ⟨first, more ++ [a], rfl, ?_, by simp; omega⟩
        have hend : ∀ (l : List Held) (f : Held), (f :: l).IsChain Continues →
            ∀ b ∈ (f :: l).getLast?, b.node.name = f.node.name ∧
              f.startPos + ((f :: l).map (fun a => a.length)).sum = b.startPos + b.length := by
          intro l
          induction l with
          | nil => intro f _ b hb; simp at hb; subst hb; simp
          | cons g l ih =>
            intro f hl b hb
            rw [List.isChain_cons_cons] at hl
            rw [List.getLast?_cons_cons] at hb
            obtain ⟨e1, e2⟩ := ih g hl.2 b hb
            refine ⟨e1.trans hl.1.1.symm, ?_⟩
            have := hl.1.2
            simp only [List.map_cons, List.sum_cons] at e2 ⊢
            omega
        rw [List.cons_append, ← List.cons_append, List.isChain_append]
        refine ⟨hch, .singleton _, fun b hb c hcm => ?_⟩
        simp only [List.head?_cons, Option.mem_def, Option.some.injEq] at hcm
        subst hcm
        obtain ⟨e1, e2⟩ := hend more first hch b hb
        exact ⟨by rw [e1]; exact hc.1, by rw [← e2]; exact hc.2⟩
      obtain ⟨runs, out, e1, e2, e3, e4, head, tail, e5, e6, e7⟩ := joinFrom_spec rest _ (run ++ [a]) hu
      refine ⟨runs, out, by rw [← e1]; simp, ?_, e3, e4, head, tail, e5, e6, e7⟩
      rw [joinFrom, if_pos hc]; exact e2
    · obtain ⟨runs, out, e1, e2, e3, e4, head, tail, e5, e6, e7⟩ :=
        joinFrom_spec rest a [a] ⟨a, [], rfl, .singleton _, by simp⟩
      refine ⟨run :: runs, last :: out, by rw [List.flatten_cons, ← e1]; simp, ?_, .cons h e3, ?_, last, out, rfl, rfl, rfl⟩
      · rw [joinFrom, if_neg hc, e2]
      · subst e5
        rw [List.isChain_cons_cons]
        exact ⟨fun k => hc ⟨k.1.trans (by rw [e6]), k.2.trans e7⟩, e4⟩

theorem joinHeld_coalesced (l : List Held) : Coalesced l (joinHeld l) := by
  cases l with
  | nil => exact ⟨[], rfl, .nil, .nil⟩
  | cons a rest =>
    obtain ⟨runs, out, e1, e2, e3, e4, _⟩ := joinFrom_spec rest a [a] ⟨a, [], rfl, .singleton _, by simp⟩
    exact ⟨runs, by simpa using e1, by rw [joinHeld, e2]; exact e3, by rw [joinHeld, e2]; exact e4⟩

/-- The repeat sets of the activities are in the log. -/
theorem clusterNodeOf_spec {traces : List Nat} {k : Nat} {members : List RNode} {node : RNode}
    (h : clusterNodeOf traces k members = some node) : ∃ first rest, members = first :: rest ∧
      node.name = "CLUSTER_" ++ Nat.repr k ∧ node.level = first.level ∧ node.repeatSet = none ∧ node.children = [] ∧
      ∀ c, c ∈ node.classes ↔ ∃ m ∈ members, c ∈ m.classes := by
  unfold clusterNodeOf at h
  cases hm : members.mapM (checkRepeat traces) with
  | none => rw [hm] at h; cases h
  | some us =>
    rw [hm] at h
    cases members with
    | nil => cases h
    | cons first rest =>
      cases h
      refine ⟨first, rest, rfl, rfl, rfl, rfl, rfl, fun c => ?_⟩
      rw [List.mem_dedup, List.mem_flatMap]

theorem merge_spec (it : Iter) (traces : List Nat) (instances : List (List Held)) (processed : List RNode)
    (labels : List (Option Nat)) (hn : (processed.map (fun m => m.name)).Nodup) (hl : labels.length = processed.length)
    (hr : ∀ m ∈ processed, checkRepeat traces m = some ()) :
    ∃ result, mergeActivities it traces instances processed labels = some result ∧
      List.Forall₂ (fun t u => ∃ m, List.Forall₂ (Renamed processed labels) t m ∧ Coalesced m u) instances result := by
  have hg := group_inv (processed.zip labels) (done := []) (g := {})
    ⟨Dict.WF_nil, by simp [Dict.get?], by simp, by simp [Dict.get?]⟩
  rw [List.nil_append] at hg
  generalize hgd : (processed.zip labels).foldl groupActivity {} = g at hg
  have hp := it.perm "clusters_to_activities" 0 g.clusters
  have hmem : ∀ c ∈ g.clusters, c.2 = membersOf processed labels c.1 ∧ ∃ p ∈ processed.zip labels, p.2 = some c.1 := by
    intro c hc
    have := Dict.get?_of_mem hg.wf (k := c.1) (v := c.2) hc
    rw [hg.clusters] at this
    split at this
    · rename_i hex
      exact ⟨(Option.some.inj this).symm, hex⟩
    · cases this
  have hin : ∀ k, ∀ m ∈ membersOf processed labels k, (m, some k) ∈ processed.zip labels := by
    intro k m hm
    rw [membersOf, List.mem_map] at hm
    obtain ⟨⟨a, b⟩, hq, rfl⟩ := hm
    rw [List.mem_filter] at hq
    have e : b = some k := by simpa using hq.2
    subst e
    exact hq.1
  obtain ⟨nodes, hnodes, hget⟩ := addClusterNode_fold traces (it.order "clusters_to_activities" 0 g.clusters) []
    ((hp.map Prod.fst).nodup_iff.2 hg.wf) (by
      intro c hc
      obtain ⟨e, p, hpp, hpe⟩ := hmem c (hp.mem_iff.1 hc)
      refine ⟨?_, fun m hm => ?_⟩
      · rw [e]
        refine List.ne_nil_of_mem (a := p.1) ?_
        exact List.mem_map.2 ⟨p, List.mem_filter.2 ⟨hpp, by simpa using hpe⟩, rfl⟩
      · rw [e] at hm
        exact hr m (List.of_mem_zip (hin _ m hm)).1)
  have hnode : ∀ k, nodes.get? k = if (membersOf processed labels k).length < 2 then none
      else clusterNodeOf traces k (membersOf processed labels k) := by
    intro k
    rw [hget k, find?_perm_dict hg.wf hp k, hg.clusters k]
    split
    · rename_i c hc
      split at hc
      · cases hc
        rfl
      · cases hc
    · rename_i hc
      split at hc
      · cases hc
      · rename_i hex
        have : membersOf processed labels k = [] := by rw [membersOf, filter_none hex]; rfl
        rw [this]
        rfl
  have hinj : ∀ p ∈ processed.zip labels, ∀ q ∈ processed.zip labels, p.1.name = q.1.name → p = q := by
    have : ((processed.zip labels).map (fun p => p.1.name)).Nodup := by
      have e : (processed.zip labels).map (fun p => p.1.name) = processed.map (fun m => m.name) := by
        conv_rhs => rw [← List.map_fst_zip (l₁ := processed) (l₂ := labels) (by omega), List.map_map]
        rfl
      rw [e]; exact hn
    exact fun p hp q hq e => List.inj_on_of_nodup_map this hp hq e
  refine ⟨_, by rw [mergeActivities, hgd]; simp only [hnodes]; rfl, ?_⟩
  rw [List.forall₂_map_right_iff, List.forall₂_same]
  refine fun t _ => ⟨t.map (renameHeld g.names nodes), ?_, joinHeld_coalesced _⟩
  rw [List.forall₂_map_right_iff, List.forall₂_same]
  intro a _
  have hmk : ∀ k m, m ∈ membersOf processed labels k → m.name = a.node.name → ∃ k', g.names.get? a.node.name = some k' := by
    intro k m hm e
    have := hg.named _ (hin k m hm) k rfl
    rwa [e] at this
  unfold renameHeld
  cases hk : g.names.get? a.node.name with
  | none =>
    refine .inr ⟨fun k => ?_, rfl⟩
    rintro ⟨m, hm, e⟩
    obtain ⟨k', e'⟩ := hmk k m hm e
    rw [hk] at e'; cases e'
  | some k =>
    obtain ⟨p, hpp, hpn, hpk⟩ := hg.names _ _ hk
    have hpm : p.1 ∈ membersOf processed labels k :=
      List.mem_map.2 ⟨p, List.mem_filter.2 ⟨hpp, by simpa using hpk⟩, rfl⟩
    have hsame : ∀ k' m, m ∈ membersOf processed labels k' → m.name = a.node.name → k' = k := by
      intro k' m hm e
      have := hinj _ (hin k' m hm) p hpp (by rw [hpn]; exact e)
      rw [← this] at hpk
      exact Option.some.inj hpk
    dsimp only
    have hN := hnode k
    by_cases hlt : (membersOf processed labels k).length < 2
    · rw [if_pos hlt] at hN
      rw [hN]
      refine .inr ⟨fun k' => ?_, rfl⟩
      rintro ⟨m, hm, e⟩
      rw [hsame k' m hm e]
      have := List.length_pos_of_mem hpm
      omega
    · rw [if_neg hlt] at hN
      cases hc : nodes.get? k with
      | none =>
        exfalso
        obtain ⟨d', _⟩ : ∃ node, clusterNodeOf traces k (membersOf processed labels k) = some node := by
          have hmap : ∀ ms : List RNode, (∀ m ∈ ms, checkRepeat traces m = some ()) →
              ∃ us, ms.mapM (checkRepeat traces) = some us := by
            intro ms
            induction ms with
            | nil => intro _; exact ⟨[], rfl⟩
            | cons m ms ih =>
              intro k
              obtain ⟨us, e⟩ := ih (fun x hx => k x (by simp [hx]))
              exact ⟨() :: us, by rw [List.mapM_cons, k m (by simp), e]; rfl⟩
          obtain ⟨us, e⟩ := hmap _ (fun m hm => hr m (List.of_mem_zip (hin k m hm)).1)
          unfold clusterNodeOf
          rw [e]
          rcases hcc : membersOf processed labels k with _ | ⟨first, rest⟩
          · rw [hcc] at hpm; cases hpm
          · exact ⟨_, rfl⟩
        rename_i hd
        rw [hd, hc] at hN
        cases hN
      | some node =>
        rw [hc] at hN
        obtain ⟨first, rest, e0, e1, e2, e3, e4, e5⟩ := clusterNodeOf_spec hN.symm
        refine .inl ⟨k, first, rest, e0, ?_, ⟨p.1, by rw [← e0]; exact hpm, hpn⟩, rfl, rfl, e1, e2, e3, e4, fun c => ?_⟩
        · rintro rfl
          rw [e0] at hlt
          exact hlt (by simp)
        · rw [← e0]; exact e5 c

/-! ### Positions -/

theorem union_covers : ∀ (rest : List Held) (first : Held), (first :: rest).IsChain Continues → ∀ pos,
    (∃ a ∈ first :: rest, Covers a pos) ↔
      first.startPos ≤ pos ∧ pos < first.startPos + ((first :: rest).map (fun a => a.length)).sum
  | [], first, _, pos => by simp [Covers]
  | g :: rest, first, h, pos => by
    rw [List.isChain_cons_cons] at h
    have ih := union_covers rest g h.2 pos
    have hc := h.1.2
    rw [List.exists_mem_cons_iff, ih, Covers]
    simp only [List.map_cons, List.sum_cons]
    omega

theorem coalesced_covers {before after : List Held} (h : Coalesced before after) (pos : Nat) :
    (∃ a ∈ before, Covers a pos) ↔ ∃ b ∈ after, Covers b pos := by
  obtain ⟨runs, rfl, h, hch'⟩ := h
  clear hch'
  induction h with
  | nil => simp
  | cons hu _ ih =>
    rw [List.flatten_cons, List.exists_mem_cons_iff, ← ih]
    obtain ⟨first, rest, rfl, hch, rfl⟩ := hu
    have hu := (union_covers rest first hch pos).symm
    rw [Covers, hu]
    simp only [List.mem_append, or_and_right, exists_or]

theorem coalesced_total {before after : List Held} (h : Coalesced before after) :
    (after.map (fun b => b.length)).sum = (before.map (fun a => a.length)).sum := by
  obtain ⟨runs, rfl, h, hch'⟩ := h
  clear hch'
  induction h with
  | nil => rfl
  | cons hu _ ih =>
    obtain ⟨first, rest, rfl, hch, rfl⟩ := hu
    rw [List.map_cons, List.sum_cons, ih, List.flatten_cons, List.map_append, List.sum_append]

/-! ### Colours -/

theorem drawColor_spec {used : List Color} : ∀ {draws : List Color} {c : Color} {left : List Color},
    drawColor used draws = some (c, left) → c ∉ used
  | [], _, _, h => by cases h
  | d :: draws, c, left, h => by
    rw [drawColor] at h
    split at h
    · exact drawColor_spec h
    · cases h
      assumption

theorem getColor_spec {h h' : Colors} {name : String} {c : Color} (hd : Distinct h) (he : getColor h name = some (c, h')) :
    Distinct h' ∧ (∀ n d, h.names.get? n = some d → h'.names.get? n = some d) ∧ h'.names.get? name = some c := by
  unfold getColor at he
  cases hn : h.names.get? name with
  | some d =>
    rw [hn] at he
    cases he
    exact ⟨hd, fun _ _ k => k, hn⟩
  | none =>
    rw [hn] at he
    cases hdr : drawColor h.used h.draws with
    | none => rw [hdr] at he; cases he
    | some p =>
      obtain ⟨d, left⟩ := p
      rw [hdr] at he
      cases he
      have hnew := drawColor_spec hdr
      refine ⟨⟨fun n m x hx hy => ?_, fun n x hx => ?_⟩, fun n x hx => ?_, by simp⟩
      · dsimp only at hx hy
        rw [Dict.get?_set] at hx hy
        split at hx <;> split at hy
        · rename_i a b; exact a.symm.trans b
        · cases hx
          exact absurd (hd.2 _ _ hy) hnew
        · cases hy
          exact absurd (hd.2 _ _ hx) hnew
        · exact hd.1 _ _ _ hx hy
      · dsimp only at hx ⊢
        rw [Dict.get?_set] at hx
        split at hx
        · cases hx; simp
        · exact List.mem_cons_of_mem _ (hd.2 _ _ hx)
      · dsimp only
        rw [Dict.get?_set]
        split
        · rename_i e
          subst e
          rw [hn] at hx; cases hx
        · exact hx

theorem getColors_spec : ∀ {names : List String} {h h' : Colors} {cs : List Color}, Distinct h →
    getColors h names = some (cs, h') →
    Distinct h' ∧ (∀ n d, h.names.get? n = some d → h'.names.get? n = some d) ∧
      List.Forall₂ (fun n c => h'.names.get? n = some c) names cs
  | [], h, h', cs, hd, he => by
    cases he
    exact ⟨hd, fun _ _ k => k, .nil⟩
  | n :: names, h, h', cs, hd, he => by
    rw [getColors] at he
    cases h1 : getColor h n with
    | none => rw [h1] at he; cases he
    | some p =>
      obtain ⟨c, h₁⟩ := p
      rw [h1] at he
      cases h2 : getColors h₁ names with
      | none => simp only [Option.bind_eq_bind, Option.bind_some, h2] at he; cases he
      | some q =>
        obtain ⟨ds, h₂⟩ := q
        simp only [Option.bind_eq_bind, Option.bind_some, h2] at he
        cases he
        obtain ⟨a1, a2, a3⟩ := getColor_spec hd h1
        obtain ⟨b1, b2, b3⟩ := getColors_spec a1 h2
        exact ⟨b1, fun m d k => b2 _ _ (a2 _ _ k), .cons (b2 _ _ a3) b3⟩

theorem drawColor_total (used draws : List Color) (h : ∃ c ∈ draws, c ∉ used) :
    ∃ c left, drawColor used draws = some (c, left) ∧ c ∈ draws ∧ ∃ before, draws = before ++ c :: left ∧ ∀ d ∈ before, d ∈ used := by
  induction draws with
  | nil => obtain ⟨_, h, _⟩ := h; cases h
  | cons d draws ih =>
    rw [drawColor]
    split
    · rename_i hd
      obtain ⟨c, hc, hu⟩ := h
      rcases List.mem_cons.1 hc with rfl | hc
      · exact absurd hd hu
      · obtain ⟨c, left, e, hm, before, eb, hb⟩ := ih ⟨c, hc, hu⟩
        refine ⟨c, left, e, List.mem_cons_of_mem _ hm, d :: before, by rw [eb]; rfl, fun x hx => ?_⟩
        rcases List.mem_cons.1 hx with rfl | hx
        · exact hd
        · exact hb x hx
    · exact ⟨d, draws, rfl, by simp, [], rfl, by simp⟩

/-- How many colours are left. -/
def fresh (h : Colors) : Nat := (h.draws.filter (fun c => decide (c ∉ h.used))).dedup.length

theorem getColor_total (h : Colors) (name : String) (hf : 1 ≤ fresh h) :
    ∃ c h', getColor h name = some (c, h') ∧ fresh h ≤ fresh h' + 1 := by
  unfold getColor
  cases h.names.get? name with
  | some c => exact ⟨c, h, rfl, by omega⟩
  | none =>
    have hex : ∃ c ∈ h.draws, c ∉ h.used := by
      have : (h.draws.filter (fun c => decide (c ∉ h.used))).dedup ≠ [] := by
        intro e
        rw [fresh, e] at hf
        simp at hf
      obtain ⟨c, hc⟩ := List.exists_mem_of_ne_nil _ this
      rw [List.mem_dedup, List.mem_filter] at hc
      exact ⟨c, hc.1, by simpa using hc.2⟩
    obtain ⟨c, left, e, _, before, eb, hb⟩ := drawColor_total h.used h.draws hex
    refine ⟨c, _, by rw [e]; rfl, ?_⟩
    unfold fresh
    rw [← List.card_toFinset, ← List.card_toFinset]
    refine le_trans (Finset.card_le_card (t := insert c _) ?_) (Finset.card_insert_le _ _)
    intro x hx
    rw [List.mem_toFinset, List.mem_filter, eb, List.mem_append, List.mem_cons] at hx
    obtain ⟨hx, hu⟩ := hx
    have hu : x ∉ h.used := by simpa using hu
    rw [Finset.mem_insert, List.mem_toFinset, List.mem_filter]
    by_cases hxc : x = c
    · exact .inl hxc
    · refine .inr ⟨?_, by simp [hxc, hu]⟩
      rcases hx with hx | hx | hx
      · exact absurd (hb x hx) hu
      · exact absurd hx hxc
      · exact hx

theorem getColors_total : ∀ (names : List String) (h : Colors), names.length ≤ fresh h →
    ∃ cs h', getColors h names = some (cs, h')
  | [], h, _ => ⟨[], h, rfl⟩
  | n :: names, h, hf => by
    rw [List.length_cons] at hf
    obtain ⟨c, h₁, e, hle⟩ := getColor_total h n (by omega)
    obtain ⟨cs, h₂, e'⟩ := getColors_total names h₁ (by omega)
    refine ⟨c :: cs, h₂, ?_⟩
    rw [getColors, e]
    simp only [Option.bind_eq_bind, Option.bind_some, e']
    rfl

/-! ### Grid search -/

/-- What the grid search gives from a score and the labels so far. -/
def GridOutcome (fit : Nat → List Nat) (score : List Nat → Option (Option ℚ)) (ks : List Nat) (metric : ℚ)
    (best : Option (List Nat)) : Prop :=
    (searchGrid fit score ks metric best = .ok best ∧ ∀ k ∈ ks, ∀ s, score (fit k) = some (some s) → s ≤ metric) ∨
    ∃ before k after s, ks = before ++ k :: after ∧ score (fit k) = some (some s) ∧ metric < s ∧
      searchGrid fit score ks metric best = .ok (some (fit k)) ∧
      (∀ k' ∈ before, ∀ s', score (fit k') = some (some s') → s' < s) ∧
      ∀ k' ∈ after, ∀ s', score (fit k') = some (some s') → s' ≤ s

theorem searchGrid_spec (fit : Nat → List Nat) (score : List Nat → Option (Option ℚ)) : ∀ (ks : List Nat) (metric : ℚ)
    (best : Option (List Nat)), (∀ k ∈ ks, score (fit k) ≠ none) →
    GridOutcome fit score ks metric best
  | [], metric, best, _ => .inl ⟨rfl, by simp⟩
  | k :: ks, metric, best, h => by
    have hk := h k (by simp)
    have hks : ∀ k ∈ ks, score (fit k) ≠ none := fun x hx => h x (by simp [hx])
    have hskip : (∀ s, score (fit k) = some (some s) → s ≤ metric) →
        searchGrid fit score (k :: ks) metric best = searchGrid fit score ks metric best →
        GridOutcome fit score (k :: ks) metric best := by
      intro hle e
      rcases searchGrid_spec fit score ks metric best hks with ⟨e1, e2⟩ | ⟨before, k', after, s, e1, e2, e3, e4, e5, e6⟩
      · refine Or.inl ⟨e.trans e1, fun x hx s hs => ?_⟩
        rcases List.mem_cons.1 hx with rfl | hx
        · exact hle s hs
        · exact e2 x hx s hs
      · refine Or.inr ⟨k :: before, k', after, s, by rw [e1]; rfl, e2, e3, e.trans e4, fun x hx s' hs => ?_, e6⟩
        rcases List.mem_cons.1 hx with rfl | hx
        · exact lt_of_le_of_lt (hle s' hs) e3
        · exact e5 x hx s' hs
    cases hs : score (fit k) with
    | none => exact absurd hs hk
    | some o =>
      cases o with
      | none => exact hskip (by simp [hs]) (by rw [searchGrid, hs])
      | some s =>
        by_cases hlt : metric < s
        · have e : searchGrid fit score (k :: ks) metric best = searchGrid fit score ks s (some (fit k)) := by
            rw [searchGrid, hs]
            exact if_pos hlt
          rcases searchGrid_spec fit score ks s (some (fit k)) hks with
            ⟨e1, e2⟩ | ⟨before, k', after, s', e1, e2, e3, e4, e5, e6⟩
          · exact .inr ⟨[], k, ks, s, rfl, hs, hlt, e.trans e1, by simp, e2⟩
          · refine .inr ⟨k :: before, k', after, s', by rw [e1]; rfl, e2, hlt.trans e3, e.trans e4, fun x hx s'' hs' => ?_, e6⟩
            rcases List.mem_cons.1 hx with rfl | hx
            · rw [hs] at hs'
              cases hs'
              exact e3
            · exact e5 x hx s'' hs'
        · refine hskip (fun s' hs' => ?_) (by rw [searchGrid, hs]; exact if_neg hlt)
          rw [hs] at hs'
          cases hs'
          exact not_lt.1 hlt

theorem searchGrid_error (fit : Nat → List Nat) (score : List Nat → Option (Option ℚ)) : ∀ (ks : List Nat) (metric : ℚ)
    (best : Option (List Nat)), (∃ k ∈ ks, score (fit k) = none) → searchGrid fit score ks metric best = .error .noScore
  | [], _, _, h => by obtain ⟨_, h, _⟩ := h; cases h
  | k :: ks, metric, best, ⟨k', hk', e⟩ => by
    rw [searchGrid]
    rcases List.mem_cons.1 hk' with rfl | hk'
    · rw [e]
    · have ih := fun m b => searchGrid_error fit score ks m b ⟨k', hk', e⟩
      split
      · rfl
      · exact ih _ _
      · split
        · exact ih _ _
        · exact ih _ _

end Ficus.Rs.Cl
