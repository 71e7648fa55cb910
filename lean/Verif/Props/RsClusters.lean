import Verif.Proofs.RsClusters
import Verif.Props.RsTables
import Std.Data.String.ToNat

/-! Properties C153 to C156: clusters of traces and of activities and their colours. -/

namespace Ficus.Rs

open Cl

/-! ### C153: logs of clusters of traces -/

/-- C153: the new logs are one for each label that occurs, with the traces of the label in the order of the log. -/
theorem C153_logs {T : Type} (it : Iter) (traces : List T) (labels : List Nat) (h : traces.length = labels.length) :
    ∃ ks : List Nat, ks.Perm labels.dedup ∧ clusterLogs it traces labels = ks.map (tracesWith traces labels) :=
  clusterLogs_spec it traces labels h

example : clusterLogs Iter.plain ["t", "u", "v", "w"] [2, 0, 2, 1] = [["t", "v"], ["u"], ["w"]] := by decide +kernel
example : clusterLogs Iter.reversed ["t", "u", "v", "w"] [2, 0, 2, 1] = [["w"], ["u"], ["t", "v"]] := by decide +kernel

/-- C153: no new log is empty. -/
theorem C153_nonempty {T : Type} (it : Iter) (traces : List T) (labels : List Nat) (h : traces.length = labels.length) :
    ∀ log ∈ clusterLogs it traces labels, log ≠ [] := by
  obtain ⟨ks, hp, e⟩ := C153_logs it traces labels h
  rw [e]
  intro log hl
  obtain ⟨k, hk, rfl⟩ := List.mem_map.1 hl
  have : k ∈ labels := List.mem_dedup.1 (hp.mem_iff.1 hk)
  rw [← List.map_snd_zip (l₁ := traces) (l₂ := labels) (by omega), List.mem_map] at this
  obtain ⟨p, hp, e⟩ := this
  exact List.ne_nil_of_mem (a := p.1) (List.mem_map.2 ⟨p, List.mem_filter.2 ⟨hp, by simpa using e⟩, rfl⟩)

/-- C153: each trace is in one new log: together they are the log, up to the order. -/
theorem C153_partition {T : Type} (it : Iter) (traces : List T) (labels : List Nat) (h : traces.length = labels.length) :
    (clusterLogs it traces labels).flatten.Perm traces := by
  obtain ⟨ks, hp, e⟩ := C153_logs it traces labels h
  rw [e]
  have key : ∀ (ks : List Nat) (l : List (T × Nat)), ks.Nodup → (∀ p ∈ l, p.2 ∈ ks) →
      (ks.map (fun k => l.filter (fun p => decide (p.2 = k)))).flatten.Perm l := by
    intro ks
    induction ks with
    | nil =>
      intro l _ hl
      cases l with
      | nil => exact .refl _
      | cons p l => exact absurd (hl p (by simp)) (by simp)
    | cons k ks ih =>
      intro l hn hl
      rw [List.nodup_cons] at hn
      rw [List.map_cons, List.flatten_cons]
      have := ih (l.filter (fun p => !decide (p.2 = k))) hn.2 (by
        intro p hp
        rw [List.mem_filter] at hp
        rcases List.mem_cons.1 (hl p hp.1) with e | e
        · simp [e] at hp
        · exact e)
      have e2 : ks.map (fun k' => (l.filter (fun p => !decide (p.2 = k))).filter (fun p => decide (p.2 = k'))) =
          ks.map (fun k' => l.filter (fun p => decide (p.2 = k'))) := by
        refine List.map_congr_left (fun k' hk' => ?_)
        rw [List.filter_filter]
        refine List.filter_congr (fun p _ => ?_)
        by_cases hpk : p.2 = k'
        · have : p.2 ≠ k := fun e => hn.1 (by rw [← e, hpk]; exact hk')
          simp [hpk]
          rw [← hpk]; exact this
        · simp [hpk]
      rw [e2] at this
      exact (List.Perm.append_left _ this).trans (List.filter_append_perm _ l)
  have := (key ks (traces.zip labels) (hp.nodup_iff.2 (List.nodup_dedup _)) (by
    intro p hpz
    exact hp.mem_iff.2 (List.mem_dedup.2 (List.of_mem_zip hpz).2))).map Prod.fst
  rw [List.map_fst_zip (by omega), List.map_flatten, List.map_map] at this
  exact this

/-- C153: the clustering of the traces of a log succeeds for all sources and distances, with label zero for noise and one more than
the number of the cluster for others. -/
theorem C153_cluster {E : Type} [HasName E] (it : Iter) (distance : Distance) (find : Option (String → Option (Option Match)))
    (source : TraceSource) {cluster : List (List ℚ) → List (Option Nat)} (hc : ∀ rows, (cluster rows).length = rows.length)
    (h : Colors) (log : List (List (Nested E))) (hf : log.length ≤ (h.draws.filter (fun c => decide (c ∉ h.used))).dedup.length) :
    ∃ t labels data h', createTracesTable it distance find source log = .ok t ∧ labels.length = log.length ∧
      List.Forall₂ (fun (c : Option Nat) l => c = none ∧ l = 0 ∨ ∃ k, c = some k ∧ l = k + 1) (cluster t.values) labels ∧
      clusterTraces it distance find source cluster h log = .ok (clusterLogs it log labels, data, h') ∧
      data.table = t ∧ data.labels = labels := by
  have ht : ∃ t, createTracesTable it distance find source log = .ok t ∧ t.values.length = log.length := by
    by_cases hd : distance = .levenshtein
    · subst hd
      obtain ⟨t, e, hw⟩ := C151_words it find source log
      obtain ⟨_, _, _, hv⟩ := hw.values
      exact ⟨t, e, by rw [hv, List.length_map, wordsOf, List.length_map]⟩
    · obtain ⟨t, e, hw⟩ := C150_traces it hd find source log
      exact ⟨t, e, by rw [hw.height, List.length_map, wordsOf, List.length_map]⟩
  obtain ⟨t, ht, hl⟩ := ht
  have hlen : ((cluster t.values).map labelOf).length = log.length := by rw [List.length_map, hc, hl]
  obtain ⟨cs, h', e⟩ := getColors_total (((cluster t.values).map labelOf).map clusterTitle) h (by
    rw [List.length_map, hlen]; exact hf)
  refine ⟨t, (cluster t.values).map labelOf, ⟨t, (cluster t.values).map labelOf, cs⟩, h', ht, hlen, ?_, ?_, rfl, rfl⟩
  · rw [List.forall₂_map_right_iff, List.forall₂_same]
    intro c _
    cases c with
    | none => exact .inl ⟨rfl, rfl⟩
    | some k => exact .inr ⟨k, rfl, rfl⟩
  · unfold clusterTraces
    rw [ht]
    show ((orPanic (getColors h (((cluster t.values).map labelOf).map clusterTitle)) >>= _) >>= _) = _
    rw [e]
    rfl

/-- Colours for examples. -/
def exColors : Colors := { draws := [⟨1, 2, 3⟩, ⟨1, 2, 3⟩, ⟨4, 5, 6⟩, ⟨7, 8, 9⟩, ⟨1, 2, 3⟩, ⟨10, 11, 12⟩] }

example : ((clusterTraces Iter.plain .levenshtein none .events (fun rows => rows.map (fun r => if r.head? = some 3 then none else some 0))
    exColors exTraces).toOption.map (fun r => (r.1.map List.length, r.2.1.labels, r.2.1.colors))) =
    some ([2, 1], [1, 0, 1], [⟨1, 2, 3⟩, ⟨4, 5, 6⟩, ⟨1, 2, 3⟩]) := by decide +kernel

/-! ### C154: merging of activities -/

/-- C154: the instances of activities of a cluster with at least two activities become instances of one new activity, others stay; then
instances that continue each other are joined. -/
theorem C154_merge (it : Iter) {traces : List Nat} (instances : List (List Held)) {processed : List RNode}
    {labels : List (Option Nat)} (hn : (processed.map (fun m => m.name)).Nodup) (hl : labels.length = processed.length)
    (hr : ∀ m ∈ processed, ∀ r, m.repeatSet = some r → ∃ size, traces[r.traceIndex]? = some size ∧ r.firstPos + r.length ≤ size) :
    ∃ result, mergeActivities it traces instances processed labels = some result ∧
      List.Forall₂ (fun t u => ∃ m, List.Forall₂ (Renamed processed labels) t m ∧ Coalesced m u) instances result := by
  refine merge_spec it traces instances processed labels hn hl (fun m hm => ?_)
  unfold checkRepeat
  cases h : m.repeatSet with
  | none => rfl
  | some r =>
    obtain ⟨size, e, hle⟩ := hr m hm r h
    simp [e, hle]

/-- Activities for examples. -/
def exMerged : List RNode := [exNode "A" 1 (some ⟨0, 2, 0⟩) [1, 2], exNode "B" 1 (some ⟨2, 2, 0⟩) [2, 3], exNode "C" 1 none [4]]

/-- Instances for examples. -/
def exTouching : List (List Held) :=
  [[⟨exNode "A" 1 (some ⟨0, 2, 0⟩) [1, 2], 0, 2⟩, ⟨exNode "B" 1 (some ⟨2, 2, 0⟩) [2, 3], 2, 2⟩, ⟨exNode "C" 1 none [4], 4, 1⟩,
    ⟨exNode "A" 1 (some ⟨0, 2, 0⟩) [1, 2], 6, 2⟩]]

example : (mergeActivities Iter.plain [8] exTouching exMerged [some 0, some 0, some 1]).map
    (fun r => r.map (fun t => t.map (fun a => (a.node.name, a.startPos, a.length)))) =
    some [[("CLUSTER_0", 0, 4), ("C", 4, 1), ("CLUSTER_0", 6, 2)]] := by decide +kernel
example : (mergeActivities Iter.plain [8] exTouching exMerged [some 0, some 0, some 1]).map
    (fun r => r.map (fun t => t.map (fun a => (a.node.classes.map (fun c : Nat => c), a.node.level)))) =
    some [[([1, 2, 3], 1), ([4], 1), ([1, 2, 3], 1)]] := by decide +kernel

theorem Cl.renamed_covers {processed : List RNode} {labels : List (Option Nat)} {t m : List Held}
    (h : List.Forall₂ (Renamed processed labels) t m) :
    (∀ pos, (∃ a ∈ t, Covers a pos) ↔ ∃ b ∈ m, Covers b pos) ∧
      (m.map (fun b => b.length)).sum = (t.map (fun a => a.length)).sum := by
  induction h with
  | nil => simp
  | cons hr _ ih =>
    rename_i a b l l' _
    have hb : b.startPos = a.startPos ∧ b.length = a.length := by
      rcases hr with ⟨k, first, rest, _, _, _, h1, h2, _⟩ | ⟨_, rfl⟩
      · exact ⟨h1, h2⟩
      · exact ⟨rfl, rfl⟩
    refine ⟨fun pos => ?_, ?_⟩
    · rw [List.exists_mem_cons_iff, List.exists_mem_cons_iff, ih.1 pos, Covers, Covers, hb.1, hb.2]
    · rw [List.map_cons, List.map_cons, List.sum_cons, List.sum_cons, ih.2, hb.2]

/-- C154: the same positions of the traces are covered as before, and the lengths have the same sum. -/
theorem C154_positions {it : Iter} {traces : List Nat} {instances result : List (List Held)} {processed : List RNode}
    {labels : List (Option Nat)} (hn : (processed.map (fun m => m.name)).Nodup) (hl : labels.length = processed.length)
    (hr : ∀ m ∈ processed, ∀ r, m.repeatSet = some r → ∃ size, traces[r.traceIndex]? = some size ∧ r.firstPos + r.length ≤ size)
    (h : mergeActivities it traces instances processed labels = some result) :
    List.Forall₂ (fun t u => (∀ pos, (∃ a ∈ t, Covers a pos) ↔ ∃ b ∈ u, Covers b pos) ∧
      (u.map (fun b => b.length)).sum = (t.map (fun a => a.length)).sum) instances result := by
  obtain ⟨result', e, hf⟩ := C154_merge it instances hn hl hr
  rw [h] at e
  cases e
  refine hf.imp ?_
  rintro t u ⟨m, h1, h2⟩
  obtain ⟨a1, a2⟩ := renamed_covers h1
  exact ⟨fun pos => (a1 pos).trans (coalesced_covers h2 pos), (coalesced_total h2).trans a2⟩

/-- C154: instances that continue each other are joined even if no activity is in a cluster. -/
theorem C154_joins_without_clusters (it : Iter) (traces : List Nat) (node : RNode) (start first second : Nat) :
    mergeActivities it traces [[⟨node, start, first⟩, ⟨node, start + first, second⟩]] [node] [none] =
      some [[⟨node, start, first + second⟩]] := by
  have he : it.order "clusters_to_activities" 0 ([] : Dict Nat (List RNode)) = [] := List.Perm.eq_nil (it.perm _ _ _)
  have hg : ([node].zip [(none : Option Nat)]).foldl groupActivity {} = {} := rfl
  have hr : ∀ a, renameHeld ({} : Grouped).names [] a = a := fun a => rfl
  unfold mergeActivities
  rw [hg]
  show ((it.order "clusters_to_activities" 0 ([] : Dict Nat (List RNode))).foldlM (addClusterNode traces) [] >>= _) = _
  rw [he]
  show some (List.map _ _) = _
  simp only [List.map_cons, List.map_nil, hr, joinHeld, joinFrom]
  simp

theorem Cl.nodes_ok {E : Type} [HasName E] {it : Iter} {find : Option (String → Option (Option Match))} {source : ActivitySource}
    {log : List (List (Nested E))} {level : Nat} {instances : List (List Held)} {t : Table} {nodes : List RNode}
    (h : activitiesTable it find source log level instances = .ok (t, nodes)) :
    (nodes.map (fun m => m.name)).Nodup ∧ t.values.length = nodes.length ∧
    ∀ m ∈ nodes, ∀ r, m.repeatSet = some r → ∃ size, (log.map List.length)[r.traceIndex]? = some size ∧
      r.firstPos + r.length ≤ size := by
  obtain ⟨h1, h2, counts, h3, h4⟩ := C152_activities h
  refine ⟨h1.imp (fun h => ne_of_lt h), by rw [h3.height, h4.length_eq], fun m hm r hmr => ?_⟩
  have : ∃ f : String → Nat, (∃ events, RepeatOf log m events ∧ ∀ c, f c = occurrences find source events c) ∨
      m.repeatSet = none ∧ source ≠ .eventClasses ∧ ∀ c, f c = 0 := by
    clear h3 h2 h1 h hmr
    induction h4 with
    | nil => cases hm
    | cons hab _ ih =>
      rcases List.mem_cons.1 hm with rfl | hm
      · exact ⟨_, hab⟩
      · exact ih hm
  obtain ⟨f, ⟨events, ⟨r', tr, e1, e2, e3, _⟩, _⟩ | ⟨e1, _⟩⟩ := this
  · rw [hmr] at e1
    cases e1
    refine ⟨tr.length, by rw [List.getElem?_map, e2]; rfl, e3⟩
  · rw [hmr] at e1; cases e1

theorem Cl.labeled_ok {h h' : Colors} {t : Table} {labels : List Nat} {data : Labeled}
    (hk : labeledTable h t labels = .ok (data, h')) :
    data.table = t ∧ data.labels = labels ∧ getColors h (labels.map clusterTitle) = some (data.colors, h') := by
  unfold labeledTable colorsVector at hk
  cases hc : getColors h (labels.map clusterTitle) with
  | none => rw [hc] at hk; cases hk
  | some p =>
    rw [hc] at hk
    cases hk
    exact ⟨rfl, rfl, rfl⟩

theorem Cl.bind_ok {α β : Type} {x : Except Failure α} {f : α → Except Failure β} {b : β} (h : (x >>= f) = .ok b) :
    ∃ a, x = .ok a ∧ f a = .ok b := by
  cases x with
  | error e => cases h
  | ok a => exact ⟨a, rfl, h⟩

theorem Cl.orPanic_ok {α : Type} {x : Option α} {a : α} (h : orPanic x = .ok a) : x = some a := by
  cases x with
  | none => cases h
  | some b => cases h; rfl

/-- C154: the clusters by density: the data set is that of the activities, its labels are zero for noise and else one more than the
cluster, and the instances are merged by the clusters. -/
theorem C154_density {E : Type} [HasName E] {it : Iter} {find : Option (String → Option (Option Match))} {source : ActivitySource}
    {cluster : List (List ℚ) → List (Option Nat)} (hc : ∀ rows, (cluster rows).length = rows.length) {h h' : Colors}
    {log : List (List (Nested E))} {level : Nat} {instances merged : List (List Held)} {data : Labeled}
    (hk : clusterByDensity it find source cluster h log level instances = .ok (merged, data, h')) :
    ∃ nodes, activitiesTable it find source log level instances = .ok (data.table, nodes) ∧
      List.Forall₂ (fun (c : Option Nat) l => c = none ∧ l = 0 ∨ ∃ k, c = some k ∧ l = k + 1) (cluster data.table.values) data.labels ∧
      List.Forall₂ (fun t u => ∃ m, List.Forall₂ (Renamed nodes (cluster data.table.values)) t m ∧ Coalesced m u) instances merged := by
  unfold clusterByDensity at hk
  obtain ⟨⟨t, nodes⟩, ht, hk⟩ := bind_ok hk
  obtain ⟨m, hm, hk⟩ := bind_ok hk
  obtain ⟨⟨d, h₁⟩, hd, hk⟩ := bind_ok hk
  cases hk
  obtain ⟨e1, e2, _⟩ := labeled_ok hd
  obtain ⟨n1, n2, n3⟩ := nodes_ok ht
  rw [e1, e2]
  refine ⟨nodes, ht, ?_, ?_⟩
  · rw [List.forall₂_map_right_iff, List.forall₂_same]
    intro c _
    cases c with
    | none => exact .inl ⟨rfl, rfl⟩
    | some k => exact .inr ⟨k, rfl, rfl⟩
  · obtain ⟨result, e, hf⟩ := C154_merge it instances n1 (labels := cluster t.values) (by rw [hc, n2]) n3
    rw [orPanic_ok hm] at e
    cases e
    exact hf

/-- C154: the clusters by means: here the labels are the clusters. -/
theorem C154_means {E : Type} [HasName E] {it : Iter} {find : Option (String → Option (Option Match))} {source : ActivitySource}
    {cluster : List (List ℚ) → List Nat} (hc : ∀ rows, (cluster rows).length = rows.length) {h h' : Colors}
    {log : List (List (Nested E))} {level : Nat} {instances merged : List (List Held)} {data : Labeled}
    (hk : clusterByMeans it find source cluster h log level instances = .ok (merged, data, h')) :
    ∃ nodes, activitiesTable it find source log level instances = .ok (data.table, nodes) ∧
      data.labels = cluster data.table.values ∧
      List.Forall₂ (fun t u => ∃ m, List.Forall₂ (Renamed nodes (data.labels.map some)) t m ∧ Coalesced m u) instances merged := by
  unfold clusterByMeans at hk
  obtain ⟨⟨t, nodes⟩, ht, hk⟩ := bind_ok hk
  obtain ⟨m, hm, hk⟩ := bind_ok hk
  obtain ⟨⟨d, h₁⟩, hd, hk⟩ := bind_ok hk
  cases hk
  obtain ⟨e1, e2, _⟩ := labeled_ok hd
  obtain ⟨n1, n2, n3⟩ := nodes_ok ht
  rw [e1, e2]
  refine ⟨nodes, ht, rfl, ?_⟩
  obtain ⟨result, e, hf⟩ := C154_merge it instances n1 (labels := (cluster t.values).map some) (by rw [List.length_map, hc, n2]) n3
  rw [orPanic_ok hm] at e
  cases e
  exact hf

/-- C154: both succeed if the data set can be made and there are enough colours. -/
theorem C154_total {E : Type} [HasName E] {it : Iter} {find : Option (String → Option (Option Match))} {source : ActivitySource}
    {cluster : List (List ℚ) → List (Option Nat)} (hc : ∀ rows, (cluster rows).length = rows.length)
    {means : List (List ℚ) → List Nat} (hm : ∀ rows, (means rows).length = rows.length) {h : Colors}
    {log : List (List (Nested E))} {level : Nat} {instances : List (List Held)} {t : Table} {nodes : List RNode}
    (ht : activitiesTable it find source log level instances = .ok (t, nodes))
    (hf : nodes.length ≤ (h.draws.filter (fun c => decide (c ∉ h.used))).dedup.length) :
    (∃ r, clusterByDensity it find source cluster h log level instances = .ok r) ∧
      ∃ r, clusterByMeans it find source means h log level instances = .ok r := by
  obtain ⟨n1, n2, n3⟩ := nodes_ok ht
  constructor
  · obtain ⟨result, e, _⟩ := C154_merge it instances n1 (labels := cluster t.values) (by rw [hc, n2]) n3
    obtain ⟨cs, h', e'⟩ := getColors_total (((cluster t.values).map labelOf).map clusterTitle) h (by
      rw [List.length_map, List.length_map, hc, n2]; exact hf)
    refine ⟨(result, ⟨t, (cluster t.values).map labelOf, cs⟩, h'), ?_⟩
    unfold clusterByDensity
    rw [ht]
    show (orPanic (mergeActivities it (log.map List.length) instances nodes (cluster t.values)) >>= _) = _
    rw [e]
    show ((orPanic (getColors h (((cluster t.values).map labelOf).map clusterTitle)) >>= _) >>= _) = _
    rw [e']
    rfl
  · obtain ⟨result, e, _⟩ := C154_merge it instances n1 (labels := (means t.values).map some) (by rw [List.length_map, hm, n2]) n3
    obtain ⟨cs, h', e'⟩ := getColors_total ((means t.values).map clusterTitle) h (by
      rw [List.length_map, hm, n2]; exact hf)
    refine ⟨(result, ⟨t, means t.values, cs⟩, h'), ?_⟩
    unfold clusterByMeans
    rw [ht]
    show (orPanic (mergeActivities it (log.map List.length) instances nodes ((means t.values).map some)) >>= _) = _
    rw [e]
    show ((orPanic (getColors h ((means t.values).map clusterTitle)) >>= _) >>= _) = _
    rw [e']
    rfl

/-- Instances for examples: activities `P` and `Q` with the same classes, and `R`. -/
def exClustered : List (List Held) :=
  [[⟨exNode "P" 0 (some ⟨0, 1, 0⟩), 0, 1⟩, ⟨exNode "R" 0 (some ⟨1, 1, 0⟩), 1, 1⟩, ⟨exNode "Q" 0 (some ⟨2, 1, 0⟩), 2, 1⟩], [],
    [⟨exNode "R" 0 (some ⟨1, 1, 0⟩), 0, 1⟩, ⟨exNode "P" 0 (some ⟨0, 1, 0⟩), 1, 1⟩, ⟨exNode "Q" 0 (some ⟨2, 1, 0⟩), 2, 1⟩]]

/-- A clustering for examples: rows with the same first value are a cluster, if it is not zero. -/
def exCluster (rows : List (List ℚ)) : List (Option Nat) := rows.map (fun r => if r.head? = some 0 then some 0 else none)

example : ((clusterByDensity Iter.plain none .subTraces exCluster exColors exTraces 0 exClustered).toOption.map
    (fun r => (r.1.map (fun t => t.map (fun a => (a.node.name, a.startPos, a.length))), r.2.1.table.rows, r.2.1.labels))) =
    some ([[("CLUSTER_0", 0, 1), ("R", 1, 1), ("CLUSTER_0", 2, 1)], [], [("R", 0, 1), ("CLUSTER_0", 1, 2)]], ["P", "Q", "R"],
      [1, 1, 0]) := by decide +kernel

/-! ### C155: colours -/

/-- C155: colours are never changed, and two of them are equal exactly if they are those of the same name. -/
theorem C155_colors {h h' : Colors} {names : List String} {colors : List Color} (hd : Distinct h)
    (hk : getColors h names = some (colors, h')) :
    Distinct h' ∧ (∀ n c, h.names.get? n = some c → h'.names.get? n = some c) ∧ colors.length = names.length ∧
    ∀ (i j : Nat) (n m : String) (c d : Color), names[i]? = some n → names[j]? = some m → colors[i]? = some c → colors[j]? = some d → (c = d ↔ n = m) := by
  obtain ⟨h1, h2, h3⟩ := getColors_spec hd hk
  refine ⟨h1, h2, h3.length_eq.symm, fun i j n m c d hi hj hc hd => ?_⟩
  rw [List.forall₂_iff_get] at h3
  have key : ∀ (i : Nat) (n : String) (c : Color), names[i]? = some n → colors[i]? = some c → h'.names.get? n = some c := by
    intro i n c hi hc
    obtain ⟨li, rfl⟩ := List.getElem?_eq_some_iff.1 hi
    obtain ⟨lc, rfl⟩ := List.getElem?_eq_some_iff.1 hc
    exact h3.2 i li lc
  have k1 := key i n c hi hc
  have k2 := key j m d hj hd
  constructor
  · rintro rfl
    exact h1.1 _ _ _ k1 k2
  · rintro rfl
    rw [k1] at k2
    exact Option.some.inj k2

/-- C155: the holder of colours is empty at first. -/
theorem C155_empty (draws : List Color) : Distinct { draws := draws } := by
  refine ⟨fun n m c h => ?_, fun n c h => ?_⟩ <;> cases h

/-- C155: a colour is found for each name if there are that many different colours. -/
theorem C155_total (h : Colors) (names : List String)
    (hf : names.length ≤ (h.draws.filter (fun c => decide (c ∉ h.used))).dedup.length) :
    ∃ colors h', getColors h names = some (colors, h') := getColors_total names h hf

example : (getColors exColors ["a", "b", "a", "c"]).map Prod.fst =
    some [⟨1, 2, 3⟩, ⟨4, 5, 6⟩, ⟨1, 2, 3⟩, ⟨7, 8, 9⟩] := by decide +kernel

theorem Cl.clusterTitle_inj {a b : Nat} (h : clusterTitle a = clusterTitle b) : a = b := by
  have h1 : Nat.repr a = Nat.repr b := by
    unfold clusterTitle at h
    have := congrArg String.toList h
    rw [String.toList_append, String.toList_append] at this
    exact String.toList_inj.1 (List.append_cancel_left this)
  exact Nat.repr_inj.1 h1

/-- C155: in a data set with labels two rows have the same colour exactly if they have the same label. -/
theorem C155_rows {h h' : Colors} {t : Table} {labels : List Nat} {data : Labeled} (hd : Distinct h)
    (hk : labeledTable h t labels = .ok (data, h')) : data.colors.length = labels.length ∧
    ∀ (i j a b : Nat) (c d : Color), labels[i]? = some a → labels[j]? = some b → data.colors[i]? = some c → data.colors[j]? = some d →
      (c = d ↔ a = b) := by
  obtain ⟨_, _, e⟩ := labeled_ok hk
  obtain ⟨_, _, hl, hc⟩ := C155_colors hd e
  refine ⟨by rw [hl, List.length_map], fun i j a b c d hi hj hci hdj => ?_⟩
  rw [hc i j _ _ c d (by rw [List.getElem?_map, hi]; rfl) (by rw [List.getElem?_map, hj]; rfl) hci hdj]
  exact ⟨clusterTitle_inj, fun e => by rw [e]⟩

/-- C155: with clusters by density the rows of a cluster have the colour of the name of the next cluster, not of the activity that the
instances now have: noise has the colour of the activity of cluster zero. -/
theorem C155_shifted {h h' : Colors} {t : Table} {clusters : List (Option Nat)} {data : Labeled} (hd : Distinct h)
    (hk : labeledTable h t (clusters.map labelOf) = .ok (data, h')) :
    ∀ (i : Nat) (c : Color), data.colors[i]? = some c →
      (clusters[i]? = some none → h'.names.get? "CLUSTER_0" = some c) ∧
      ∀ k, clusters[i]? = some (some k) → h'.names.get? ("CLUSTER_" ++ Nat.repr (k + 1)) = some c ∧
        h'.names.get? ("CLUSTER_" ++ Nat.repr k) ≠ some c := by
  intro i c hc
  obtain ⟨_, _, e⟩ := labeled_ok hk
  obtain ⟨h1, h2, h3⟩ := getColors_spec hd e
  rw [List.forall₂_iff_get] at h3
  have key : ∀ n, ((clusters.map labelOf).map clusterTitle)[i]? = some n → h'.names.get? n = some c := by
    intro n hi
    obtain ⟨li, rfl⟩ := List.getElem?_eq_some_iff.1 hi
    obtain ⟨lc, rfl⟩ := List.getElem?_eq_some_iff.1 hc
    exact h3.2 i li lc
  constructor
  · intro hi
    refine key _ ?_
    rw [List.getElem?_map, List.getElem?_map, hi]
    rfl
  · intro k hi
    have h4 := key (clusterTitle (k + 1)) (by rw [List.getElem?_map, List.getElem?_map, hi]; rfl)
    refine ⟨h4, fun h5 => ?_⟩
    have := clusterTitle_inj (h1.1 _ _ _ h4 h5)
    omega

example : ((clusterByDensity Iter.plain none .subTraces exCluster exColors exTraces 0 exClustered).toOption.map
    (fun r => (r.2.1.colors, r.2.2.names.get? "CLUSTER_0"))) = some ([⟨1, 2, 3⟩, ⟨1, 2, 3⟩, ⟨4, 5, 6⟩], some ⟨4, 5, 6⟩) := by
  decide +kernel

/-! ### C156: grid search -/

/-- C156: the search gives the labels of the number of clusters with the greatest score above minus one, of the first of them if
there are more; scores that are not numbers are left out; there is an error if there is none. -/
theorem C156_search {E : Type} [HasName E] {it : Iter} {find : Option (String → Option (Option Match))} {source : ActivitySource}
    {fit : List (List ℚ) → Nat → List Nat} {score : List (List ℚ) → List Nat → Option (Option ℚ)} {h : Colors}
    {log : List (List (Nested E))} {level : Nat} {instances : List (List Held)} {t : Table} {nodes : List RNode}
    (ht : activitiesTable it find source log level instances = .ok (t, nodes))
    (hs : ∀ k, 2 ≤ k → k < nodes.length → score t.values (fit t.values k) ≠ none) :
    ((∀ k s, 2 ≤ k → k < nodes.length → score t.values (fit t.values k) = some (some s) → s ≤ -1) ∧
      clusterByGrid it find source fit score h log level instances = .error .noLabels) ∨
    ∃ k s, 2 ≤ k ∧ k < nodes.length ∧ score t.values (fit t.values k) = some (some s) ∧ -1 < s ∧
      (∀ k' s', 2 ≤ k' → k' < nodes.length → score t.values (fit t.values k') = some (some s') → s' ≤ s ∧ (k' < k → s' < s)) ∧
      clusterByGrid it find source fit score h log level instances =
        clusterByMeans it find source (fun rows => fit rows k) h log level instances := by
  have hmem : ∀ k, k ∈ List.range' 2 (nodes.length - 2) ↔ 2 ≤ k ∧ k < nodes.length := by
    intro k
    rw [List.mem_range'_1]
    omega
  have e0 : clusterByGrid it find source fit score h log level instances =
      (searchGrid (fit t.values) (score t.values) (List.range' 2 (nodes.length - 2)) (-1) none >>= fun o =>
        match o with
        | none => throw .noLabels
        | some labels => do
          let merged ← orPanic (mergeActivities it (log.map List.length) instances nodes (labels.map some))
          return (merged, ← labeledTable h t labels)) := by
    unfold clusterByGrid
    rw [ht]
    rfl
  rcases searchGrid_spec (fit t.values) (score t.values) (List.range' 2 (nodes.length - 2)) (-1) none
    (fun k hk => hs k ((hmem k).1 hk).1 ((hmem k).1 hk).2) with ⟨e1, e2⟩ | ⟨before, k, after, s, e1, e2, e3, e4, e5, e6⟩
  · refine .inl ⟨fun k s h1 h2 h3 => e2 k ((hmem k).2 ⟨h1, h2⟩) s h3, ?_⟩
    rw [e0, e1]
    rfl
  · have hk := (hmem k).1 (by rw [e1]; simp)
    refine .inr ⟨k, s, hk.1, hk.2, e2, e3, fun k' s' h1 h2 h3 => ?_, ?_⟩
    · have hin := (hmem k').2 ⟨h1, h2⟩
      have hsorted : (List.range' 2 (nodes.length - 2)).Pairwise (· < ·) := List.pairwise_lt_range'
      rw [e1] at hin hsorted
      rw [List.pairwise_append, List.pairwise_cons] at hsorted
      rcases List.mem_append.1 hin with hb | hb
      · have := e5 k' hb s' h3
        exact ⟨this.le, fun _ => this⟩
      · rcases List.mem_cons.1 hb with rfl | ha
        · rw [e2] at h3
          cases h3
          exact ⟨le_rfl, fun hlt => absurd hlt (lt_irrefl _)⟩
        · refine ⟨e6 k' ha s' h3, fun hlt => ?_⟩
          have := hsorted.2.1.1 k' ha
          omega
    · rw [e0, e4]
      unfold clusterByMeans
      rw [ht]
      rfl

/-- C156: with fewer than three activities there is always an error. -/
theorem C156_few {E : Type} [HasName E] {it : Iter} {find : Option (String → Option (Option Match))} {source : ActivitySource}
    (fit : List (List ℚ) → Nat → List Nat) (score : List (List ℚ) → List Nat → Option (Option ℚ)) (h : Colors)
    {log : List (List (Nested E))} {level : Nat} {instances : List (List Held)} {t : Table} {nodes : List RNode}
    (ht : activitiesTable it find source log level instances = .ok (t, nodes)) (hl : nodes.length < 3) :
    clusterByGrid it find source fit score h log level instances = .error .noLabels := by
  rcases C156_search (fit := fit) (score := score) (h := h) ht (by intro k h1 h2; omega) with ⟨_, e⟩ | ⟨k, _, h1, h2, _⟩
  · exact e
  · omega

/-- C156: if a score cannot be computed, there is an error, although other numbers of clusters may have a score. -/
theorem C156_no_score {E : Type} [HasName E] {it : Iter} {find : Option (String → Option (Option Match))} {source : ActivitySource}
    {fit : List (List ℚ) → Nat → List Nat} {score : List (List ℚ) → List Nat → Option (Option ℚ)} (h : Colors)
    {log : List (List (Nested E))} {level : Nat} {instances : List (List Held)} {t : Table} {nodes : List RNode}
    (ht : activitiesTable it find source log level instances = .ok (t, nodes))
    (hs : ∃ k, 2 ≤ k ∧ k < nodes.length ∧ score t.values (fit t.values k) = none) :
    clusterByGrid it find source fit score h log level instances = .error .noScore := by
  obtain ⟨k, h1, h2, e⟩ := hs
  unfold clusterByGrid
  rw [ht]
  have := searchGrid_error (fit t.values) (score t.values) (List.range' 2 (nodes.length - 2)) (-1) none
    ⟨k, by rw [List.mem_range'_1]; omega, e⟩
  show (searchGrid (fit t.values) (score t.values) (List.range' 2 (nodes.length - 2)) (-1) none >>= _) = _
  rw [this]
  rfl

example : ((clusterByGrid Iter.plain none .subTraces (fun rows k => (List.range rows.length).map (fun i => i % k))
    (fun _ labels => some (some labels.length)) exColors exTraces 0 exClustered).toOption.map (fun r => r.2.1.labels)) =
    some [0, 1, 0] := by decide +kernel

end Ficus.Rs
