import Verif.Spec.Classes
import Verif.Proofs.Split
import Verif.Proofs.Info
import Verif.Proofs.Text
import Verif.Props.Abstraction

/-! Properties C38, C39, C53, C54, C55: class tree, logs per activity, promotion, levels and activity names. -/

namespace Ficus
open Spec
variable {E : Type}

/-! ### C38 -/

theorem classLeavesL_eq (l : List ClassNode) : classLeavesL l = l.flatMap classLeaves := by
  induction l with
  | nil => rfl
  | cons t ts ih => simp [classLeavesL, ih]

theorem classLeaves_of_children (n : ClassNode) (h : n.children ≠ []) : classLeaves n = classLeavesL n.children := by
  cases n with
  | node a cs =>
    cases cs with
    | nil => exact absurd rfl h
    | cons c cs => simp [classLeaves, classLeavesL, ClassNode.children]

theorem classLayer_eq (f : String → String) (layer : List ClassNode) :
    classLayer f layer = (groupAll (fun n : ClassNode => f n.name) layer).map (fun kv => .node kv.1 kv.2) := rfl

/-- What holds of a layer. -/
structure LayerOk (names : List String) (fs : List (String → String)) (layer : List ClassNode) : Prop where
  distinct : (layer.map ClassNode.name).Nodup
  mirrors : ∀ n ∈ layer, Mirrors fs n
  leaves : (classLeavesL layer).Perm names

theorem layerOk_step (names : List String) (fs : List (String → String)) (layer : List ClassNode)
    (h : LayerOk names fs layer) (f : String → String) : LayerOk names (f :: fs) (classLayer f layer) := by
  rw [classLayer_eq]
  have hgr := groupAll_grouped (fun n : ClassNode => f n.name) layer
  have hmem : ∀ kv ∈ groupAll (fun n : ClassNode => f n.name) layer,
      kv.2 = layer.filter (fun n => decide (f n.name = kv.1)) ∧ kv.2 ≠ [] := fun kv hkv =>
    (groupAll_mem (fun n : ClassNode => f n.name) layer kv.1 kv.2).1 hkv
  refine ⟨?_, ?_, ?_⟩
  · have := groupAll_wf (fun n : ClassNode => f n.name) layer
    rw [List.map_map]
    exact this
  · intro n hn
    obtain ⟨kv, hkv, rfl⟩ := List.mem_map.1 hn
    obtain ⟨h1, h2⟩ := hmem kv hkv
    refine ⟨h2, ?_⟩
    intro c hc
    simp only [ClassNode.children] at hc
    rw [h1, List.mem_filter] at hc
    exact ⟨of_decide_eq_true hc.2, h.mirrors c hc.1⟩
  · refine List.Perm.trans ?_ h.leaves
    have hp := hgr.perm
    have he : classLeavesL ((groupAll (fun n : ClassNode => f n.name) layer).map (fun kv => .node kv.1 kv.2)) =
        classLeavesL ((groupAll (fun n : ClassNode => f n.name) layer).map Prod.snd).flatten := by
      rw [classLeavesL_eq, classLeavesL_eq, List.flatMap_map, List.flatten_eq_flatMap, List.flatMap_assoc,
        List.flatMap_map]
      apply List.flatMap_congr
      intro kv hkv
      rw [classLeaves_of_children (.node kv.1 kv.2) (hmem kv hkv).2, classLeavesL_eq]
      rfl
    rw [he, classLeavesL_eq, classLeavesL_eq]
    exact hp.flatMap_right _

theorem layerOk_all (names : List String) (extractors : List (String → String)) (layer : List ClassNode)
    (fs : List (String → String)) (h : LayerOk names fs layer) :
    LayerOk names (extractors.reverse ++ fs) (extractors.foldl (fun layer f => classLayer f layer) layer) := by
  induction extractors generalizing layer fs with
  | nil => exact h
  | cons f rest ih =>
    have := ih (classLayer f layer) (f :: fs) (layerOk_step names fs layer h f)
    simpa using this

theorem eventsCount_keys [HasName E] (log : Log E) :
    (createLogInformation log).eventsCount.keys.Nodup ∧
      ∀ n, n ∈ (createLogInformation log).eventsCount.keys ↔ n ∈ log.names.flatten := by
  rw [createLogInformation_eq]
  refine ⟨counter_WF _, ?_⟩
  intro n
  rw [mem_counter_keys, keptNames_eq]
  simp [Log.names, kept]

theorem layerOk_base (names : List String) (h : names.Nodup) :
    LayerOk names [] (names.map (fun n => ClassNode.node n [])) := by
  refine ⟨by simpa [List.map_map, Function.comp_def, ClassNode.name] using h, ?_, ?_⟩
  · intro n hn
    obtain ⟨x, _, rfl⟩ := List.mem_map.1 hn
    rfl
  · rw [classLeavesL_eq, List.flatMap_map]
    simp [classLeaves]

/-- C38a: whatever the iteration order of the set of names, every tree of the result mirrors the extractors: children
are mapped to their parent by the extractor of the layer and class nodes have children; different roots have different
names; and the leaves are the distinct event names of the log, each exactly once. -/
theorem C38_tree_mirrors_extractors [HasName E] (setOrder : List String → List String) (hso : ∀ l, (setOrder l).Perm l)
    (log : Log E) (extractors : List (String → String)) :
    (∀ n ∈ buildClassTree setOrder log extractors, Mirrors extractors.reverse n) ∧
    ((buildClassTree setOrder log extractors).map ClassNode.name).Nodup ∧
    (classLeavesL (buildClassTree setOrder log extractors)).Nodup ∧
    ∀ n, n ∈ classLeavesL (buildClassTree setOrder log extractors) ↔ n ∈ log.names.flatten := by
  obtain ⟨hk, hm⟩ := eventsCount_keys log
  have hp := hso (createLogInformation log).eventsCount.keys
  have h := layerOk_all _ extractors _ [] (layerOk_base _ (hp.nodup_iff.2 hk))
  rw [List.append_nil] at h
  refine ⟨h.mirrors, h.distinct, h.leaves.nodup_iff.2 (hp.nodup_iff.2 hk), ?_⟩
  intro n
  rw [← hm]
  exact (h.leaves.mem_iff).trans hp.mem_iff

theorem mirrors_leaf (fs : List (String → String)) (n : ClassNode) (h : Mirrors fs n) (x : String)
    (hx : x ∈ classLeaves n) : fs.reverse.foldl (fun y f => f y) x = n.name := by
  induction fs generalizing n with
  | nil =>
    cases n with
    | node a cs =>
      have : cs = [] := h
      subst this
      simpa [classLeaves, ClassNode.name] using hx
  | cons f fs ih =>
    rw [classLeaves_of_children n h.1, classLeavesL_eq] at hx
    obtain ⟨c, hc, hx⟩ := List.mem_flatMap.1 hx
    have hfc := h.2 c hc
    rw [List.reverse_cons, List.foldl_append, ih c hfc.2 hx]
    exact hfc.1

/-- C38b: the extractors, applied one after the other to the name of a leaf, give the name of its root. -/
theorem C38_leaf_belongs_to_its_root [HasName E] (setOrder : List String → List String)
    (hso : ∀ l, (setOrder l).Perm l) (log : Log E) (extractors : List (String → String)) (r : ClassNode)
    (hr : r ∈ buildClassTree setOrder log extractors) (x : String) (hx : x ∈ classLeaves r) :
    extractors.foldl (fun y f => f y) x = r.name := by
  have h := (C38_tree_mirrors_extractors setOrder hso log extractors).1 r hr
  have := mirrors_leaf _ r h x hx
  rwa [List.reverse_reverse] at this

/-! ### C39 -/

theorem processTrace_activities {S : Type} (n : Nat) (insts : List Instance) (f : Instance → S → Except PyErr S)
    (st : S) (index : Nat) :
    processTraceLoop n (fun _ _ d => .ok d) f index insts st = insts.foldlM (fun st i => f i st) st := by
  induction insts generalizing index st with
  | nil => unfold processTraceLoop; split <;> rfl
  | cons i is ih =>
    unfold processTraceLoop
    rw [List.foldlM_cons]
    simp only [ite_self, bind, Except.bind]
    cases f i st with
    | error e => rfl
    | ok st' => exact ih st' _

theorem foldlM_flatMap {A B S : Type} (l : List A) (g : A → List B) (f : S → B → Except PyErr S) (st : S) :
    (l.flatMap g).foldlM f st = l.foldlM (fun st a => (g a).foldlM f st) st := by
  induction l generalizing st with
  | nil => rfl
  | cons a l ih =>
    rw [List.flatMap_cons, List.foldlM_append, List.foldlM_cons]
    congr 1
    funext st'
    exact ih st'

theorem createLogsWith_eq {T : Type} (creator : List E → Instance → Except PyErr (Option T)) (log : Log E)
    (insts : List (List Instance)) :
    createLogsWith creator log insts =
      (located log insts).foldlM (fun d p => handleActivity creator p.1 p.2 d) [] := by
  unfold createLogsWith located processTrace
  rw [foldlM_flatMap]
  congr 1
  funext d p
  rw [processTrace_activities, List.foldlM_map]

/-- The pairs of name and trace that a successful run files, in order. -/
theorem handle_fold {T : Type} (creator : List E → Instance → Except PyErr (Option T))
    (g : List E → Instance → Option T) (ls : List (List E × Instance))
    (hg : ∀ p ∈ ls, creator p.1 p.2 = .ok (g p.1 p.2)) (d : Dict String (List T)) :
    ls.foldlM (fun d p => handleActivity creator p.1 p.2 d) d =
      .ok ((ls.filterMap (fun p => (g p.1 p.2).map (fun tr => (p.2.node.act.name, tr)))).foldl
        (fun d q => groupInto d q.1 q.2) d) := by
  induction ls generalizing d with
  | nil => rfl
  | cons p ls ih =>
    rw [List.foldlM_cons]
    have hh : handleActivity creator p.1 p.2 d = .ok (match g p.1 p.2 with
        | none => d
        | some tr => groupInto d p.2.node.act.name tr) := by
      unfold handleActivity
      rw [hg p (by simp)]
      cases g p.1 p.2 <;> rfl
    rw [hh]
    refine (ih (fun q hq => hg q (by simp [hq])) _).trans ?_
    rw [List.filterMap_cons]
    cases g p.1 p.2 <;> rfl

theorem groupPairs_get? {T : Type} (qs : List (String × T)) (d : Dict String (List T)) (k : String) :
    Dict.get? (qs.foldl (fun d q => groupInto d q.1 q.2) d) k =
      if qs.filter (fun q => decide (q.1 = k)) = [] then Dict.get? d k
      else some ((Dict.get? d k).getD [] ++ (qs.filter (fun q => decide (q.1 = k))).map Prod.snd) := by
  induction qs generalizing d with
  | nil => simp
  | cons q qs ih =>
    rw [List.foldl_cons, ih, groupInto_get?]
    by_cases h : q.1 = k
    · have hf : (q :: qs).filter (fun q => decide (q.1 = k)) = q :: qs.filter (fun q => decide (q.1 = k)) := by simp [h]
      rw [hf, if_pos h, if_neg (List.cons_ne_nil _ _), h]
      by_cases h2 : qs.filter (fun q => decide (q.1 = k)) = []
      · rw [if_pos h2, h2]; simp
      · rw [if_neg h2]; simp
    · have hf : (q :: qs).filter (fun q => decide (q.1 = k)) = qs.filter (fun q => decide (q.1 = k)) := by simp [h]
      rw [hf, if_neg h]

theorem groupPairs_wf {T : Type} (qs : List (String × T)) (d : Dict String (List T)) (h : d.WF) :
    Dict.WF (qs.foldl (fun d q => groupInto d q.1 q.2) d) := by
  induction qs generalizing d with
  | nil => exact h
  | cons q qs ih => exact ih _ (groupInto_wf h _ _)

theorem createLogsWith_spec {T : Type} (creator : List E → Instance → Except PyErr (Option T))
    (g : List E → Instance → Option T) (log : Log E) (insts : List (List Instance))
    (hg : ∀ p ∈ located log insts, creator p.1 p.2 = .ok (g p.1 p.2)) :
    ∃ d, createLogsWith creator log insts = .ok d ∧ d.WF ∧ ∀ k,
      let traces := ((located log insts).filter (fun p => decide (p.2.node.act.name = k))).filterMap
        (fun p => g p.1 p.2)
      d.get? k = if traces = [] then none else some traces := by
  refine ⟨_, by rw [createLogsWith_eq, handle_fold creator g _ hg], groupPairs_wf _ _ (by simp [Dict.WF, Dict.keys]), ?_⟩
  intro k
  simp only
  rw [groupPairs_get?]
  have : (((located log insts).filterMap (fun p => (g p.1 p.2).map (fun tr => (p.2.node.act.name, tr)))).filter
      (fun q => decide (q.1 = k))).map Prod.snd =
      ((located log insts).filter (fun p => decide (p.2.node.act.name = k))).filterMap (fun p => g p.1 p.2) := by
    induction located log insts with
    | nil => rfl
    | cons p ls ih =>
      rw [List.filterMap_cons, List.filter_cons]
      cases hgp : g p.1 p.2 with
      | none =>
        simp only [Option.map_none]
        rw [ih]
        split
        · rw [List.filterMap_cons, hgp]
        · rfl
      | some tr =>
        simp only [Option.map_some, List.filter_cons]
        by_cases h : p.2.node.act.name = k
        · simp [h, ih, hgp]
        · simp [h, ih]
  rw [← this]
  cases hq : ((located log insts).filterMap (fun p => (g p.1 p.2).map (fun tr => (p.2.node.act.name, tr)))).filter
      (fun q => decide (q.1 = k)) with
  | nil => simp
  | cons a b => simp

/-- C39: the logs per activity always exist. The log of a name has exactly one trace per instance of the requested level
with that name, in the order of the log, holding the events of the instance renamed by the extractor; a name without
such instances has no log. -/
theorem C39_logs_partition_instances [Renamable E] (log : Log E) (insts : List (List Instance)) (level : Nat)
    (ext : E → String) :
    ∃ d, createLogsForActivities log insts level ext = .ok d ∧ d.WF ∧ ∀ k,
      let chosen := (located log insts).filter (fun p => decide (p.2.node.act.name = k ∧ p.2.node.act.level = level))
      d.get? k = if chosen = [] then none
        else some (chosen.map (fun p => (eventsOf p).map (fun e => rename e (ext e)))) := by
  obtain ⟨d, h1, h2, h3⟩ := createLogsWith_spec (levelCreator level ext)
    (fun t i => if i.node.act.level ≠ level then none else some (createTraceForActivity t i ext)) log insts
    (fun p _ => rfl)
  refine ⟨d, h1, h2, ?_⟩
  intro k
  have h := h3 k
  simp only at h ⊢
  have he : ((located log insts).filter (fun p => decide (p.2.node.act.name = k))).filterMap
      (fun p => if p.2.node.act.level ≠ level then none else some (createTraceForActivity p.1 p.2 ext)) =
      ((located log insts).filter (fun p => decide (p.2.node.act.name = k ∧ p.2.node.act.level = level))).map
        (fun p => (eventsOf p).map (fun e => rename e (ext e))) := by
    induction located log insts with
    | nil => rfl
    | cons p ls ih =>
      by_cases hn : p.2.node.act.name = k
      · by_cases hl : p.2.node.act.level = level
        · rw [List.filter_cons, List.filter_cons, if_pos (by simp [hn]), if_pos (by simp [hn, hl]),
            List.filterMap_cons, ih]
          simp [hl, createTraceForActivity, eventsOf, slice]
        · rw [List.filter_cons, List.filter_cons, if_pos (by simp [hn]), if_neg (by simp [hl]),
            List.filterMap_cons, ih]
          simp [hl]
      · rw [List.filter_cons, List.filter_cons, if_neg (by simp [hn]), if_neg (by simp [hn]), ih]
  rw [he] at h
  rw [h]
  cases (located log insts).filter (fun p => decide (p.2.node.act.name = k ∧ p.2.node.act.level = level)) with
  | nil => simp
  | cons a b => simp

/-! ### C53 -/

theorem renameAll_fold [Renamable E] [LawfulRename E] (exts : List (E → String)) (h : Hierarchical exts)
    (top : E → String) (ht : exts.getLast? = some top) (es : List E) :
    exts.foldl (fun es f => es.map (fun e => rename e (f e))) es = es.map (fun e => rename e (top e)) := by
  induction exts generalizing es with
  | nil => simp at ht
  | cons f rest ih =>
    cases rest with
    | nil =>
      have : f = top := by simpa using ht
      subst this
      rfl
    | cons g rest =>
      have ht' : (g :: rest).getLast? = some top := by simpa using ht
      have hp := List.pairwise_cons.1 h
      rw [List.foldl_cons, ih hp.2 ht', List.map_map]
      apply List.map_congr_left
      intro e _
      have := hp.1 top (List.mem_of_getLast? ht') e
      simp only [Function.comp, LawfulRename.rename_rename, this]

theorem promoteCreator_eq [Renamable E] [LawfulRename E] (log : Log E) (desired : Nat) (exts : List (E → String))
    (hlen : exts.length = desired + 1) (hh : Hierarchical exts) (top : E → String) (ht : exts[desired]? = some top)
    (adjust : Bool) (p : List E × Instance)
    (hp : p.2.node.act.level < desired → p.2.node.act.repeatSet.traceIndex < log.traces.length) :
    promoteCreator log desired exts adjust p.1 p.2 =
      .ok (if Promoted log desired top p then
        some ((eventsOf p).map (fun e => if adjust then rename e (top e) else e)) else none) := by
  unfold promoteCreator
  rw [ht]
  by_cases hgt : p.2.node.act.level > desired
  · rw [if_pos hgt, if_neg]
    rintro (h | h)
    · omega
    · omega
  · rw [if_neg hgt]
    simp only
    by_cases heq : p.2.node.act.level = desired
    · rw [if_pos heq, if_pos (show Promoted log desired top p from Or.inl heq)]
      cases adjust with
      | true => rfl
      | false =>
        simp only [createTraceForActivity, Bool.false_eq_true, if_false, LawfulRename.rename_name]
        rfl
    · rw [if_neg heq]
      have hlt : p.2.node.act.level < desired := by omega
      have hti := hp hlt
      rw [List.getElem?_eq_getElem hti]
      simp only
      have hsl : slice exts p.2.node.act.level (desired + 1 - p.2.node.act.level) =
          exts.drop p.2.node.act.level := by
        unfold slice
        rw [List.take_of_length_le]
        simp [hlen]
      have hlast : (exts.drop p.2.node.act.level).getLast? = some top := by
        rw [List.getLast?_drop, if_neg (by omega), List.getLast?_eq_getElem?, hlen]
        exact ht
      have hrep : slice log.traces[p.2.node.act.repeatSet.traceIndex].events p.2.node.act.repeatSet.firstPos
          p.2.node.act.repeatSet.length = repeatEvents log p.2.node.act := by
        unfold repeatEvents slice
        rw [List.getElem?_map, List.getElem?_eq_getElem hti]
        rfl
      have hcopy := renameAll_fold _ (List.Pairwise.sublist (List.drop_sublist p.2.node.act.level exts) hh) top hlast
        (eventsOf p)
      have hev : slice p.1 p.2.startPos p.2.length = eventsOf p := rfl
      rw [hsl, hrep, hev, hcopy]
      have hn : ((eventsOf p).map (fun e => rename e (top e))).map name = (eventsOf p).map top := by
        rw [List.map_map]
        apply List.map_congr_left
        intro e _
        exact LawfulRename.name_rename e (top e)
      rw [hn]
      by_cases hs : SameClasses top (eventsOf p) (repeatEvents log p.2.node.act)
      · rw [if_pos (show Promoted log desired top p from Or.inr ⟨hlt, hs⟩), if_pos]
        · cases adjust <;> simp
        · rw [Bool.and_eq_true, List.all_eq_true, List.all_eq_true]
          exact ⟨fun c hc => decide_eq_true (hs.2 c hc), fun c hc => decide_eq_true (hs.1 c hc)⟩
      · rw [if_neg (show ¬ Promoted log desired top p from ?_), if_neg]
        · intro hc
          rw [Bool.and_eq_true, List.all_eq_true, List.all_eq_true] at hc
          exact hs ⟨fun c h => of_decide_eq_true (hc.2 c h), fun c h => of_decide_eq_true (hc.1 c h)⟩
        · rintro (h | h)
          · exact heq h
          · exact hs h.2

/-- C53a: with hierarchical extractors, one per level, and repeat sets inside the log, the log of a name holds exactly
the instances with that name that are of the desired level or of a lower level with the same top level classes as the
repeat set of their activity; the events carry their top level class exactly when adjusting is asked for. -/
theorem C53_promotion_exact [Renamable E] [LawfulRename E] (log : Log E) (insts : List (List Instance)) (desired : Nat)
    (exts : List (E → String)) (hlen : exts.length = desired + 1) (hh : Hierarchical exts) (top : E → String)
    (ht : exts[desired]? = some top) (adjust : Bool)
    (hfit : ∀ p ∈ located log insts, p.2.node.act.level < desired →
      p.2.node.act.repeatSet.traceIndex < log.traces.length) :
    ∃ d, createLogsWithPromote log insts desired exts adjust = .ok d ∧ d.WF ∧ ∀ k,
      let chosen := (located log insts).filter (fun p => decide (p.2.node.act.name = k ∧ Promoted log desired top p))
      d.get? k = if chosen = [] then none
        else some (chosen.map (fun p => (eventsOf p).map (fun e => if adjust then rename e (top e) else e))) := by
  obtain ⟨d, h1, h2, h3⟩ := createLogsWith_spec (promoteCreator log desired exts adjust)
    (fun t i => if Promoted log desired top (t, i) then
        some ((eventsOf (t, i)).map (fun e => if adjust then rename e (top e) else e)) else none) log insts
    (fun p hp => promoteCreator_eq log desired exts hlen hh top ht adjust p (hfit p hp))
  refine ⟨d, ?_, h2, ?_⟩
  · unfold createLogsWithPromote
    rw [if_neg (by simp [hlen]), h1]
  intro k
  have h := h3 k
  simp only at h ⊢
  have he : ((located log insts).filter (fun p => decide (p.2.node.act.name = k))).filterMap
      (fun p => if Promoted log desired top (p.1, p.2) then
        some ((eventsOf (p.1, p.2)).map (fun e => if adjust then rename e (top e) else e)) else none) =
      ((located log insts).filter (fun p => decide (p.2.node.act.name = k ∧ Promoted log desired top p))).map
        (fun p => (eventsOf p).map (fun e => if adjust then rename e (top e) else e)) := by
    induction located log insts with
    | nil => rfl
    | cons p ls ih =>
      by_cases hn : p.2.node.act.name = k
      · by_cases hl : Promoted log desired top p
        · rw [List.filter_cons, List.filter_cons, if_pos (by simp [hn]), if_pos (by simp [hn, hl]),
            List.filterMap_cons, ih]
          simp [hl]
        · rw [List.filter_cons, List.filter_cons, if_pos (by simp [hn]), if_neg (by simp [hl]),
            List.filterMap_cons, ih]
          simp [hl]
      · rw [List.filter_cons, List.filter_cons, if_neg (by simp [hn]), if_neg (by simp [hn]), ih]
  rw [he] at h
  rw [h]
  cases (located log insts).filter (fun p => decide (p.2.node.act.name = k ∧ Promoted log desired top p)) with
  | nil => simp
  | cons a b => simp

/-- C53b: any other number of extractors fails. -/
theorem C53_wrong_number_of_extractors [Renamable E] (log : Log E) (insts : List (List Instance)) (desired : Nat)
    (exts : List (E → String)) (hlen : exts.length ≠ desired + 1) (adjust : Bool) :
    createLogsWithPromote log insts desired exts adjust = .error .assertionError := if_pos hlen

/-! ### C54 -/

theorem splitByLevelsDict_eq (acts : List Activity) : splitByLevelsDict acts = groupAll Activity.level acts := rfl

/-- C54a: the split by level lists the levels that occur in strictly ascending order, each with all its activities in
their original order. -/
theorem C54_split_by_level (acts : List Activity) :
    (splitByLevel acts).Pairwise (fun p q => p.1 < q.1) ∧
    ∀ l g, (l, g) ∈ splitByLevel acts ↔ g = acts.filter (fun a => decide (a.level = l)) ∧ g ≠ [] := by
  have hperm := List.perm_insertionSort (fun a b : Nat × List Activity => a.1 ≤ b.1) (splitByLevelsDict acts)
  have : Std.Total (fun a b : Nat × List Activity => a.1 ≤ b.1) := ⟨fun a b => Nat.le_total a.1 b.1⟩
  have : IsTrans (Nat × List Activity) (fun a b => a.1 ≤ b.1) := ⟨fun a b c => Nat.le_trans⟩
  have hsort := List.pairwise_insertionSort (fun a b : Nat × List Activity => a.1 ≤ b.1) (splitByLevelsDict acts)
  have hwf := groupAll_wf Activity.level acts
  refine ⟨?_, ?_⟩
  · have hnd : ((splitByLevel acts).map Prod.fst).Nodup := (hperm.map Prod.fst).nodup_iff.2 hwf
    have hne : (splitByLevel acts).Pairwise (fun p q => p.1 ≠ q.1) := List.pairwise_map.1 hnd
    refine List.Pairwise.imp₂ (fun a b h1 h2 => ?_) hsort hne
    omega
  · intro l g
    unfold splitByLevel
    rw [hperm.mem_iff, splitByLevelsDict_eq]
    exact groupAll_mem Activity.level acts l g

/-- C54b: asking for a level gives its activities in their original order, and a KeyError when there are none. -/
theorem C54_activities_for_level (acts : List Activity) (level : Nat) :
    activitiesForLevel acts level =
      if ∃ a ∈ acts, a.level = level then .ok (acts.filter (fun a => decide (a.level = level))) else .error .keyError := by
  unfold activitiesForLevel Dict.getE
  rw [splitByLevelsDict_eq, groupAll_get?]
  by_cases h : ∃ a ∈ acts, a.level = level
  · rw [if_pos h, if_neg]
    intro hc
    obtain ⟨a, ha, hl⟩ := h
    have := List.filter_eq_nil_iff.1 hc a ha
    simp [hl] at this
  · rw [if_neg h, if_pos]
    rw [List.filter_eq_nil_iff]
    intro a ha
    simp only [decide_eq_true_eq]
    exact fun hl => h ⟨a, ha, hl⟩

/-- C54c: selecting a level keeps the traces and, in each, exactly the instances of that level in their order. -/
theorem C54_select_level (insts : List (List Instance)) (level : Nat) :
    List.Forall₂ (fun is r => r.Sublist is ∧ ∀ i, i ∈ r ↔ i ∈ is ∧ i.node.act.level = level) insts
      (selectInstancesOfLevel insts level) := by
  unfold selectInstancesOfLevel
  rw [List.forall₂_map_right_iff, List.forall₂_same]
  intro is _
  exact ⟨List.filter_sublist, fun i => by simp⟩

/-! ### C55 -/

theorem sortedClasses_congr (a b : List String) (h : ∀ c, c ∈ a ↔ c ∈ b) :
    a.dedup.insertionSort (fun a b => a ≤ b) = b.dedup.insertionSort (fun a b => a ≤ b) := by
  have hp : a.dedup.Perm b.dedup := by
    rw [List.perm_ext_iff_of_nodup (List.nodup_dedup a) (List.nodup_dedup b)]
    intro c
    rw [List.mem_dedup, List.mem_dedup, h]
  refine List.Perm.eq_of_pairwise (fun x y _ _ => String.le_antisymm) (List.pairwise_insertionSort _ _)
    (List.pairwise_insertionSort _ _) ?_
  exact (List.perm_insertionSort _ _).trans (hp.trans (List.perm_insertionSort _ _).symm)

/-- C55a: the name of an activity depends on nothing but the set of the classes of its events. -/
theorem C55_name_depends_on_classes (t t' : List E) (s s' : SubArray) (ext ext' : E → String)
    (h : ∀ c, c ∈ ((t.drop s.firstPos).take s.length).map ext ↔ c ∈ ((t'.drop s'.firstPos).take s'.length).map ext') :
    activityNameFromTrace t s ext = activityNameFromTrace t' s' ext' := by
  unfold activityNameFromTrace slice
  rw [sortedClasses_congr _ _ h]

/-- C55b: two non-empty repeats with the same name have the same set of classes, provided that no class contains "::"
or ends with ":". -/
theorem C55_names_distinguish_classes (t t' : List E) (s s' : SubArray) (ext ext' : E → String)
    (hne : (t.drop s.firstPos).take s.length ≠ []) (hne' : (t'.drop s'.firstPos).take s'.length ≠ [])
    (hp : ∀ e ∈ (t.drop s.firstPos).take s.length, PlainClass (ext e))
    (hp' : ∀ e ∈ (t'.drop s'.firstPos).take s'.length, PlainClass (ext' e))
    (h : activityNameFromTrace t s ext = activityNameFromTrace t' s' ext') (c : String) :
    c ∈ ((t.drop s.firstPos).take s.length).map ext ↔ c ∈ ((t'.drop s'.firstPos).take s'.length).map ext' := by
  have key : ∀ (t : List E) (s : SubArray) (ext : E → String), (t.drop s.firstPos).take s.length ≠ [] →
      (∀ e ∈ (t.drop s.firstPos).take s.length, PlainClass (ext e)) →
      splitLoop [':', ':'] 0 [] (activityNameFromTrace t s ext).toList =
        ((((t.drop s.firstPos).take s.length).map ext).dedup.insertionSort (fun a b => a ≤ b)).map String.toList := by
    intro t s ext hne hp
    unfold activityNameFromTrace
    rw [String.toList_ofList, ← joinSep_eq_intercalate]
    apply split_join _ (by simp)
    · intro hc
      apply hne
      have h0 := congrArg List.length hc
      rw [List.length_map, List.length_insertionSort] at h0
      have h1 : ((slice t s.firstPos s.length).map ext).dedup = [] := List.length_eq_zero_iff.1 h0
      have h2 : (slice t s.firstPos s.length).map ext = [] := by
        rw [List.eq_nil_iff_forall_not_mem]
        intro x hx
        rw [← List.mem_dedup, h1] at hx
        simp at hx
      exact List.map_eq_nil_iff.1 h2
    · intro x hx
      obtain ⟨y, hy, rfl⟩ := List.mem_map.1 hx
      rw [(List.perm_insertionSort _ _).mem_iff, List.mem_dedup] at hy
      obtain ⟨e, he, rfl⟩ := List.mem_map.1 hy
      exact hp e he
  have h1 := key t s ext hne hp
  rw [h, key t' s' ext' hne' hp'] at h1
  have h2 := List.map_injective_iff.2 (fun a b hab => String.ext hab) h1
  have h3 : ∀ l : List String, c ∈ l ↔ c ∈ l.dedup.insertionSort (fun a b => a ≤ b) := fun l => by
    rw [(List.perm_insertionSort _ _).mem_iff, List.mem_dedup]
  rw [h3, h3 (((t'.drop _).take _).map ext'), h2]

/-- C55c: without that proviso different sets of classes share a name. -/
theorem C55_names_collide : activityNameFromTrace ["a::b"] ⟨0, 1⟩ id = activityNameFromTrace ["a", "b"] ⟨0, 2⟩ id := by
  decide +kernel

/-- C55d: looking the repeat up in the log fails exactly for a trace that does not exist. -/
theorem C55_name_from_log (log : Log E) (r : RepeatSet) (ext : E → String) :
    (∀ t, log.traces[r.traceIndex]? = some t →
      activityNameFromLog log r ext = .ok (activityNameFromTrace t.events ⟨r.firstPos, r.length⟩ ext)) ∧
    (log.traces.length ≤ r.traceIndex → activityNameFromLog log r ext = .error .indexError) := by
  unfold activityNameFromLog
  constructor
  · intro t ht; rw [ht]
  · intro h; rw [List.getElem?_eq_none h]

/-! ### Concrete cases -/

/-- Three event names and two extractors: the first letter, and a constant. -/
def exClassLog : Log String := Log.ofEvs [["a1", "b1", "a2"], ["b1"]]
def exFirst (s : String) : String := String.ofList (s.toList.take 1)
def exOne (_ : String) : String := "*"

example : (buildClassTree id exClassLog [exFirst, exOne]).map ClassNode.name = ["*"] ∧
    (buildClassTree id exClassLog [exFirst]).map ClassNode.name = ["a", "b"] ∧
    classLeavesL (buildClassTree id exClassLog [exFirst, exOne]) = ["a1", "a2", "b1"] := by
  refine ⟨by decide +kernel, by decide +kernel, by decide +kernel⟩

example (r : ClassNode) (hr : r ∈ buildClassTree List.reverse exClassLog [exFirst, exOne]) :
    Mirrors [exOne, exFirst] r ∧ ∀ x ∈ classLeaves r, exOne (exFirst x) = r.name :=
  ⟨(C38_tree_mirrors_extractors List.reverse List.reverse_perm exClassLog [exFirst, exOne]).1 r hr,
    C38_leaf_belongs_to_its_root List.reverse List.reverse_perm exClassLog [exFirst, exOne] r hr⟩

/-- An activity with a level and the repeat set at the given position of the first trace. -/
def exLevelAct (uid : Nat) (nm : String) (level first len : Nat) : Activity :=
  { uid := uid, name := nm, events := [], level := level, repeatSet := ⟨first, len, 0⟩ }

def exLevelInst (nm : String) (level first len start : Nat) : Instance :=
  { node := .node (exLevelAct 0 nm level first len) [], startPos := start, length := len }

def exLevelInsts : List (List Instance) :=
  [[exLevelInst "A" 0 0 1 0, exLevelInst "B" 1 1 1 1, exLevelInst "A" 0 0 1 2], [exLevelInst "B" 1 1 1 0]]

example : createLogsForActivities exClassLog exLevelInsts 0 exFirst = .ok [("A", [["a"], ["a"]])] ∧
    createLogsForActivities exClassLog exLevelInsts 1 exFirst = .ok [("B", [["b"], ["b"]])] ∧
    createLogsForActivities exClassLog exLevelInsts 2 exFirst = .ok [] := by
  refine ⟨by decide +kernel, by decide +kernel, by decide +kernel⟩

theorem exHierarchical : Hierarchical [exFirst, exOne] := by
  simp [Hierarchical, exOne]

example : ∃ d, createLogsWithPromote exClassLog exLevelInsts 1 [exFirst, exOne] true = .ok d ∧
    d.get? "A" = some [["*"], ["*"]] := by
  obtain ⟨d, h, _, hk⟩ := C53_promotion_exact exClassLog exLevelInsts 1 [exFirst, exOne] rfl exHierarchical exOne rfl
    true (by decide +kernel)
  refine ⟨d, h, ?_⟩
  rw [hk "A"]
  decide +kernel

/-- C53c: without the hierarchy an occurrence of the repeat set itself need not be promoted: the instance is renamed by
every extractor in turn, the repeat set by the last one alone. -/
theorem C53_not_hierarchical_not_promoted :
    createLogsWithPromote (Log.ofEvs [["a"]]) [[exLevelInst "A" 0 0 1 0]] 1 [fun _ => "k", fun x => x] true = .ok [] := by
  decide +kernel

example : (splitByLevel [exLevelAct 0 "A" 2 0 1, exLevelAct 1 "B" 0 0 1, exLevelAct 2 "C" 2 0 1]).map
    (fun p => (p.1, p.2.map Activity.name)) = [(0, ["B"]), (2, ["A", "C"])] := by decide +kernel

example : (activitiesForLevel [exLevelAct 0 "A" 2 0 1] 2).map (fun l => l.map Activity.name) = .ok ["A"] ∧
    (activitiesForLevel [exLevelAct 0 "A" 2 0 1] 1).map (fun l => l.map Activity.name) = .error .keyError := by
  refine ⟨by decide +kernel, by decide +kernel⟩

example : activityNameFromTrace ["b", "a", "b"] ⟨0, 3⟩ id = "a::b" ∧
    activityNameFromTrace ["b", "a", "b"] ⟨0, 3⟩ id = activityNameFromTrace ["a", "b"] ⟨0, 2⟩ id ∧
    PlainClass "a" ∧ ¬ PlainClass "a:" := by
  refine ⟨by decide +kernel, C55_name_depends_on_classes _ _ _ _ _ _ (by
    intro c; simp; tauto), by unfold PlainClass; decide +kernel, by unfold PlainClass; decide +kernel⟩

end Ficus
