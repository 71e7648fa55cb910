import Verif.Spec.ClassGraph
import Verif.Props.Classes
import Verif.Props.Nets

/-! Property C108: what the graph of event classes shows. -/

namespace Ficus
open Spec
variable {E : Type}

theorem classNameTrees_eq (l : List ClassNode) : classNameTrees l = l.map classNameTree := by
  induction l with
  | nil => rfl
  | cons t ts ih => simp [classNameTrees, ih]

theorem classNameTree_name (n : ClassNode) : (classNameTree n).name = n.name := by
  cases n; rfl

theorem classNameTree_children (n : ClassNode) : (classNameTree n).children = n.children.map classNameTree := by
  cases n with
  | node a cs => simp [classNameTree, NameTree.children, ClassNode.children, classNameTrees_eq]

theorem forestNodes_flatMap (l : List NameTree) : forestNodes l = l.flatMap treeNodes := by
  induction l with
  | nil => rfl
  | cons t ts ih => simp [forestNodes, ih]

theorem treeNodes_children (t : NameTree) : treeNodes t = t :: forestNodes t.children := by
  cases t; rfl

/-- The nodes below a new layer are the new nodes and those below the layer before. -/
theorem forestNodes_classLayer (f : String → String) (layer : List ClassNode) :
    (forestNodes (classNameTrees (classLayer f layer))).Perm
      (classNameTrees (classLayer f layer) ++ forestNodes (classNameTrees layer)) := by
  rw [forestNodes_flatMap, forestNodes_flatMap, classNameTrees_eq, classNameTrees_eq]
  have h1 : ((classLayer f layer).map classNameTree).flatMap treeNodes =
      ((classLayer f layer).map classNameTree).flatMap (fun t => t :: t.children.flatMap treeNodes) := by
    apply List.flatMap_congr
    intro t _
    rw [treeNodes_children, forestNodes_flatMap]
  rw [h1]
  have h2 : ∀ l : List NameTree, (l.flatMap (fun t => t :: t.children.flatMap treeNodes)).Perm
      (l ++ l.flatMap (fun t => t.children.flatMap treeNodes)) := by
    intro l
    induction l with
    | nil => simp
    | cons a l ih =>
      simp only [List.flatMap_cons, List.cons_append]
      refine List.Perm.cons a ?_
      refine (List.Perm.append_left _ ih).trans ?_
      rw [← List.append_assoc, ← List.append_assoc]
      exact List.Perm.append_right _ List.perm_append_comm
  refine (h2 _).trans (List.Perm.append_left _ ?_)
  have hp := (groupAll_grouped (fun n : ClassNode => f n.name) layer).perm
  rw [classLayer_eq, List.map_map, List.flatMap_map]
  have h3 : (groupAll (fun n : ClassNode => f n.name) layer).flatMap
      (fun kv => (classNameTree (.node kv.1 kv.2)).children.flatMap treeNodes) =
      (((groupAll (fun n : ClassNode => f n.name) layer).map Prod.snd).flatten.map classNameTree).flatMap treeNodes := by
    rw [List.flatten_eq_flatMap, List.flatMap_map, List.flatMap_assoc, List.flatMap_map]
    apply List.flatMap_congr
    intro kv _
    rw [classNameTree_children, List.flatMap_map]
    rfl
  show List.Perm ((groupAll (fun n : ClassNode => f n.name) layer).flatMap
      (fun kv => (classNameTree (.node kv.1 kv.2)).children.flatMap treeNodes)) _
  rw [h3]
  exact (hp.map _).flatMap_right _

theorem parentPairs_perm {F : List NameTree} {a b : List NameTree} (h : (forestNodes F).Perm (a ++ b)) :
    (parentPairs F).Perm
      (a.flatMap (fun p => p.children.map (fun c => (c.name, p.name))) ++
        b.flatMap (fun p => p.children.map (fun c => (c.name, p.name)))) := by
  unfold parentPairs
  refine (h.flatMap_right _).trans ?_
  rw [List.flatMap_append]

/-- The pairs of the new layer: every node of the layer before with its class. -/
theorem newPairs_perm (f : String → String) (layer : List ClassNode) :
    ((classNameTrees (classLayer f layer)).flatMap (fun p => p.children.map (fun c => (c.name, p.name)))).Perm
      (layer.map (fun n => (n.name, f n.name))) := by
  have hp := (groupAll_grouped (fun n : ClassNode => f n.name) layer).perm
  refine List.Perm.trans (List.Perm.of_eq ?_) (hp.map (fun n => (n.name, f n.name)))
  rw [classNameTrees_eq, classLayer_eq, List.map_map, List.flatMap_map, List.flatten_eq_flatMap, List.map_flatMap,
    List.flatMap_map]
  apply List.flatMap_congr
  intro kv hkv
  have := (groupAll_mem (fun n : ClassNode => f n.name) layer kv.1 kv.2).1 hkv
  show (classNameTree (.node kv.1 kv.2)).children.map (fun c => (c.name, (classNameTree (.node kv.1 kv.2)).name)) =
    kv.2.map (fun n => (n.name, f n.name))
  rw [classNameTree_children, classNameTree_name, List.map_map]
  show kv.2.map _ = _
  apply List.map_congr_left
  intro c hc
  rw [this.1, List.mem_filter] at hc
  simp only [Function.comp, classNameTree_name]
  rw [of_decide_eq_true hc.2]
  rfl

theorem classLayer_names (f : String → String) (layer : List ClassNode) :
    ((classLayer f layer).map ClassNode.name).Nodup ∧
    ∀ n, n ∈ (classLayer f layer).map ClassNode.name ↔ ∃ c ∈ layer, n = f c.name := by
  rw [classLayer_eq, List.map_map]
  refine ⟨groupAll_wf (fun n : ClassNode => f n.name) layer, ?_⟩
  intro n
  constructor
  · intro h
    obtain ⟨kv, hkv, rfl⟩ := List.mem_map.1 h
    obtain ⟨h1, h2⟩ := (groupAll_mem (fun n : ClassNode => f n.name) layer kv.1 kv.2).1 hkv
    obtain ⟨c, hc⟩ := List.exists_mem_of_ne_nil _ h2
    rw [h1, List.mem_filter] at hc
    exact ⟨c, hc.1, (of_decide_eq_true hc.2).symm⟩
  · rintro ⟨c, hc, rfl⟩
    refine List.mem_map.2 ⟨(f c.name, layer.filter (fun n => decide (f n.name = f c.name))), ?_, rfl⟩
    refine (groupAll_mem (fun n : ClassNode => f n.name) layer _ _).2 ⟨rfl, ?_⟩
    exact List.ne_nil_of_mem (List.mem_filter.2 ⟨hc, by simp⟩)

theorem classAt_append (gs : List (String → String)) (f : String → String) (k : Nat) (h : k ≤ gs.length) (x : String) :
    classAt (gs ++ [f]) k x = classAt gs k x := by
  unfold classAt
  rw [List.take_append_of_le_length h]

theorem classAt_last (gs : List (String → String)) (f : String → String) (x : String) :
    classAt (gs ++ [f]) (gs.length + 1) x = f (classAt gs gs.length x) := by
  unfold classAt
  rw [List.take_of_length_le (by simp), List.take_of_length_le (by simp), List.foldl_append]
  rfl

/-- What holds of the layers after some extractors. -/
structure LayersOk (names : List String) (gs : List (String → String)) (layer : List ClassNode) : Prop where
  distinct : (layer.map ClassNode.name).Nodup
  top : ∀ n, n ∈ layer.map ClassNode.name ↔ ∃ x ∈ names, n = classAt gs gs.length x
  nodes : ∀ n, n ∈ (forestNodes (classNameTrees layer)).map NameTree.name ↔
    ∃ x ∈ names, ∃ k ≤ gs.length, n = classAt gs k x
  pairs : ∀ c p, (c, p) ∈ parentPairs (classNameTrees layer) ↔
    ∃ x ∈ names, ∃ k < gs.length, c = classAt gs k x ∧ p = classAt gs (k + 1) x
  apart : (∀ x ∈ names, ∀ y ∈ names, ∀ j k, j < k → k ≤ gs.length → classAt gs j x ≠ classAt gs k y) →
    ((forestNodes (classNameTrees layer)).map NameTree.name).Nodup ∧
    ((parentPairs (classNameTrees layer)).map Prod.fst).Nodup

theorem forestNodes_leaves (names : List String) :
    forestNodes (classNameTrees (names.map (fun n => ClassNode.node n []))) = names.map (fun n => NameTree.node n []) := by
  rw [forestNodes_flatMap, classNameTrees_eq, List.map_map, List.flatMap_map]
  induction names with
  | nil => rfl
  | cons a l ih =>
    rw [List.flatMap_cons, ih]
    rfl

theorem layersOk_base (names : List String) (h : names.Nodup) :
    LayersOk names [] (names.map (fun n => ClassNode.node n [])) := by
  have hn : (names.map (fun n => ClassNode.node n [])).map ClassNode.name = names := by
    simp [List.map_map, Function.comp_def, ClassNode.name]
  have hf : (forestNodes (classNameTrees (names.map (fun n => ClassNode.node n [])))).map NameTree.name = names := by
    rw [forestNodes_leaves]; simp [Function.comp_def, NameTree.name]
  have hp : parentPairs (classNameTrees (names.map (fun n => ClassNode.node n []))) = [] := by
    unfold parentPairs
    rw [forestNodes_leaves]
    simp [List.flatMap_map, NameTree.children]
  refine ⟨by rw [hn]; exact h, ?_, ?_, ?_, ?_⟩
  · intro n; rw [hn]; simp [classAt]
  · intro n; rw [hf]; simp [classAt]
  · intro c p; rw [hp]; simp
  · intro _; rw [hf, hp]; exact ⟨h, by simp⟩

theorem layersOk_step (names : List String) (gs : List (String → String)) (layer : List ClassNode)
    (h : LayersOk names gs layer) (f : String → String) : LayersOk names (gs ++ [f]) (classLayer f layer) := by
  obtain ⟨hd, hm⟩ := classLayer_names f layer
  have hperm := forestNodes_classLayer f layer
  have hpairs := (parentPairs_perm hperm).trans (List.Perm.append_right _ (newPairs_perm f layer))
  have hroots : (classNameTrees (classLayer f layer)).map NameTree.name = (classLayer f layer).map ClassNode.name := by
    rw [classNameTrees_eq, List.map_map]
    apply List.map_congr_left
    intro n _
    exact classNameTree_name n
  have htop : ∀ n, n ∈ (classLayer f layer).map ClassNode.name ↔
      ∃ x ∈ names, n = classAt (gs ++ [f]) (gs.length + 1) x := by
    intro n
    rw [hm]
    constructor
    · rintro ⟨c, hc, rfl⟩
      obtain ⟨x, hx, e⟩ := (h.top c.name).1 (List.mem_map_of_mem hc)
      exact ⟨x, hx, by rw [classAt_last, e]⟩
    · rintro ⟨x, hx, rfl⟩
      obtain ⟨c, hc, e⟩ := List.mem_map.1 ((h.top _).2 ⟨x, hx, rfl⟩)
      exact ⟨c, hc, by rw [classAt_last, e]⟩
  have hlen : (gs ++ [f]).length = gs.length + 1 := by simp
  refine ⟨hd, by rw [hlen]; exact htop, ?_, ?_, ?_⟩
  · intro n
    rw [(hperm.map NameTree.name).mem_iff, List.map_append, List.mem_append, hroots, htop, h.nodes, hlen]
    constructor
    · rintro (⟨x, hx, e⟩ | ⟨x, hx, k, hk, e⟩)
      · exact ⟨x, hx, _, le_refl _, e⟩
      · exact ⟨x, hx, k, by omega, by rw [classAt_append _ _ _ hk]; exact e⟩
    · rintro ⟨x, hx, k, hk, e⟩
      by_cases hk' : k = gs.length + 1
      · subst hk'; exact Or.inl ⟨x, hx, e⟩
      · rw [classAt_append _ _ _ (by omega)] at e
        exact Or.inr ⟨x, hx, k, by omega, e⟩
  · intro c p
    rw [hpairs.mem_iff, List.mem_append, show (c, p) ∈ (forestNodes (classNameTrees layer)).flatMap _ ↔ _ from h.pairs c p,
      List.mem_map, hlen]
    constructor
    · rintro (⟨n, hn, e⟩ | ⟨x, hx, k, hk, e1, e2⟩)
      · simp only [Prod.mk.injEq] at e
        obtain ⟨x, hx, e'⟩ := (h.top n.name).1 (List.mem_map_of_mem hn)
        refine ⟨x, hx, gs.length, by omega, ?_, ?_⟩
        · rw [classAt_append _ _ _ (le_refl _), ← e', e.1]
        · rw [classAt_last, ← e', e.2]
      · refine ⟨x, hx, k, by omega, ?_, ?_⟩
        · rw [classAt_append _ _ _ (by omega)]; exact e1
        · rw [classAt_append _ _ _ (by omega)]; exact e2
    · rintro ⟨x, hx, k, hk, e1, e2⟩
      by_cases hk' : k = gs.length
      · subst hk'
        rw [classAt_append _ _ _ (le_refl _)] at e1
        rw [classAt_last] at e2
        obtain ⟨n, hn, e⟩ := List.mem_map.1 ((h.top _).2 ⟨x, hx, rfl⟩)
        exact Or.inl ⟨n, hn, by rw [e1, e2, e]⟩
      · rw [classAt_append _ _ _ (by omega)] at e1 e2
        exact Or.inr ⟨x, hx, k, by omega, e1, e2⟩
  · intro ha
    rw [hlen] at ha
    have ha' : ∀ x ∈ names, ∀ y ∈ names, ∀ j k, j < k → k ≤ gs.length → classAt gs j x ≠ classAt gs k y := by
      intro x hx y hy j k hjk hk
      have := ha x hx y hy j k hjk (by omega)
      rwa [classAt_append _ _ _ (by omega), classAt_append _ _ _ (by omega)] at this
    obtain ⟨h1, h2⟩ := h.apart ha'
    constructor
    · rw [(hperm.map NameTree.name).nodup_iff, List.map_append, hroots, List.nodup_append]
      refine ⟨hd, h1, ?_⟩
      intro a hA b hB hab
      subst hab
      obtain ⟨y, hy, e⟩ := (htop a).1 hA
      obtain ⟨x, hx, k, hk, e'⟩ := (h.nodes a).1 hB
      refine ha x hx y hy k (gs.length + 1) (by omega) (le_refl _) ?_
      rw [classAt_append _ _ _ hk, ← e', e]
    · rw [(hpairs.map Prod.fst).nodup_iff, List.map_append, List.map_map, List.nodup_append]
      refine ⟨h.distinct, h2, ?_⟩
      intro a hA b hB hab
      subst hab
      obtain ⟨y, hy, e⟩ := (h.top a).1 hA
      obtain ⟨⟨c, p⟩, hq, hc⟩ := List.mem_map.1 hB
      obtain ⟨x, hx, k, hk, e', _⟩ := (h.pairs c p).1 hq
      refine ha' x hx y hy k gs.length hk (le_refl _) ?_
      rw [← e', ← e]
      exact hc

theorem layersOk_all (names : List String) (h : names.Nodup) (extractors : List (String → String)) :
    LayersOk names extractors
      (extractors.foldl (fun layer f => classLayer f layer) (names.map (fun n => ClassNode.node n []))) := by
  induction extractors using List.reverseRecOn with
  | nil => exact layersOk_base names h
  | append_singleton gs f ih =>
    rw [List.foldl_append]
    exact layersOk_step names gs _ ih f

theorem classTree_ok [HasName E] (setOrder : List String → List String) (hso : ∀ l, (setOrder l).Perm l) (log : Log E)
    (extractors : List (String → String)) :
    LayersOk (setOrder (createLogInformation log).eventsCount.keys) extractors (buildClassTree setOrder log extractors) ∧
    (setOrder (createLogInformation log).eventsCount.keys).Nodup ∧
    ∀ n, n ∈ setOrder (createLogInformation log).eventsCount.keys ↔ n ∈ log.names.flatten := by
  obtain ⟨hk, hm⟩ := eventsCount_keys log
  have hp := hso (createLogInformation log).eventsCount.keys
  have hnd := hp.nodup_iff.2 hk
  exact ⟨layersOk_all _ hnd extractors, hnd, fun n => hp.mem_iff.trans (hm n)⟩

theorem classTree_names [HasName E] (setOrder : List String → List String) (hso : ∀ l, (setOrder l).Perm l) (log : Log E)
    (extractors : List (String → String)) (n : String) :
    n ∈ (forestNodes (classNameTrees (buildClassTree setOrder log extractors))).map NameTree.name ↔
      IsClass log extractors n := by
  obtain ⟨h, _, hm⟩ := classTree_ok setOrder hso log extractors
  rw [h.nodes]
  exact ⟨fun ⟨x, hx, r⟩ => ⟨x, (hm x).1 hx, r⟩, fun ⟨x, hx, r⟩ => ⟨x, (hm x).2 hx, r⟩⟩

theorem classTree_pairs [HasName E] (setOrder : List String → List String) (hso : ∀ l, (setOrder l).Perm l) (log : Log E)
    (extractors : List (String → String)) (c p : String) :
    (c, p) ∈ parentPairs (classNameTrees (buildClassTree setOrder log extractors)) ↔ IsSubclass log extractors c p := by
  obtain ⟨h, _, hm⟩ := classTree_ok setOrder hso log extractors
  rw [h.pairs]
  exact ⟨fun ⟨x, hx, r⟩ => ⟨x, (hm x).1 hx, r⟩, fun ⟨x, hx, r⟩ => ⟨x, (hm x).2 hx, r⟩⟩

theorem classTree_roots_eq (l : List ClassNode) : (classNameTrees l).map NameTree.name = l.map ClassNode.name := by
  rw [classNameTrees_eq, List.map_map]
  exact List.map_congr_left (fun n _ => classNameTree_name n)

theorem classTree_tops [HasName E] (setOrder : List String → List String) (hso : ∀ l, (setOrder l).Perm l) (log : Log E)
    (extractors : List (String → String)) (n : String) :
    n ∈ (classNameTrees (buildClassTree setOrder log extractors)).map NameTree.name ↔ IsTopClass log extractors n := by
  obtain ⟨h, _, hm⟩ := classTree_ok setOrder hso log extractors
  rw [classTree_roots_eq, h.top]
  exact ⟨fun ⟨x, hx, r⟩ => ⟨x, (hm x).1 hx, r⟩, fun ⟨x, hx, r⟩ => ⟨x, (hm x).2 hx, r⟩⟩

/-- C108a: whatever the extractors, the graph declares no name twice, every name in it is an event name of the log or a
class of one, every class of the highest level is in it, and every edge goes from a name to its class at the next level
or, if wanted, from a class of the highest level to the root node. -/
theorem C108_nothing_invented [HasName E] (setOrder : List String → List String) (hso : ∀ l, (setOrder l).Perm l)
    (log : Log E) (extractors : List (String → String)) (addRoot : Bool) :
    (nodeNames (classGraph setOrder log extractors addRoot)).Nodup ∧
    (∀ n ∈ nodeNames (classGraph setOrder log extractors addRoot), IsClass log extractors n) ∧
    (∀ n, IsTopClass log extractors n → n ∈ nodeNames (classGraph setOrder log extractors addRoot)) ∧
    ∀ e ∈ edges (classGraph setOrder log extractors addRoot), ∃ c p, e = (endNode c, endNode p, none) ∧
      (IsSubclass log extractors c p ∨ addRoot = true ∧ p = "root" ∧ IsTopClass log extractors c) := by
  obtain ⟨h1, h2, h3, h4⟩ := C69_nothing_invented (classNameTrees (buildClassTree setOrder log extractors)) addRoot
  refine ⟨h1, ?_, ?_, ?_⟩
  · intro n hn
    obtain ⟨v, hv, rfl⟩ := h2 n hn
    exact (classTree_names setOrder hso log extractors _).1 (List.mem_map_of_mem hv)
  · intro n hn
    obtain ⟨t, ht, rfl⟩ := List.mem_map.1 ((classTree_tops setOrder hso log extractors n).2 hn)
    exact h3 t ht
  · intro e he
    obtain ⟨c, p, rfl, h | ⟨h, hp, hc⟩⟩ := h4 e he
    · exact ⟨c, p, rfl, Or.inl ((classTree_pairs setOrder hso log extractors c p).1 h)⟩
    · exact ⟨c, p, rfl, Or.inr ⟨h, hp, (classTree_tops setOrder hso log extractors c).1 hc⟩⟩

/-- C108b: if no text is a class at two levels, the graph shows everything: its nodes are exactly the event names and
their classes, and it has exactly one edge for every name or class and its class at the next level, and for every class
of the highest level and the root node, if that is wanted. The order in which python iterates over the names does not
matter. -/
theorem C108_levels_apart_partial [HasName E] (setOrder : List String → List String) (hso : ∀ l, (setOrder l).Perm l)
    (log : Log E) (extractors : List (String → String)) (addRoot : Bool) (h : LevelsApart log extractors) :
    (nodeNames (classGraph setOrder log extractors addRoot)).Nodup ∧
    (∀ n, n ∈ nodeNames (classGraph setOrder log extractors addRoot) ↔ IsClass log extractors n) ∧
    ∃ tops : List String, ∃ pairs : List (String × String),
      tops.Nodup ∧ (∀ n, n ∈ tops ↔ addRoot = true ∧ IsTopClass log extractors n) ∧
      (pairs.map Prod.fst).Nodup ∧ (∀ c p, (c, p) ∈ pairs ↔ IsSubclass log extractors c p) ∧
      (edges (classGraph setOrder log extractors addRoot)).Perm
        ((tops.map (fun n => (n, "root")) ++ pairs).map (fun e => (endNode e.1, endNode e.2, none))) := by
  obtain ⟨hl, hnd, hm⟩ := classTree_ok setOrder hso log extractors
  obtain ⟨ha1, ha2⟩ := hl.apart (by
    intro x hx y hy j k hjk hk
    exact h x ((hm x).1 hx) y ((hm y).1 hy) j k hjk hk)
  obtain ⟨h1, h2⟩ := C69_distinct_names_partial (classNameTrees (buildClassTree setOrder log extractors)) addRoot ha1
  refine ⟨?_, ?_, if addRoot then (classNameTrees (buildClassTree setOrder log extractors)).map NameTree.name else [],
    parentPairs (classNameTrees (buildClassTree setOrder log extractors)), ?_, ?_, ha2, ?_, ?_⟩
  · unfold classGraph; rw [h1]; exact ha1
  · intro n
    unfold classGraph
    rw [h1]
    exact classTree_names setOrder hso log extractors n
  · split
    · rw [classTree_roots_eq]; exact hl.distinct
    · exact List.nodup_nil
  · intro n
    cases addRoot
    · simp
    · simpa using classTree_tops setOrder hso log extractors n
  · exact classTree_pairs setOrder hso log extractors
  · refine h2.trans (List.Perm.of_eq ?_)
    cases addRoot <;> simp [Function.comp_def]

theorem addLeaves (r : String) (cs : List NameTree) (hcs : ∀ c ∈ cs, c.children = []) (st : BuildState) :
    edges (addNodes (some r) cs st).stmts = edges st.stmts ++ cs.map (fun c => pairEdge (c.name, r)) ∧
    ∀ n, n ∈ (addNodes (some r) cs st).added ↔ n ∈ st.added ∨ n ∈ cs.map NameTree.name := by
  induction cs generalizing st with
  | nil => simp [addNodes]
  | cons t ts ih =>
    obtain ⟨h1, h2⟩ := ih (fun c hc => hcs c (List.mem_cons_of_mem _ hc)) (addNode (some r) t st)
    rw [addNodes]
    have ht := hcs t List.mem_cons_self
    cases t with
    | node a cs =>
      have : cs = [] := ht
      subst this
      rw [h1]
      constructor
      · rw [addNode]
        split
        · simp only [edges_append, edges_edgeToParent, List.map_cons, List.append_assoc]
          rfl
        · rw [addNodes]
          simp only [edges_append, edges_edgeToParent, List.map_cons, List.append_assoc]
          rfl
      · intro n
        rw [h2, addNode]
        split
        · rename_i ha
          simp only [List.map_cons, List.mem_cons, NameTree.name]
          constructor
          · rintro (h | h)
            · exact Or.inl h
            · exact Or.inr (Or.inr h)
          · rintro (h | h | h)
            · exact Or.inl h
            · subst h; exact Or.inl ha
            · exact Or.inr h
        · rw [addNodes]
          simp only [List.map_cons, List.mem_cons, NameTree.name, List.mem_append, List.not_mem_nil, or_false]
          tauto

theorem addGroups (par : Option String) (ts : List NameTree) (hleaf : ∀ t ∈ ts, ∀ c ∈ t.children, c.children = [])
    (st : BuildState) (hfresh : ∀ t ∈ ts, t.name ∉ st.added)
    (hpair : ts.Pairwise (fun g h => h.name ≠ g.name ∧ h.name ∉ g.children.map NameTree.name)) :
    (edges (addNodes par ts st).stmts).Perm (edges st.stmts ++ toParent par (ts.map NameTree.name) ++
      (ts.flatMap (fun p => p.children.map (fun c => (c.name, p.name)))).map pairEdge) ∧
    ∀ n, n ∈ (addNodes par ts st).added ↔ n ∈ st.added ∨ ∃ t ∈ ts, n = t.name ∨ n ∈ t.children.map NameTree.name := by
  induction ts generalizing st with
  | nil => cases par <;> simp [addNodes, toParent]
  | cons t ts ih =>
    obtain ⟨hp1, hp2⟩ := List.pairwise_cons.1 hpair
    have hstep : addNode par t st = addNodes (some t.name) t.children
        { added := st.added ++ [t.name], stmts := st.stmts ++ edgeToParent t.name par ++ [.node t.name none none] } := by
      cases t with
      | node a cs =>
        have : a ∉ st.added := hfresh (.node a cs) List.mem_cons_self
        rw [addNode, if_neg this]
        rfl
    obtain ⟨l1, l2⟩ := addLeaves t.name t.children (hleaf t List.mem_cons_self)
      { added := st.added ++ [t.name], stmts := st.stmts ++ edgeToParent t.name par ++ [.node t.name none none] }
    rw [← hstep] at l1 l2
    obtain ⟨h1, h2⟩ := ih (fun u hu => hleaf u (List.mem_cons_of_mem _ hu)) (addNode par t st) (by
      intro u hu hadd
      rcases (l2 u.name).1 hadd with h | h
      · rcases List.mem_append.1 h with h | h
        · exact hfresh u (List.mem_cons_of_mem _ hu) h
        · exact (hp1 u hu).1 (List.mem_singleton.1 h)
      · exact (hp1 u hu).2 h) hp2
    rw [addNodes]
    constructor
    · refine h1.trans ?_
      rw [l1]
      have hpar : edges (edgeToParent t.name par ++ [DotStmt.node t.name none none]) ++ toParent par (ts.map NameTree.name) =
          toParent par ((t :: ts).map NameTree.name) := by
        cases par <;> rfl
      rw [← hpar]
      simp only [edges_append, List.flatMap_cons, List.map_append, List.map_map, List.append_assoc, Function.comp_def]
      refine List.Perm.append_left _ (List.Perm.append_left _ (List.Perm.append_left _ ?_))
      rw [← List.append_assoc, ← List.append_assoc]
      exact List.Perm.append_right _ List.perm_append_comm
    · intro n
      rw [h2, l2]
      simp only [List.mem_append, List.mem_cons, List.not_mem_nil, or_false, exists_eq_or_imp]
      simp only [or_assoc]

/-- C108c: with one extractor that leaves classes as they are, the graph shows everything too, although an event may have
the name of its class: the nodes are exactly the event names and their classes, and there is exactly one edge for every
event name and its class, which is a loop if the name is a class itself. -/
theorem C108_one_extractor_partial [HasName E] (setOrder : List String → List String) (hso : ∀ l, (setOrder l).Perm l)
    (log : Log E) (f : String → String) (addRoot : Bool) (h : ∀ x ∈ log.names.flatten, f (f x) = f x) :
    (nodeNames (classGraph setOrder log [f] addRoot)).Nodup ∧
    (∀ n, n ∈ nodeNames (classGraph setOrder log [f] addRoot) ↔
      n ∈ log.names.flatten ∨ ∃ x ∈ log.names.flatten, n = f x) ∧
    ∃ classes names : List String,
      classes.Nodup ∧ (∀ n, n ∈ classes ↔ addRoot = true ∧ ∃ x ∈ log.names.flatten, n = f x) ∧
      names.Nodup ∧ (∀ n, n ∈ names ↔ n ∈ log.names.flatten) ∧
      (edges (classGraph setOrder log [f] addRoot)).Perm
        ((classes.map (fun n => (n, "root")) ++ names.map (fun n => (n, f n))).map
          (fun e => (endNode e.1, endNode e.2, none))) := by
  obtain ⟨_, hnd, hm⟩ := classTree_ok setOrder hso log [f]
  have hnot := C108_nothing_invented setOrder hso log [f] addRoot
  generalize hnames : setOrder (createLogInformation log).eventsCount.keys = names at hnd hm
  have htree : buildClassTree setOrder log [f] = classLayer f (names.map (fun n => ClassNode.node n [])) := by
    unfold buildClassTree
    rw [hnames]
    rfl
  obtain ⟨hd, hcl⟩ := classLayer_names f (names.map (fun n => ClassNode.node n []))
  have hcl' : ∀ n, n ∈ (classLayer f (names.map (fun n => ClassNode.node n []))).map ClassNode.name ↔
      ∃ x ∈ log.names.flatten, n = f x := by
    intro n
    rw [hcl]
    constructor
    · rintro ⟨c, hc, rfl⟩
      obtain ⟨x, hx, rfl⟩ := List.mem_map.1 hc
      exact ⟨x, (hm x).1 hx, rfl⟩
    · rintro ⟨x, hx, rfl⟩
      exact ⟨_, List.mem_map.2 ⟨x, (hm x).2 hx, rfl⟩, rfl⟩
  have hgroup : ∀ t ∈ classNameTrees (classLayer f (names.map (fun n => ClassNode.node n []))), ∀ c ∈ t.children,
      c.children = [] ∧ c.name ∈ log.names.flatten ∧ f c.name = t.name := by
    intro t ht c hc
    rw [classNameTrees_eq] at ht
    obtain ⟨g, hg, rfl⟩ := List.mem_map.1 ht
    rw [classLayer_eq] at hg
    obtain ⟨kv, hkv, rfl⟩ := List.mem_map.1 hg
    rw [classNameTree_children] at hc
    obtain ⟨c', hc', rfl⟩ := List.mem_map.1 hc
    obtain ⟨e, _⟩ := (groupAll_mem (fun n : ClassNode => f n.name) _ kv.1 kv.2).1 hkv
    have hc' : c' ∈ kv.2 := hc'
    rw [e, List.mem_filter] at hc'
    obtain ⟨x, hx, rfl⟩ := List.mem_map.1 hc'.1
    exact ⟨rfl, (hm x).1 hx, of_decide_eq_true hc'.2⟩
  have hpair : (classNameTrees (classLayer f (names.map (fun n => ClassNode.node n [])))).Pairwise
      (fun g h => h.name ≠ g.name ∧ h.name ∉ g.children.map NameTree.name) := by
    have hd' := hd
    rw [← classTree_roots_eq] at hd'
    have hp : (classNameTrees (classLayer f (names.map (fun n => ClassNode.node n [])))).Pairwise
        (fun a b => a.name ≠ b.name) := List.pairwise_map.1 hd'
    refine hp.imp_of_mem ?_
    intro g u hg hu hne
    refine ⟨fun e => hne e.symm, ?_⟩
    intro hmem
    obtain ⟨c, hc, e⟩ := List.mem_map.1 hmem
    obtain ⟨_, _, h3⟩ := hgroup g hg c hc
    obtain ⟨x, hx, hux⟩ := (hcl' u.name).1 (by rw [← classTree_roots_eq]; exact List.mem_map_of_mem hu)
    apply hne
    rw [← h3, e, hux, h x hx]
  obtain ⟨g1, g2⟩ := addGroups (if addRoot then some "root" else none)
    (classNameTrees (classLayer f (names.map (fun n => ClassNode.node n [])))) (fun t ht c hc => (hgroup t ht c hc).1)
    { added := [], stmts := [] } (by simp) hpair
  have hedges : (edges (classGraph setOrder log [f] addRoot)).Perm
      (((if addRoot then (classLayer f (names.map (fun n => ClassNode.node n []))).map ClassNode.name else []).map
        (fun n => (n, "root")) ++ names.map (fun n => (n, f n))).map (fun e => (endNode e.1, endNode e.2, none))) := by
    unfold classGraph buildGraph
    rw [htree]
    refine g1.trans ?_
    rw [List.map_append]
    refine List.Perm.append ?_ ?_
    · rw [classTree_roots_eq]
      cases addRoot <;> simp [edges, toParent, pairEdge, Function.comp_def]
    · refine ((newPairs_perm f _).map pairEdge).trans (List.Perm.of_eq ?_)
      simp [pairEdge, Function.comp_def, ClassNode.name]
  refine ⟨hnot.1, ?_, _, names, ?_, ?_, hnd, hm, hedges⟩
  · intro n
    have hi := (addNodes_inv (if addRoot then some "root" else none)
      (classNameTrees (classLayer f (names.map (fun n => ClassNode.node n [])))) { added := [], stmts := [] }).inv rfl
    unfold classGraph buildGraph
    rw [htree, hi, g2]
    simp only [List.not_mem_nil, false_or]
    constructor
    · rintro ⟨t, ht, rfl | hn⟩
      · exact Or.inr ((hcl' _).1 (by rw [← classTree_roots_eq]; exact List.mem_map_of_mem ht))
      · obtain ⟨c, hc, rfl⟩ := List.mem_map.1 hn
        exact Or.inl (hgroup t ht c hc).2.1
    · rintro (hn | ⟨x, hx, rfl⟩)
      · have hmem := (newPairs_perm f (names.map (fun n => ClassNode.node n []))).mem_iff (a := (n, f n))
        have := hmem.2 (List.mem_map.2 ⟨.node n [], List.mem_map.2 ⟨n, (hm n).2 hn, rfl⟩, rfl⟩)
        obtain ⟨t, ht, hc⟩ := List.mem_flatMap.1 this
        obtain ⟨c, hc, e⟩ := List.mem_map.1 hc
        simp only [Prod.mk.injEq] at e
        exact ⟨t, ht, Or.inr (List.mem_map.2 ⟨c, hc, e.1⟩)⟩
      · have := (hcl' (f x)).2 ⟨x, hx, rfl⟩
        rw [← classTree_roots_eq] at this
        obtain ⟨t, ht, e⟩ := List.mem_map.1 this
        exact ⟨t, ht, Or.inl e.symm⟩
  · split
    · exact hd
    · exact List.nodup_nil
  · intro n
    cases addRoot
    · simp
    · simpa using hcl' n

/-- Two events with numbered names. -/
def numberedLog : Log String := Log.ofEvs [["a1", "a2"]]

/-- Takes the first letter of a name. -/
def firstLetter (s : String) : String := String.ofList (s.toList.take 1)

/-- C108d: if a class keeps its name at the next level, then what is below it is not shown: here the events of the log
do not occur in the graph at all, although both extractors leave classes as they are. -/
theorem C108_events_lost : ∃ (log : Log String) (f : String → String), (∀ x, f (f x) = f x) ∧
    log.names.flatten = ["a1", "a2"] ∧ IsClass log [f, f] "a1" ∧ IsSubclass log [f, f] "a1" "a" ∧
    ∀ setOrder : List String → List String, (∀ l, (setOrder l).Perm l) →
      "a1" ∉ nodeNames (classGraph setOrder log [f, f] false) ∧
      edges (classGraph setOrder log [f, f] false) = [("a", "a", none)] := by
  refine ⟨numberedLog, firstLetter, ?_, by decide, ?_, ?_, ?_⟩
  · intro x; simp [firstLetter, List.take_take]
  · exact ⟨"a1", by decide, 0, by decide, rfl⟩
  · exact ⟨"a1", by decide, 0, by decide, rfl, by decide +kernel⟩
  · intro so hso
    have hk : (createLogInformation numberedLog).eventsCount.keys = ["a1", "a2"] := by decide +kernel
    have hp := hso ["a1", "a2"]
    have : so ["a1", "a2"] = ["a1", "a2"] ∨ so ["a1", "a2"] = ["a2", "a1"] := by
      have h1 := hp.length_eq
      rcases hs : so ["a1", "a2"] with _ | ⟨x, _ | ⟨y, _ | ⟨z, l⟩⟩⟩
      · rw [hs] at h1; simp at h1
      · rw [hs] at h1; simp at h1
      · rw [hs] at hp
        have hx := hp.mem_iff.1 (List.mem_cons_self (a := x))
        have hnd : [x, y].Nodup := hp.nodup_iff.2 (by decide)
        have hy := hp.mem_iff.1 (List.mem_cons_of_mem x (List.mem_cons_self (a := y)))
        simp only [List.mem_cons, List.not_mem_nil, or_false] at hx hy
        rcases hx with rfl | rfl <;> rcases hy with rfl | rfl <;> simp_all
      · rw [hs] at h1; simp at h1
    unfold classGraph buildClassTree
    rw [hk]
    rcases this with h | h <;> rw [h] <;> constructor <;> decide +kernel

/-- Turns a name into the next one of a short list. -/
def nextName (s : String) : String := if s = "x" then "a" else if s = "a" then "b" else s

/-- C108e: if an event has the name of a class of other events, then it depends on the order of a set, which python
leaves open, whether these are shown. -/
theorem C108_order_matters : ∃ (log : Log String) (f : String → String) (o1 o2 : List String → List String),
    (∀ l, (o1 l).Perm l) ∧ (∀ l, (o2 l).Perm l) ∧
    "x" ∈ nodeNames (classGraph o1 log [f] false) ∧ "x" ∉ nodeNames (classGraph o2 log [f] false) := by
  refine ⟨Log.ofEvs [["x", "a"]], nextName, id, List.reverse,
    fun l => List.Perm.refl l, fun l => l.reverse_perm, ?_, ?_⟩ <;> decide +kernel

/-- A log for the first theorems: names with a group. -/
def groupedLog : Log String := Log.ofEvs [["p.a", "q", "p.b", "p.a"]]

/-- Marks the first letter as a group. -/
def groupOf (s : String) : String := "<" ++ firstLetter s ++ ">"

/-- Everything is in one class. -/
def everything (_ : String) : String := "all"

theorem groupedLog_apart : LevelsApart groupedLog [groupOf, everything] := by
  intro x hx y hy j k hjk hk
  have hx : x ∈ ["p.a", "q", "p.b", "p.a"] := hx
  have hy : y ∈ ["p.a", "q", "p.b", "p.a"] := hy
  have hk : k ≤ 2 := hk
  have key : ∀ x ∈ ["p.a", "q", "p.b", "p.a"], ∀ y ∈ ["p.a", "q", "p.b", "p.a"], ∀ k ≤ 2, ∀ j < k,
      classAt [groupOf, everything] j x ≠ classAt [groupOf, everything] k y := by decide +kernel
  exact key x hx y hy k hk j hjk

example : LevelsApart groupedLog [groupOf, everything] := groupedLog_apart

example : classGraph id groupedLog [groupOf, everything] true =
    [.edge "all" "root" none, .node "all" none none, .edge "<p>" "all" none, .node "<p>" none none,
     .edge "p.a" "<p>" none, .node "p.a" none none, .edge "p.b" "<p>" none, .node "p.b" none none,
     .edge "<q>" "all" none, .node "<q>" none none, .edge "q" "<q>" none, .node "q" none none] := by decide +kernel

example : (∀ x ∈ groupedLog.names.flatten, firstLetter (firstLetter x) = firstLetter x) ∧
    classGraph id groupedLog [firstLetter] false =
      [.node "p" none none, .edge "p.a" "p" none, .node "p.a" none none, .edge "p.b" "p" none, .node "p.b" none none,
       .node "q" none none, .edge "q" "q" none] := by
  refine ⟨?_, ?_⟩ <;> decide +kernel

end Ficus
