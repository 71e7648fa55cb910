import Verif.Spec.Labels
import Verif.Props.Nets
import Verif.Props.Classes
import Verif.Proofs.Console
import Verif.Props.Text

/-! Properties C102 and C103: labels in drawn graphs of activities, and texts of activities. -/

namespace Ficus
open Spec

/-! ### C102 -/

theorem preprocessName_join (s : String) :
    (preprocessName s).toList = joinSep ['\n'] (splitLoop [':', ':'] 0 [] s.toList) := by
  rw [preprocessName, String.toList_ofList, joinTexts_eq]

theorem mem_splitLoop (sep : List Char) (k : Nat) (cur s : List Char) (x : List Char) (hx : x ∈ splitLoop sep k cur s) :
    ∀ c ∈ x, c ∈ cur ∨ c ∈ s := by
  induction s generalizing k cur with
  | nil =>
    have : x = cur := by cases k <;> simpa [splitLoop] using hx
    subst this
    exact fun c hc => Or.inl hc
  | cons a s ih =>
    intro c hc
    cases k with
    | succ k =>
      rw [splitLoop] at hx
      rcases ih k cur hx c hc with h | h
      · exact Or.inl h
      · exact Or.inr (List.mem_cons_of_mem _ h)
    | zero =>
      rw [splitLoop] at hx
      split at hx
      · rcases List.mem_cons.1 hx with rfl | hx
        · exact Or.inl hc
        · rcases ih _ [] hx c hc with h | h
          · simp at h
          · exact Or.inr (List.mem_cons_of_mem _ h)
      · rcases ih _ _ hx c hc with h | h
        · rcases List.mem_append.1 h with h | h
          · exact Or.inl h
          · rw [List.mem_singleton] at h
            exact Or.inr (by simp [h])
        · exact Or.inr (List.mem_cons_of_mem _ h)

/-- C102a: names without line feeds that are written in the same way are the same. -/
theorem C102_labels_distinguish (s t : String) (hs : '\n' ∉ s.toList) (ht : '\n' ∉ t.toList)
    (h : preprocessName s = preprocessName t) : s = t := by
  have key : ∀ s : String, '\n' ∉ s.toList →
      splitLoop ['\n'] 0 [] (preprocessName s).toList = splitLoop [':', ':'] 0 [] s.toList := by
    intro s hs
    rw [preprocessName_join]
    apply split_join _ (by simp) _ (splitLoop_ne_nil _ _ _ _)
    intro x hx hi
    have : '\n' ∈ x := by
      have := hi.subset (List.mem_singleton.2 rfl)
      simpa using this
    rcases mem_splitLoop _ _ _ _ x hx _ this with h | h
    · simp at h
    · exact hs h
  have h1 := key s hs
  rw [h, key t ht] at h1
  have h2 := congrArg (joinSep [':', ':']) h1
  rw [join_splitLoop _ (by simp) _ _ _ (le_refl _), join_splitLoop _ (by simp) _ _ _ (le_refl _)] at h2
  exact (String.toList_injective (by simpa using h2)).symm

example : preprocessName "a::b::c" = "a\nb\nc" := by decide +kernel

/-- C102b: without that proviso they need not be. -/
theorem C102_line_feeds_collide : preprocessName "a::b" = preprocessName "a\nb" := by decide +kernel

/-- C102c: the label of a discovered activity has the classes of the repeat in ascending order, one in a line. -/
theorem C102_label_lists_classes {E : Type} (t : List E) (s : SubArray) (ext : E → String)
    (hne : (t.drop s.firstPos).take s.length ≠ []) (hp : ∀ e ∈ (t.drop s.firstPos).take s.length, PlainClass (ext e)) :
    ∃ classes : List String, classes.Pairwise (fun a b => a ≤ b ∧ a ≠ b) ∧
      (∀ c, c ∈ classes ↔ ∃ e ∈ (t.drop s.firstPos).take s.length, ext e = c) ∧
      (preprocessName (activityNameFromTrace t s ext)).toList = List.intercalate ['\n'] (classes.map String.toList) := by
  refine ⟨(((t.drop s.firstPos).take s.length).map ext).dedup.insertionSort (fun a b => a ≤ b), ?_, ?_, ?_⟩
  · have hnd : ((((t.drop s.firstPos).take s.length).map ext).dedup.insertionSort (fun a b => a ≤ b)).Nodup :=
      (List.perm_insertionSort _ _).nodup_iff.2 (List.nodup_dedup _)
    have hle := List.pairwise_insertionSort (fun a b : String => a ≤ b) (((t.drop s.firstPos).take s.length).map ext).dedup
    exact hle.and hnd
  · intro c
    rw [(List.perm_insertionSort _ _).mem_iff, List.mem_dedup, List.mem_map]
  · rw [preprocessName_join, ← joinSep_eq_intercalate]
    congr 1
    unfold activityNameFromTrace slice
    rw [String.toList_ofList, ← joinSep_eq_intercalate]
    apply split_join _ (by simp)
    · intro hc
      apply hne
      have h0 : (((t.drop s.firstPos).take s.length).map ext).dedup.insertionSort (fun a b => a ≤ b) = [] :=
        List.map_eq_nil_iff.1 hc
      rw [List.eq_nil_iff_forall_not_mem]
      intro e he
      have : ext e ∈ (((t.drop s.firstPos).take s.length).map ext).dedup.insertionSort (fun a b => a ≤ b) := by
        rw [(List.perm_insertionSort _ _).mem_iff, List.mem_dedup]
        exact List.mem_map_of_mem he
      rw [h0] at this
      simp at this
    · intro x hx
      obtain ⟨y, hy, rfl⟩ := List.mem_map.1 hx
      rw [(List.perm_insertionSort _ _).mem_iff, List.mem_dedup] at hy
      obtain ⟨e, he, rfl⟩ := List.mem_map.1 hy
      exact hp e he

example : preprocessName (activityNameFromTrace ["x", "c", "a", "c"] ⟨1, 3⟩ id) = "a\nc" := by decide +kernel

theorem forestNodes_nameTrees (creator : Activity → String) (f : List ActTree) :
    forestNodes (nameTrees creator f) = (subtreesL f).map (nameTree creator) := by
  have key : ∀ t : ActTree, treeNodes (nameTree creator t) = (subtrees t).map (nameTree creator) := by
    intro t
    induction t using ActTree.rec (motive_2 := fun ts =>
      forestNodes (nameTrees creator ts) = (subtreesL ts).map (nameTree creator)) with
    | node a cs ih => rw [nameTree, treeNodes, ih, subtrees, List.map_cons, nameTree]
    | nil => rfl
    | cons t ts ih1 ih2 => rw [nameTrees, forestNodes, ih1, ih2, subtreesL, List.map_append]
  induction f with
  | nil => rfl
  | cons t ts ih => rw [nameTrees, forestNodes, key, ih, subtreesL, List.map_append]

theorem nameTrees_eq_map (creator : Activity → String) (f : List ActTree) : nameTrees creator f = f.map (nameTree creator) := by
  induction f with
  | nil => rfl
  | cons t ts ih => rw [nameTrees, ih, List.map_cons]

theorem nameTree_name (creator : Activity → String) (t : ActTree) : (nameTree creator t).name = creator t.act := by
  cases t; rfl

theorem nameTree_children (creator : Activity → String) (t : ActTree) :
    (nameTree creator t).children = t.children.map (nameTree creator) := by
  cases t with
  | node a cs => rw [nameTree, NameTree.children_node, nameTrees_eq_map]; rfl

theorem child_mem_subtreesL (f : List ActTree) (p c : ActTree) (hp : p ∈ subtreesL f) (hc : c ∈ p.children) :
    c ∈ subtreesL f := by
  have top : ∀ (ts : List ActTree), c ∈ ts → c ∈ subtreesL ts := by
    intro ts
    induction ts with
    | nil => simp
    | cons t ts ih =>
      intro h
      rw [subtreesL, List.mem_append]
      rcases List.mem_cons.1 h with rfl | h
      · left; cases c; simp [subtrees]
      · exact Or.inr (ih h)
  have key : ∀ t : ActTree, p ∈ subtrees t → c ∈ subtrees t := by
    intro t
    induction t using ActTree.rec (motive_2 := fun ts => p ∈ subtreesL ts → c ∈ subtreesL ts) with
    | node a cs ih =>
      intro h
      rw [subtrees] at h ⊢
      rcases List.mem_cons.1 h with rfl | h
      · exact List.mem_cons_of_mem _ (top cs hc)
      · exact List.mem_cons_of_mem _ (ih h)
    | nil => rename_i h; simp [subtreesL] at h
    | cons t ts ih1 ih2 =>
      rename_i h
      rw [subtreesL, List.mem_append] at h ⊢
      exact h.imp ih1 ih2
  induction f with
  | nil => simp [subtreesL] at hp
  | cons t ts ih =>
    rw [subtreesL, List.mem_append] at hp ⊢
    exact hp.imp (key t) ih

/-- Graphs whose labels tell the names of activities apart and have no colon. -/
theorem labelled_graph (creator : Activity → String) (acts : List ActTree) (addRoot : Bool) (hn : NamesDetermineChildren acts)
    (hl : ∀ u ∈ subtreesL acts, ∀ v ∈ subtreesL acts, creator u.act = creator v.act ↔ u.act.name = v.act.name)
    (hc : ∀ u ∈ subtreesL acts, ':' ∉ (creator u.act).toList ∧ creator u.act ≠ "root") :
    (nodeNames (buildGraph (nameTrees creator acts) addRoot)).Nodup ∧
    (∀ n, n ∈ nodeNames (buildGraph (nameTrees creator acts) addRoot) ↔ ∃ u ∈ subtreesL acts, creator u.act = n) ∧
    (∀ u ∈ subtreesL acts, ∀ v ∈ subtreesL acts,
      ((creator u.act, creator v.act, none) ∈ edges (buildGraph (nameTrees creator acts) addRoot) ↔
        ∃ p ∈ subtreesL acts, ∃ c ∈ p.children, c.act.name = u.act.name ∧ p.act.name = v.act.name)) ∧
    (∀ u ∈ subtreesL acts, ((creator u.act, "root", none) ∈ edges (buildGraph (nameTrees creator acts) addRoot) ↔
        addRoot = true ∧ ∃ t ∈ acts, t.act.name = u.act.name)) := by
  have hcons : Consistent (nameTrees creator acts) := by
    intro x hx y hy hxy c hcx
    rw [forestNodes_nameTrees] at hx hy
    obtain ⟨u, hu, rfl⟩ := List.mem_map.1 hx
    obtain ⟨v, hv, rfl⟩ := List.mem_map.1 hy
    rw [nameTree_name, nameTree_name, hl u hu v hv] at hxy
    rw [nameTree_children] at hcx
    obtain ⟨d, hd, rfl⟩ := List.mem_map.1 hcx
    obtain ⟨e, he, hne⟩ := hn u hu v hv hxy d hd
    rw [nameTree_children, List.map_map]
    refine List.mem_map.2 ⟨e, he, ?_⟩
    rw [Function.comp_apply, nameTree_name, nameTree_name]
    exact (hl e (child_mem_subtreesL _ _ _ hv he) d (child_mem_subtreesL _ _ _ hu hd)).2 hne
  obtain ⟨h1, h2, h3⟩ := C69_consistent_names_partial (nameTrees creator acts) addRoot hcons
  have hroot : endNode "root" = "root" := endNode_of_noColon _ (by decide)
  have hend : ∀ u ∈ subtreesL acts, endNode (creator u.act) = creator u.act := fun u hu => endNode_of_noColon _ (hc u hu).1
  have hpairs : ∀ c p, (c, p) ∈ parentPairs (nameTrees creator acts) ↔
      ∃ v ∈ subtreesL acts, ∃ d ∈ v.children, creator d.act = c ∧ creator v.act = p := by
    intro c p
    unfold parentPairs
    rw [forestNodes_nameTrees, List.flatMap_map, List.mem_flatMap]
    constructor
    · rintro ⟨v, hv, h⟩
      obtain ⟨x, hx, e⟩ := List.mem_map.1 h
      rw [nameTree_children] at hx
      obtain ⟨d, hd, rfl⟩ := List.mem_map.1 hx
      rw [nameTree_name, nameTree_name, Prod.mk.injEq] at e
      exact ⟨v, hv, d, hd, e⟩
    · rintro ⟨v, hv, d, hd, rfl, rfl⟩
      refine ⟨v, hv, List.mem_map.2 ⟨nameTree creator d, ?_, by rw [nameTree_name, nameTree_name]⟩⟩
      rw [nameTree_children]
      exact List.mem_map_of_mem hd
  have htops : ∀ c, c ∈ (nameTrees creator acts).map NameTree.name ↔ ∃ t ∈ acts, creator t.act = c := by
    intro c
    rw [nameTrees_eq_map, List.map_map, List.mem_map]
    simp only [Function.comp_apply, nameTree_name]
  have htop_mem : ∀ t ∈ acts, t ∈ subtreesL acts := by
    intro t ht
    exact subtrees_subset_subtreesL acts t ht t (by cases t; simp [subtrees])
  refine ⟨h1, ?_, ?_, ?_⟩
  · intro n
    rw [h2, forestNodes_nameTrees]
    constructor
    · rintro ⟨x, hx, rfl⟩
      obtain ⟨u, hu, rfl⟩ := List.mem_map.1 hx
      exact ⟨u, hu, (nameTree_name _ _).symm⟩
    · rintro ⟨u, hu, rfl⟩
      exact ⟨_, List.mem_map_of_mem hu, nameTree_name _ _⟩
  · intro u hu v hv
    rw [h3]
    constructor
    · rintro ⟨c, p, e, h | ⟨_, rfl, _⟩⟩
      · obtain ⟨w, hw, d, hd, rfl, rfl⟩ := (hpairs c p).1 h
        have hds := child_mem_subtreesL _ _ _ hw hd
        rw [hend d hds, hend w hw] at e
        simp only [Prod.mk.injEq, and_true] at e
        exact ⟨w, hw, d, hd, (hl d hds u hu).1 e.1.symm, (hl w hw v hv).1 e.2.symm⟩
      · rw [hroot] at e
        simp only [Prod.mk.injEq, and_true] at e
        exact absurd e.2 (hc v hv).2
    · rintro ⟨w, hw, d, hd, e1, e2⟩
      have hds := child_mem_subtreesL _ _ _ hw hd
      refine ⟨creator d.act, creator w.act, ?_, Or.inl ((hpairs _ _).2 ⟨w, hw, d, hd, rfl, rfl⟩)⟩
      rw [hend d hds, hend w hw, (hl d hds u hu).2 e1, (hl w hw v hv).2 e2]
  · intro u hu
    rw [h3]
    constructor
    · rintro ⟨c, p, e, h | ⟨ha, rfl, h⟩⟩
      · obtain ⟨w, hw, d, hd, rfl, rfl⟩ := (hpairs c p).1 h
        rw [hend w hw] at e
        simp only [Prod.mk.injEq, and_true] at e
        exact absurd e.2.symm (hc w hw).2
      · obtain ⟨t, ht, rfl⟩ := (htops c).1 h
        rw [hend t (htop_mem t ht)] at e
        simp only [Prod.mk.injEq, and_true] at e
        exact ⟨ha, t, ht, (hl t (htop_mem t ht) u hu).1 e.1.symm⟩
    · rintro ⟨ha, t, ht, e⟩
      refine ⟨creator t.act, "root", ?_, Or.inr ⟨ha, rfl, (htops _).2 ⟨t, ht, rfl⟩⟩⟩
      rw [hend t (htop_mem t ht), hroot, (hl t (htop_mem t ht) u hu).2 e]

/-- C102d (partial: hashes of different names may be equal, see C102f). With hashes as labels the graph has one node for each
name of an activity, an edge exactly from children to parents, and an edge to the root node exactly from the top level. -/
theorem C102_hash_graph_partial (acts : List ActTree) (addRoot : Bool) (hn : NamesDetermineChildren acts)
    (hh : ∀ u ∈ subtreesL acts, ∀ v ∈ subtreesL acts, stringHash u.act.name = stringHash v.act.name → u.act.name = v.act.name) :
    let label (u : ActTree) : String := toString (stringHash u.act.name)
    (nodeNames (activityGraph acts true addRoot)).Nodup ∧
    (∀ n, n ∈ nodeNames (activityGraph acts true addRoot) ↔ ∃ u ∈ subtreesL acts, label u = n) ∧
    (∀ u ∈ subtreesL acts, ∀ v ∈ subtreesL acts, (label u = label v ↔ u.act.name = v.act.name) ∧
      ((label u, label v, none) ∈ edges (activityGraph acts true addRoot) ↔
        ∃ p ∈ subtreesL acts, ∃ c ∈ p.children, c.act.name = u.act.name ∧ p.act.name = v.act.name)) ∧
    (∀ u ∈ subtreesL acts, ((label u, "root", none) ∈ edges (activityGraph acts true addRoot) ↔
        addRoot = true ∧ ∃ t ∈ acts, t.act.name = u.act.name)) := by
  have hl : ∀ u ∈ subtreesL acts, ∀ v ∈ subtreesL acts,
      createNodeName true u.act = createNodeName true v.act ↔ u.act.name = v.act.name := by
    intro u hu v hv
    simp only [createNodeName, if_true]
    exact ⟨fun h => hh u hu v hv (intText_injective h), fun h => by rw [h]⟩
  have hroot : ∀ i : Int, (toString i : String) ≠ "root" := by
    intro i h
    have h' := congrArg String.toList h
    cases i with
    | ofNat n =>
      rw [intText_ofNat] at h'
      have : 'r' ∈ (toString n : String).toList := by rw [h']; decide
      exact absurd (natText_isDigit n 'r' this) (by decide)
    | negSucc n =>
      rw [intText_negSucc, String.toList_append] at h'
      have := congrArg List.head? h'
      revert this
      rw [show ("-" : String).toList = ['-'] from by decide, show ("root" : String).toList = ['r', 'o', 'o', 't'] from by decide]
      simp
  obtain ⟨h1, h2, h3, h4⟩ := labelled_graph (createNodeName true) acts addRoot hn hl (fun u _ => by
    simp only [createNodeName, if_true]
    exact ⟨intText_noColon _, hroot _⟩)
  simp only [createNodeName, if_true] at hl h2 h3 h4
  exact ⟨h1, h2, fun u hu v hv => ⟨hl u hu v hv, h3 u hu v hv⟩, h4⟩

/-- C102e (partial: colons and line feeds in classes, and the name "root", are excluded). With names as labels the same. -/
theorem C102_name_graph_partial (acts : List ActTree) (addRoot : Bool) (hn : NamesDetermineChildren acts)
    (hp : ∀ u ∈ subtreesL acts, '\n' ∉ u.act.name.toList ∧ ':' ∉ (preprocessName u.act.name).toList ∧ u.act.name ≠ "root") :
    let label (u : ActTree) : String := preprocessName u.act.name
    (nodeNames (activityGraph acts false addRoot)).Nodup ∧
    (∀ n, n ∈ nodeNames (activityGraph acts false addRoot) ↔ ∃ u ∈ subtreesL acts, label u = n) ∧
    (∀ u ∈ subtreesL acts, ∀ v ∈ subtreesL acts, (label u = label v ↔ u.act.name = v.act.name) ∧
      ((label u, label v, none) ∈ edges (activityGraph acts false addRoot) ↔
        ∃ p ∈ subtreesL acts, ∃ c ∈ p.children, c.act.name = u.act.name ∧ p.act.name = v.act.name)) ∧
    (∀ u ∈ subtreesL acts, ((label u, "root", none) ∈ edges (activityGraph acts false addRoot) ↔
        addRoot = true ∧ ∃ t ∈ acts, t.act.name = u.act.name)) := by
  have hl : ∀ u ∈ subtreesL acts, ∀ v ∈ subtreesL acts,
      createNodeName false u.act = createNodeName false v.act ↔ u.act.name = v.act.name := by
    intro u hu v hv
    simp only [createNodeName, Bool.false_eq_true, if_false]
    exact ⟨fun h => C102_labels_distinguish _ _ (hp u hu).1 (hp v hv).1 h, fun h => by rw [h]⟩
  obtain ⟨h1, h2, h3, h4⟩ := labelled_graph (createNodeName false) acts addRoot hn hl (fun u hu => by
    simp only [createNodeName, Bool.false_eq_true, if_false]
    refine ⟨(hp u hu).2.1, fun h => (hp u hu).2.2 ?_⟩
    refine C102_labels_distinguish _ _ (hp u hu).1 (by decide) (h.trans ?_)
    decide +kernel)
  simp only [createNodeName, Bool.false_eq_true, if_false] at hl h2 h3 h4
  exact ⟨h1, h2, fun u hu v hv => ⟨hl u hu v hv, h3 u hu v hv⟩, h4⟩

/-- An activity for the examples. -/
def labelAct (uid : Nat) (n : String) (es : List Int) : Activity := ⟨uid, n, 0, ⟨0, 1, 0⟩, es⟩

/-- A forest with two levels: the parent has the classes of both children. -/
def labelForest : List ActTree :=
  [.node (labelAct 0 "a::b" [1, 2]) [.node (labelAct 1 "a" [1]) [], .node (labelAct 2 "b" [2]) []]]

example : NamesDetermineChildren labelForest ∧
    (∀ u ∈ subtreesL labelForest, '\n' ∉ u.act.name.toList ∧ ':' ∉ (preprocessName u.act.name).toList ∧ u.act.name ≠ "root") ∧
    (∀ u ∈ subtreesL labelForest, ∀ v ∈ subtreesL labelForest,
      stringHash u.act.name = stringHash v.act.name → u.act.name = v.act.name) := by
  refine ⟨?_, ?_, ?_⟩
  · intro t ht s hs
    simp only [labelForest, subtreesL, subtrees, List.append_nil, List.mem_cons, List.not_mem_nil, or_false, List.cons_append,
      List.nil_append] at ht hs
    rcases ht with rfl | rfl | rfl <;> rcases hs with rfl | rfl | rfl <;>
      simp [ActTree.act, ActTree.children, labelAct]
  · decide +kernel
  · decide +kernel

example : activityGraph labelForest false true = [.edge "a\nb" "root" none, .node "a\nb" none none, .edge "a" "a\nb" none,
    .node "a" none none, .edge "b" "a\nb" none, .node "b" none none] := by decide +kernel

/-- C102f: activities of different names are drawn as one node if the hashes of their names are equal; the children of the
second one are lost. This is the default. -/
theorem C102_hashes_collide : ∃ acts : List ActTree, NamesDetermineChildren acts ∧ (acts.map (fun t => t.act.name)).Nodup ∧
    acts.length = 2 ∧ (nodeNames (activityGraph acts true false)).length = 1 := by
  refine ⟨[.node (labelAct 0 "aB" [1]) [], .node (labelAct 1 "BC" [2, 3]) [.node (labelAct 2 "c" [3]) []]], ?_, ?_, rfl, ?_⟩
  · intro t ht s hs
    simp only [subtreesL, subtrees, List.append_nil, List.mem_cons, List.not_mem_nil, or_false, List.cons_append,
      List.nil_append] at ht hs
    rcases ht with rfl | rfl | rfl <;> rcases hs with rfl | rfl | rfl <;>
      simp [ActTree.act, ActTree.children, labelAct]
  · decide
  · decide +kernel

/-- C102g: a class with a single colon breaks the edges of the graph with names. -/
theorem C102_colon_breaks_edges : ∃ acts : List ActTree, nodeNames (activityGraph acts false false) = ["a:x\nb", "b"] ∧
    edges (activityGraph acts false false) = [("b", "a", none)] :=
  ⟨[.node (labelAct 0 "a:x::b" [1, 2]) [.node (labelAct 1 "b" [2]) []]], by decide +kernel, by decide +kernel⟩

/-! ### C103 -/

theorem label_cut {a b k k' : List Char} (ha : '(' ∉ a ∧ ')' ∉ a) (hb : '(' ∉ b ∧ ')' ∉ b)
    (hk : k = [] ∨ ∃ c k₂, k = c :: k₂ ∧ (c = '(' ∨ c = ')')) (hk' : k' = [] ∨ ∃ c k₂, k' = c :: k₂ ∧ (c = '(' ∨ c = ')'))
    (e : a ++ k = b ++ k') : a = b ∧ k = k' := by
  induction a generalizing b with
  | nil =>
    cases b with
    | nil => exact ⟨rfl, e⟩
    | cons x b =>
      exfalso
      rw [List.nil_append, List.cons_append] at e
      rcases hk with rfl | ⟨c, k₂, rfl, hc⟩
      · cases e
      · obtain ⟨rfl, _⟩ := List.cons.inj e
        rcases hc with rfl | rfl
        · exact hb.1 (by simp)
        · exact hb.2 (by simp)
  | cons y a ih =>
    cases b with
    | nil =>
      exfalso
      rw [List.nil_append, List.cons_append] at e
      rcases hk' with rfl | ⟨c, k₂, rfl, hc⟩
      · cases e
      · obtain ⟨rfl, _⟩ := List.cons.inj e
        rcases hc with rfl | rfl
        · exact ha.1 (by simp)
        · exact ha.2 (by simp)
    | cons x b =>
      rw [List.cons_append, List.cons_append] at e
      obtain ⟨rfl, e'⟩ := List.cons.inj e
      obtain ⟨rfl, h⟩ := ih (b := b) ⟨fun h => ha.1 (by simp [h]), fun h => ha.2 (by simp [h])⟩
        ⟨fun h => hb.1 (by simp [h]), fun h => hb.2 (by simp [h])⟩ e'
      exact ⟨rfl, h⟩

/-- The end of a text or a closing parenthesis. -/
def Closing (r : List Char) : Prop := r = [] ∨ ∃ k, r = ')' :: k

theorem after_label (cs : List NameTree) {r : List Char} (hr : Closing r) :
    childrenText cs ++ r = [] ∨ ∃ c k₂, childrenText cs ++ r = c :: k₂ ∧ (c = '(' ∨ c = ')') := by
  cases cs with
  | nil =>
    rcases hr with rfl | ⟨k, rfl⟩
    · exact Or.inl rfl
    · exact Or.inr ⟨')', k, rfl, Or.inr rfl⟩
  | cons t ts => exact Or.inr ⟨'(', _, by rw [childrenText]; rfl, Or.inl rfl⟩

theorem nodeText_cut (t u : NameTree) (ht : ∀ v ∈ treeNodes t, NoParentheses v.name) (hu : ∀ v ∈ treeNodes u, NoParentheses v.name)
    {r r' : List Char} (hr : Closing r) (hr' : Closing r') (e : nodeText t ++ r = nodeText u ++ r') : t = u ∧ r = r' := by
  induction t using NameTree.rec (motive_2 := fun ts => ∀ us : List NameTree, (∀ v ∈ forestNodes ts, NoParentheses v.name) →
      (∀ v ∈ forestNodes us, NoParentheses v.name) → ∀ r r' : List Char, Closing r → Closing r' →
      childrenText ts ++ r = childrenText us ++ r' → ts = us ∧ r = r') generalizing u r r' with
  | node n cs ih =>
    cases u with
    | node m ds =>
      rw [nodeText, nodeText, List.append_assoc, List.append_assoc] at e
      have h1 : NoParentheses n := ht (.node n cs) (by simp [treeNodes])
      have h2 : NoParentheses m := hu (.node m ds) (by simp [treeNodes])
      obtain ⟨hn, hk⟩ := label_cut h1 h2 (after_label cs hr) (after_label ds hr') e
      obtain ⟨rfl, h⟩ := ih ds (fun v hv => ht v (by simp [treeNodes, hv])) (fun v hv => hu v (by simp [treeNodes, hv])) r r'
        hr hr' hk
      rw [String.toList_injective hn]
      exact ⟨rfl, h⟩
  | nil =>
    rename_i us _ _ r r' hr hr' e
    cases us with
    | nil => exact ⟨rfl, by simpa [childrenText] using e⟩
    | cons u us =>
      exfalso
      rw [childrenText, childrenText] at e
      rcases hr with rfl | ⟨k, rfl⟩ <;> simp at e
  | cons t ts ih1 ih2 =>
    rename_i us hts hus r r' hr hr' e
    cases us with
    | nil =>
      exfalso
      rw [childrenText, childrenText] at e
      rcases hr' with rfl | ⟨k, rfl⟩ <;> simp at e
    | cons u us =>
      rw [childrenText, childrenText] at e
      simp only [List.append_assoc, List.cons_append, List.nil_append, List.cons.injEq, true_and] at e
      obtain ⟨rfl, h⟩ := ih1 u (fun v hv => hts v (by simp [forestNodes, hv])) (fun v hv => hus v (by simp [forestNodes, hv]))
        (Or.inr ⟨_, rfl⟩) (Or.inr ⟨_, rfl⟩) e
      obtain ⟨rfl, h'⟩ := ih2 us (fun v hv => hts v (by simp [forestNodes, hv])) (fun v hv => hus v (by simp [forestNodes, hv]))
        r r' hr hr' (List.cons.inj h).2
      exact ⟨rfl, h'⟩

/-- C103a (partial: names with parentheses are excluded, see C103b): the text of a tree of classes determines the tree. -/
theorem C103_class_text_partial (t u : NameTree) (ht : ∀ v ∈ treeNodes t, NoParentheses v.name)
    (hu : ∀ v ∈ treeNodes u, NoParentheses v.name) : nodeText t = nodeText u ↔ t = u :=
  ⟨fun h => (nodeText_cut t u ht hu (Or.inl rfl) (Or.inl rfl) (by rw [h])).1, fun h => by rw [h]⟩

example : nodeText (.node "a" [.node "b" [.node "c" []], .node "d" []]) = "a(b(c))(d)".toList := by decide +kernel

/-- C103b: with parentheses in names different trees of classes have the same text. -/
theorem C103_class_text_ambiguous : ∃ t u : NameTree, t.children.length ≠ u.children.length ∧ nodeText t = nodeText u :=
  ⟨.node "a(b)" [], .node "a" [.node "b" []], by decide, by decide +kernel⟩

/-! Texts of activities -/

theorem intText_chars (i : Int) (c : Char) (h : c ∈ (toString i : String).toList) : c = '-' ∨ c.isDigit = true := by
  cases i with
  | ofNat n => exact Or.inr (natText_isDigit n c h)
  | negSucc n =>
    rw [intText_negSucc, String.toList_append] at h
    rcases List.mem_append.1 h with h | h
    · left; simpa using h
    · exact Or.inr (natText_isDigit _ c h)

theorem intText_ne_nil (i : Int) : (toString i : String).toList ≠ [] := by
  cases i with
  | ofNat n => exact natText_ne_nil n
  | negSucc n => rw [intText_negSucc, String.toList_append]; simp

theorem intTexts_inj {l l' : List Int}
    (h : joinSep [',', ' '] (l.map (fun e => (toString e : String).toList)) =
      joinSep [',', ' '] (l'.map (fun e => (toString e : String).toList))) : l = l' := by
  have hsep : ∀ (l : List Int), ∀ x ∈ l.map (fun e => (toString e : String).toList), ¬ [',', ' '] <:+: (x ++ [',', ' '].dropLast) := by
    intro l x hx hi
    obtain ⟨e, _, rfl⟩ := List.mem_map.1 hx
    have : ' ' ∈ (toString e : String).toList ++ [','] := hi.subset (by simp)
    rcases List.mem_append.1 this with h | h
    · rcases intText_chars e ' ' h with h | h
      · exact absurd h (by decide)
      · exact absurd h (by decide)
    · exact absurd h (by decide)
  have hnil : ∀ (l : List Int), joinSep [',', ' '] (l.map (fun e => (toString e : String).toList)) = [] → l = [] := by
    intro l
    cases l with
    | nil => intro _; rfl
    | cons a l =>
      cases l with
      | nil => intro h; exact absurd h (by simpa [joinSep] using intText_ne_nil a)
      | cons b l => intro h; simp [joinSep] at h
  by_cases h1 : l = []
  · subst h1
    exact (hnil l' h.symm).symm
  · have h2 : l' ≠ [] := by
      rintro rfl
      exact h1 (hnil l h)
    have e1 := split_join [',', ' '] (by simp) (l.map (fun e => (toString e : String).toList)) (by simpa using h1) (hsep l)
    have e2 := split_join [',', ' '] (by simp) (l'.map (fun e => (toString e : String).toList)) (by simpa using h2) (hsep l')
    rw [h, e2] at e1
    exact (List.map_injective_iff.2 (fun a b hab => intText_injective (String.toList_injective hab)) e1).symm

theorem serializeActivity_iff (a b : Activity) (ha : a.events.Nodup) (hb : b.events.Nodup) :
    serializeActivity a = serializeActivity b ↔ SameSet a.events b.events := by
  constructor
  · intro h x
    have h' := congrArg String.toList h
    unfold serializeActivity at h'
    rw [String.toList_ofList, String.toList_ofList, joinTexts_eq, joinTexts_eq] at h'
    have h2 := intTexts_inj (List.append_cancel_left (List.append_cancel_right h'))
    rw [← (List.perm_insertionSort (· ≤ ·) a.events).mem_iff, h2, (List.perm_insertionSort _ _).mem_iff]
  · intro h
    have hp : a.events.Perm b.events := (List.perm_ext_iff_of_nodup ha hb).2 h
    have : a.events.insertionSort (· ≤ ·) = b.events.insertionSort (· ≤ ·) :=
      List.Perm.eq_of_pairwise (fun x y _ _ => Int.le_antisymm) (List.pairwise_insertionSort _ _)
        (List.pairwise_insertionSort _ _)
        ((List.perm_insertionSort _ _).trans (hp.trans (List.perm_insertionSort _ _).symm))
    unfold serializeActivity
    rw [this]

theorem serializeActivity_plain (a : Activity) : NoParentheses (serializeActivity a) := by
  have key : ∀ c ∈ (serializeActivity a).toList, c = '[' ∨ c = ']' ∨ c = ',' ∨ c = ' ' ∨ c = '-' ∨ c.isDigit = true := by
    intro c hc
    unfold serializeActivity at hc
    rw [String.toList_ofList, joinTexts_eq, joinSep_eq_intercalate] at hc
    rcases List.mem_append.1 hc with hc | hc
    · rcases List.mem_append.1 hc with hc | hc
      · left; simpa using hc
      · rcases mem_intercalate hc with hc | ⟨x, hx, hc⟩
        · simp only [List.mem_cons, List.not_mem_nil, or_false] at hc
          rcases hc with rfl | rfl <;> simp
        · obtain ⟨e, _, rfl⟩ := List.mem_map.1 hx
          rcases intText_chars e c hc with h | h
          · simp [h]
          · simp [h]
    · right; left; simpa using hc
  constructor <;> intro h <;> exact absurd (key _ h) (by decide)

theorem nameTree_serialize_iff (t u : ActTree) (ht : ProperSets t) (hu : ProperSets u) :
    nameTree serializeActivity t = nameTree serializeActivity u ↔ SameTree t u := by
  induction t using ActTree.rec (motive_2 := fun ts => ∀ us : List ActTree, (∀ a ∈ actsL ts, a.events.Nodup) →
      (∀ a ∈ actsL us, a.events.Nodup) →
      (nameTrees serializeActivity ts = nameTrees serializeActivity us ↔ SameTrees ts us)) generalizing u with
  | node a cs ih =>
    cases u with
    | node b ds =>
      have h1 := serializeActivity_iff a b (ht a (by simp [acts])) (hu b (by simp [acts]))
      have h2 := ih ds (fun x hx => ht x (by simp [acts, hx])) (fun x hx => hu x (by simp [acts, hx]))
      rw [nameTree, nameTree, NameTree.node.injEq, h1, h2, SameTree]
  | nil =>
    rename_i us _ _
    cases us <;> simp [nameTrees, SameTrees]
  | cons t ts ih1 ih2 =>
    rename_i us hts hus
    cases us with
    | nil => simp [nameTrees, SameTrees]
    | cons u us =>
      have h1 := ih1 u (fun x hx => hts x (by simp [actsL, hx])) (fun x hx => hus x (by simp [actsL, hx]))
      have h2 := ih2 us (fun x hx => hts x (by simp [actsL, hx])) (fun x hx => hus x (by simp [actsL, hx]))
      rw [nameTrees, nameTrees, List.cons.injEq, h1, h2, SameTrees]

/-- C103c: two activities have the same text exactly if they and their descendants have the same sets of events at the same
places. -/
theorem C103_activity_text (t u : ActTree) (ht : ProperSets t) (hu : ProperSets u) :
    activityText t = activityText u ↔ SameTree t u := by
  rw [← nameTree_serialize_iff t u ht hu]
  have plain : ∀ t : ActTree, ∀ v ∈ treeNodes (nameTree serializeActivity t), NoParentheses v.name := by
    intro t v hv
    have : v ∈ forestNodes (nameTrees serializeActivity [t]) := by simpa [nameTrees, forestNodes] using hv
    rw [forestNodes_nameTrees] at this
    obtain ⟨x, _, rfl⟩ := List.mem_map.1 this
    rw [nameTree_name]
    exact serializeActivity_plain _
  exact C103_class_text_partial _ _ (plain t) (plain u)

theorem last_space {x y d d' : List Char} (hd : ' ' ∉ d) (hd' : ' ' ∉ d') (e : x ++ ' ' :: d = y ++ ' ' :: d') : x = y ∧ d = d' := by
  have key : ∀ (d d' x y : List Char), ' ' ∉ d → ' ' ∉ d' → d ++ ' ' :: x = d' ++ ' ' :: y → d = d' ∧ x = y := by
    intro d
    induction d with
    | nil =>
      intro d' x y _ h2 e
      cases d' with
      | nil => exact ⟨rfl, (List.cons.inj e).2⟩
      | cons c d' => exact absurd (by rw [← (List.cons.inj e).1]; simp) h2
    | cons c d ih =>
      intro d' x y h1 h2 e
      cases d' with
      | nil => exact absurd (by rw [(List.cons.inj e).1]; simp) h1
      | cons c' d' =>
        rw [List.cons_append, List.cons_append] at e
        obtain ⟨rfl, e'⟩ := List.cons.inj e
        obtain ⟨rfl, rfl⟩ := ih d' x y (fun h => h1 (by simp [h])) (fun h => h2 (by simp [h])) e'
        exact ⟨rfl, rfl⟩
  have e' := congrArg List.reverse e
  simp only [List.reverse_append, List.reverse_cons, List.append_assoc, List.singleton_append] at e'
  obtain ⟨h1, h2⟩ := key _ _ _ _ (by simpa using hd) (by simpa using hd') e'
  exact ⟨List.reverse_injective h2, List.reverse_injective h1⟩

/-- C103d: the same for instances, with their places. -/
theorem C103_instance_text (i j : Instance) (hi : ProperSets i.node) (hj : ProperSets j.node) :
    instanceText i = instanceText j ↔ SameTree i.node j.node ∧ i.startPos = j.startPos ∧ i.length = j.length := by
  have nospace : ∀ n : Nat, ' ' ∉ (toString n : String).toList := fun n h => absurd (natText_isDigit n ' ' h) (by decide)
  constructor
  · intro h
    unfold instanceText at h
    have h1 := List.append_cancel_right h
    have shape : ∀ (A s l : List Char), ['('] ++ A ++ [',', ' '] ++ s ++ [',', ' '] ++ l =
        ((('(' :: A ++ [',']) ++ ' ' :: s) ++ [',']) ++ ' ' :: l := by intro A s l; simp
    rw [shape, shape] at h1
    obtain ⟨h2, h3⟩ := last_space (nospace _) (nospace _) h1
    obtain ⟨h4, h5⟩ := last_space (nospace _) (nospace _) (List.append_cancel_right h2)
    refine ⟨(C103_activity_text _ _ hi hj).1 ?_, natText_injective (String.toList_injective h5),
      natText_injective (String.toList_injective h3)⟩
    exact (List.cons.inj (List.append_cancel_right h4)).2
  · rintro ⟨h1, h2, h3⟩
    unfold instanceText
    rw [(C103_activity_text _ _ hi hj).2 h1, h2, h3]

example : instanceText ⟨.node (labelAct 0 "a::b" [2, -1]) [.node (labelAct 1 "b" [2]) []], 3, 2⟩ = "([-1, 2]([2]), 3, 2)".toList := by
  decide +kernel

example : ProperSets (.node (labelAct 0 "a::b" [2, -1]) [.node (labelAct 1 "b" [2]) []]) := by
  unfold ProperSets
  decide +kernel

end Ficus
