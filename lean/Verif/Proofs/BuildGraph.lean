import Verif.Proofs.Nets

/-! Lemmas about `build_graph`. -/

namespace Ficus
open Spec

@[simp] theorem NameTree.name_node (n : String) (cs : List NameTree) : (NameTree.node n cs).name = n := rfl

@[simp] theorem NameTree.children_node (n : String) (cs : List NameTree) : (NameTree.node n cs).children = cs := rfl

/-- The edge of a name to its parent. -/
def pairEdge (e : String × String) : String × String × Option String := (endNode e.1, endNode e.2, none)

/-- The edges of names to a parent, if any. -/
def toParent (parent : Option String) (names : List String) : List (String × String × Option String) :=
  match parent with
  | none => []
  | some p => names.map (fun n => pairEdge (n, p))

theorem edges_edgeToParent (name : String) (parent : Option String) :
    edges (edgeToParent name parent) = toParent parent [name] := by
  cases parent <;> rfl

theorem nodeNames_edgeToParent (name : String) (parent : Option String) : nodeNames (edgeToParent name parent) = [] := by
  cases parent <;> rfl

theorem edges_node (n : String) : edges [DotStmt.node n none none] = [] := rfl

theorem nodeNames_node (n : String) : nodeNames [DotStmt.node n none none] = [n] := rfl

theorem toParent_append (parent : Option String) (a b : List String) :
    toParent parent (a ++ b) = toParent parent a ++ toParent parent b := by
  cases parent <;> simp [toParent]

/-- What the processing of `nodes` (with the top level names `tops`) does to the state. -/
structure BuildInv (parent : Option String) (tops : List String) (nodes : List NameTree) (st st' : BuildState) : Prop where
  names : st.stmts.length ≤ st'.stmts.length
  grows : ∀ n ∈ st.added, n ∈ st'.added
  keeps : ∀ e ∈ edges st.stmts, e ∈ edges st'.stmts
  inv : nodeNames st.stmts = st.added → nodeNames st'.stmts = st'.added
  nodup : st.added.Nodup → st'.added.Nodup
  tops_added : ∀ n ∈ tops, n ∈ st'.added
  tops_edges : ∀ e ∈ toParent parent tops, e ∈ edges st'.stmts
  complete : ∀ n ∈ st'.added, n ∉ st.added → ∃ v ∈ nodes, v.name = n ∧
    ∀ c ∈ v.children, c.name ∈ st'.added ∧ pairEdge (c.name, n) ∈ edges st'.stmts
  sound : ∀ e ∈ edges st'.stmts, e ∈ edges st.stmts ∨ e ∈ toParent parent tops ∨
    ∃ v ∈ nodes, ∃ c ∈ v.children, e = pairEdge (c.name, v.name)

mutual
theorem addNode_inv (parent : Option String) (t : NameTree) (st : BuildState) :
    BuildInv parent [t.name] (treeNodes t) st (addNode parent t st) := by
  cases t with
  | node name cs =>
    rw [addNode]
    split
    · rename_i h
      constructor
      · simp
      · exact fun n hn => hn
      · intro e he; simp only [edges_append, List.mem_append]; exact Or.inl he
      · intro hi; simp only [nodeNames_append, nodeNames_edgeToParent, List.append_nil]; exact hi
      · exact fun hn => hn
      · intro n hn; simp only [NameTree.name_node, List.mem_singleton] at hn; subst hn; exact h
      · intro e he
        simp only [edges_append, edges_edgeToParent, List.mem_append]; exact Or.inr he
      · intro n hn hn'; exact absurd hn hn'
      · intro e he
        simp only [edges_append, edges_edgeToParent, List.mem_append] at he
        rcases he with he | he
        · exact Or.inl he
        · exact Or.inr (Or.inl he)
    · rename_i h
      have ih := addNodes_inv (some name) cs
        { added := st.added ++ [name], stmts := st.stmts ++ edgeToParent name parent ++ [.node name none none] }
      have hmem := ih.grows name (by simp)
      constructor
      · have := ih.names; simp only [List.length_append] at this; omega
      · exact fun n hn => ih.grows n (by simp [hn])
      · intro e he; exact ih.keeps e (by simp only [edges_append, List.mem_append]; exact Or.inl (Or.inl he))
      · intro hi
        apply ih.inv
        simp only [nodeNames_append, nodeNames_edgeToParent, nodeNames_node, List.append_nil, hi]
      · intro hn
        apply ih.nodup
        rw [List.nodup_append]
        exact ⟨hn, by simp, fun a ha b hb => by
          simp only [List.mem_singleton] at hb; subst hb; rintro rfl; exact h ha⟩
      · intro n hn; simp only [NameTree.name_node, List.mem_singleton] at hn; subst hn; exact hmem
      · intro e he
        apply ih.keeps
        simp only [edges_append, edges_edgeToParent, List.mem_append]
        exact Or.inl (Or.inr he)
      · intro n hn hn'
        by_cases hnm : n = name
        · subst hnm
          refine ⟨.node n cs, by simp [treeNodes], rfl, ?_⟩
          intro c hc
          refine ⟨ih.tops_added _ (List.mem_map.2 ⟨c, hc, rfl⟩), ih.tops_edges _ ?_⟩
          simp only [toParent, List.mem_map]
          exact ⟨c.name, ⟨c, hc, rfl⟩, rfl⟩
        · obtain ⟨v, hv, h1, h2⟩ := ih.complete n hn (by simp [hn', hnm])
          exact ⟨v, by simp [treeNodes, hv], h1, h2⟩
      · intro e he
        rcases ih.sound e he with he | he | ⟨v, hv, c, hc, he⟩
        · simp only [edges_append, edges_edgeToParent, edges_node, List.append_nil, List.mem_append] at he
          rcases he with he | he
          · exact Or.inl he
          · exact Or.inr (Or.inl he)
        · simp only [toParent, List.mem_map] at he
          obtain ⟨x, ⟨c, hc, rfl⟩, rfl⟩ := he
          exact Or.inr (Or.inr ⟨.node name cs, by simp [treeNodes], c, hc, rfl⟩)
        · exact Or.inr (Or.inr ⟨v, by simp [treeNodes, hv], c, hc, he⟩)
theorem addNodes_inv (parent : Option String) (ts : List NameTree) (st : BuildState) :
    BuildInv parent (ts.map NameTree.name) (forestNodes ts) st (addNodes parent ts st) := by
  cases ts with
  | nil =>
    rw [addNodes]
    constructor
    · exact Nat.le_refl _
    · exact fun n hn => hn
    · exact fun e he => he
    · exact fun h => h
    · exact fun h => h
    · simp
    · cases parent <;> simp [toParent]
    · intro n hn hn'; exact absurd hn hn'
    · exact fun e he => Or.inl he
  | cons t ts =>
    rw [addNodes]
    have h1 := addNode_inv parent t st
    have h2 := addNodes_inv parent ts (addNode parent t st)
    have hp : toParent parent ((t :: ts).map NameTree.name) =
        toParent parent [t.name] ++ toParent parent (ts.map NameTree.name) := by
      rw [← toParent_append]; rfl
    constructor
    · exact Nat.le_trans h1.names h2.names
    · exact fun n hn => h2.grows n (h1.grows n hn)
    · exact fun e he => h2.keeps e (h1.keeps e he)
    · exact fun h => h2.inv (h1.inv h)
    · exact fun h => h2.nodup (h1.nodup h)
    · intro n hn
      simp only [List.map_cons, List.mem_cons] at hn
      rcases hn with rfl | hn
      · exact h2.grows _ (h1.tops_added _ (by simp))
      · exact h2.tops_added n hn
    · intro e he
      rw [hp] at he
      rcases List.mem_append.1 he with he | he
      · exact h2.keeps e (h1.tops_edges e he)
      · exact h2.tops_edges e he
    · intro n hn hn'
      by_cases hm : n ∈ (addNode parent t st).added
      · obtain ⟨v, hv, h3, h4⟩ := h1.complete n hm hn'
        exact ⟨v, by simp [forestNodes, hv], h3, fun c hc => ⟨h2.grows _ (h4 c hc).1, h2.keeps _ (h4 c hc).2⟩⟩
      · obtain ⟨v, hv, h3, h4⟩ := h2.complete n hn hm
        exact ⟨v, by simp [forestNodes, hv], h3, h4⟩
    · intro e he
      rcases h2.sound e he with he | he | ⟨v, hv, c, hc, he⟩
      · rcases h1.sound e he with he | he | ⟨v, hv, c, hc, he⟩
        · exact Or.inl he
        · exact Or.inr (Or.inl (by rw [hp]; exact List.mem_append_left _ he))
        · exact Or.inr (Or.inr ⟨v, by simp [forestNodes, hv], c, hc, he⟩)
      · exact Or.inr (Or.inl (by rw [hp]; exact List.mem_append_right _ he))
      · exact Or.inr (Or.inr ⟨v, by simp [forestNodes, hv], c, hc, he⟩)
end

mutual
/-- With fresh distinct names every node and every edge is added once, parents before children. -/
theorem addNode_fresh (parent : Option String) (t : NameTree) (st : BuildState)
    (h : (st.added ++ (treeNodes t).map NameTree.name).Nodup) :
    (addNode parent t st).added = st.added ++ (treeNodes t).map NameTree.name ∧
    (edges (addNode parent t st).stmts).Perm (edges st.stmts ++ toParent parent [t.name] ++
      ((treeNodes t).flatMap (fun p => p.children.map (fun c => (c.name, p.name)))).map pairEdge) := by
  cases t with
  | node name cs =>
    have hn : name ∉ st.added := by
      intro hm
      rw [List.nodup_append] at h
      exact h.2.2 _ hm name (by simp [treeNodes]) rfl
    rw [addNode, if_neg hn]
    obtain ⟨h1, h2⟩ := addNodes_fresh (some name) cs
      { added := st.added ++ [name], stmts := st.stmts ++ edgeToParent name parent ++ [.node name none none] }
      (by simpa [treeNodes] using h)
    refine ⟨by rw [h1]; simp [treeNodes], ?_⟩
    refine h2.trans ?_
    simp only [edges_append, edges_edgeToParent, edges_node, List.append_nil, treeNodes, List.flatMap_cons,
      List.map_append, NameTree.name_node, NameTree.children_node, List.append_assoc]
    simp [toParent, Function.comp_def]
theorem addNodes_fresh (parent : Option String) (ts : List NameTree) (st : BuildState)
    (h : (st.added ++ (forestNodes ts).map NameTree.name).Nodup) :
    (addNodes parent ts st).added = st.added ++ (forestNodes ts).map NameTree.name ∧
    (edges (addNodes parent ts st).stmts).Perm (edges st.stmts ++ toParent parent (ts.map NameTree.name) ++
      ((forestNodes ts).flatMap (fun p => p.children.map (fun c => (c.name, p.name)))).map pairEdge) := by
  cases ts with
  | nil =>
    rw [addNodes]
    refine ⟨by simp [forestNodes], ?_⟩
    cases parent <;> simp [forestNodes, toParent]
  | cons t ts =>
    rw [addNodes]
    have h' : (st.added ++ (treeNodes t).map NameTree.name ++ (forestNodes ts).map NameTree.name).Nodup := by
      simpa [forestNodes] using h
    obtain ⟨h1, h2⟩ := addNode_fresh parent t st (List.nodup_append.1 h').1
    obtain ⟨h3, h4⟩ := addNodes_fresh parent ts (addNode parent t st) (by rw [h1]; exact h')
    refine ⟨by rw [h3, h1]; simp [forestNodes], h4.trans ?_⟩
    have hp : toParent parent ((t :: ts).map NameTree.name) =
        toParent parent [t.name] ++ toParent parent (ts.map NameTree.name) := by
      rw [← toParent_append]; rfl
    rw [hp]
    simp only [forestNodes, List.flatMap_append, List.map_append]
    refine ((h2.append_right _).append_right _).trans ?_
    simp only [List.append_assoc]
    refine List.Perm.append_left _ (List.Perm.append_left _ ?_)
    rw [← List.append_assoc, ← List.append_assoc]
    exact List.Perm.append_right _ List.perm_append_comm
end

end Ficus
