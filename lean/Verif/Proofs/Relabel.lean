import Verif.Spec.DiscoveryParts
import Verif.Props.Discovery

/-! Changing the names and levels of activities commutes with the construction of the forest and with the extraction. -/

namespace Ficus
open Spec
variable {E : Type}

/-- The change keeps identities and event sets. -/
def KeepsSets (f : Activity → Activity) : Prop := ∀ a, (f a).uid = a.uid ∧ (f a).events = a.events

theorem mapTrees_eq (f : Activity → Activity) (ts : List ActTree) : mapTrees f ts = ts.map (mapTree f) := by
  induction ts with
  | nil => rfl
  | cons t ts ih => rw [mapTrees, ih, List.map_cons]

theorem mapTree_act (f : Activity → Activity) (t : ActTree) : (mapTree f t).act = f t.act := by cases t; rfl

theorem mapTree_children (f : Activity → Activity) (t : ActTree) :
    (mapTree f t).children = t.children.map (mapTree f) := by
  cases t; simp [mapTree, ActTree.children, mapTrees_eq]

theorem KeepsSets.size {f : Activity → Activity} (h : KeepsSets f) (a : Activity) : (f a).size = a.size := by
  unfold Activity.size; rw [(h a).2]

theorem KeepsSets.treeSize {f : Activity → Activity} (h : KeepsSets f) (t : ActTree) : (mapTree f t).size = t.size := by
  unfold ActTree.size; rw [mapTree_act, h.size]

theorem KeepsSets.treeEvents {f : Activity → Activity} (h : KeepsSets f) (t : ActTree) : (mapTree f t).events = t.events := by
  unfold ActTree.events; rw [mapTree_act, (h _).2]

theorem KeepsSets.covers {f : Activity → Activity} (h : KeepsSets f) (t : ActTree) (s : List Int) :
    (mapTree f t).covers s = t.covers s := by
  unfold ActTree.covers; rw [h.treeEvents]

theorem KeepsSets.contains {f : Activity → Activity} (h : KeepsSets f) (a b : Activity) :
    (f a).containsOther (f b) = a.containsOther b := by
  unfold Activity.containsOther; rw [(h a).2, (h b).2]

mutual
theorem appendChild_map {f : Activity → Activity} (h : KeepsSets f) (p : Nat) (c : Activity) (t : ActTree) :
    ActTree.appendChild p (f c) (mapTree f t) = mapTree f (ActTree.appendChild p c t) := by
  match t with
  | .node a cs =>
    rw [mapTree, ActTree.appendChild, ActTree.appendChild, (h a).1]
    split
    · rw [mapTree, mapTrees_eq, mapTrees_eq, List.map_append]; rfl
    · rw [mapTree, appendChildL_map h p c cs]
theorem appendChildL_map {f : Activity → Activity} (h : KeepsSets f) (p : Nat) (c : Activity) (ts : List ActTree) :
    ActTree.appendChildL p (f c) (mapTrees f ts) = mapTrees f (ActTree.appendChildL p c ts) := by
  match ts with
  | [] => rfl
  | t :: ts =>
    rw [mapTrees, ActTree.appendChildL, ActTree.appendChildL, mapTrees, appendChild_map h p c t, appendChildL_map h p c ts]
end

/-- The state with changed activities. -/
def ForestState.mapActs (f : Activity → Activity) (st : ForestState) : ForestState :=
  { forest := st.forest.map (mapTree f), currentLength := st.currentLength, levels := st.levels.map (List.map f) }

theorem find?_map' {α β : Type} (f : α → β) (p : β → Bool) (q : α → Bool) (h : ∀ x, p (f x) = q x) (l : List α) :
    (l.map f).find? p = (l.find? q).map f := by
  induction l with
  | nil => rfl
  | cons a l ih =>
    rw [List.map_cons, List.find?_cons, List.find?_cons, h, ih]
    cases q a <;> rfl

theorem appendToNewest_map (f : Activity → Activity) (x : Activity) (ls : List (List Activity)) :
    appendToNewest (f x) (ls.map (List.map f)) = (appendToNewest x ls).map (List.map f) := by
  cases ls <;> simp [appendToNewest]

/-- The place of the next activity, for given levels. -/
def placed (len : Nat) (levels : List (List Activity)) (forest : List ActTree) (cur : Activity) : ForestState :=
  let isMatch := fun x : Activity => x.containsOther cur && decide (x.uid ≠ cur.uid)
  match levels.flatten.find? isMatch with
  | some p => { forest := ActTree.appendChildL p.uid cur forest, currentLength := len, levels := appendToNewest cur levels }
  | none =>
    match (forest.map ActTree.act).find? isMatch with
    | some p => { forest := ActTree.appendChildL p.uid cur forest, currentLength := len, levels := appendToNewest cur levels }
    | none => { forest := forest ++ [.node cur []], currentLength := len, levels := appendToNewest cur levels }

theorem forestStep_placed (st : ForestState) (cur : Activity) :
    forestStep st cur = if cur.size < st.currentLength then placed cur.size ([] :: st.levels) st.forest cur
      else placed st.currentLength st.levels st.forest cur := by
  unfold forestStep placed
  by_cases hc : cur.size < st.currentLength
  · simp only [if_pos hc]; rfl
  · simp only [if_neg hc]; rfl

theorem placed_map {f : Activity → Activity} (h : KeepsSets f) (len : Nat) (levels : List (List Activity))
    (forest : List ActTree) (cur : Activity) :
    placed len (levels.map (List.map f)) (forest.map (mapTree f)) (f cur) = (placed len levels forest cur).mapActs f := by
  have hp : ∀ x : Activity, ((f x).containsOther (f cur) && decide ((f x).uid ≠ (f cur).uid)) =
      (x.containsOther cur && decide (x.uid ≠ cur.uid)) := by
    intro x; rw [h.contains, (h x).1, (h cur).1]
  have hroots : (forest.map (mapTree f)).map ActTree.act = (forest.map ActTree.act).map f := by
    simp [mapTree_act]
  have e1 := find?_map' f (fun x => x.containsOther (f cur) && decide (x.uid ≠ (f cur).uid)) _ hp levels.flatten
  have e2 := find?_map' f (fun x => x.containsOther (f cur) && decide (x.uid ≠ (f cur).uid)) _ hp (forest.map ActTree.act)
  unfold placed
  simp only []
  rw [← List.map_flatten, e1, hroots, e2]
  cases levels.flatten.find? (fun x => x.containsOther cur && decide (x.uid ≠ cur.uid)) with
  | some p =>
    simp only [Option.map_some, ForestState.mapActs, (h p).1, appendToNewest_map]
    rw [← mapTrees_eq, appendChildL_map h, mapTrees_eq]
  | none =>
    simp only [Option.map_none]
    cases (forest.map ActTree.act).find? (fun x => x.containsOther cur && decide (x.uid ≠ cur.uid)) with
    | some p =>
      simp only [Option.map_some, ForestState.mapActs, (h p).1, appendToNewest_map]
      rw [← mapTrees_eq, appendChildL_map h, mapTrees_eq]
    | none => simp [ForestState.mapActs, appendToNewest_map, mapTree, mapTrees]

theorem forestStep_map {f : Activity → Activity} (h : KeepsSets f) (st : ForestState) (cur : Activity) :
    forestStep (st.mapActs f) (f cur) = (forestStep st cur).mapActs f := by
  rw [forestStep_placed, forestStep_placed, h.size]
  by_cases hc : cur.size < st.currentLength
  · have : cur.size < (st.mapActs f).currentLength := hc
    rw [if_pos hc, if_pos this]
    exact placed_map h cur.size ([] :: st.levels) st.forest cur
  · have : ¬ cur.size < (st.mapActs f).currentLength := hc
    rw [if_neg hc, if_neg this]
    exact placed_map h st.currentLength st.levels st.forest cur

theorem forestFold_map {f : Activity → Activity} (h : KeepsSets f) (l : List Activity) (st : ForestState) :
    (l.map f).foldl forestStep (st.mapActs f) = (l.foldl forestStep st).mapActs f := by
  induction l generalizing st with
  | nil => rfl
  | cons a l ih => rw [List.map_cons, List.foldl_cons, List.foldl_cons, forestStep_map h, ih]

theorem takeWhile_map' {α β : Type} (f : α → β) (p : β → Bool) (q : α → Bool) (h : ∀ x, p (f x) = q x) (l : List α) :
    (l.map f).takeWhile p = (l.takeWhile q).map f ∧ (l.map f).dropWhile p = (l.dropWhile q).map f := by
  induction l with
  | nil => exact ⟨rfl, rfl⟩
  | cons a l ih =>
    simp only [List.map_cons, List.takeWhile_cons, List.dropWhile_cons, h]
    cases q a
    · simp
    · simpa using ih

theorem forestOfNodes_map {f : Activity → Activity} (h : KeepsSets f) (nodes : List Activity) :
    forestOfNodes (nodes.map f) = (forestOfNodes nodes).map (mapTree f) := by
  have hs : (nodes.map f).insertionSort (fun a b => b.size ≤ a.size) =
      (nodes.insertionSort (fun a b => b.size ≤ a.size)).map f :=
    (List.map_insertionSort _ _ f nodes (fun a _ b _ => by rw [h.size, h.size])).symm
  unfold forestOfNodes
  rw [hs]
  cases nodes.insertionSort (fun a b => b.size ≤ a.size) with
  | nil => rfl
  | cons a rest =>
    have ht := takeWhile_map' f (fun x => decide (x.size = (f a).size)) (fun x => decide (x.size = a.size))
      (fun x => by rw [h.size, h.size]) rest
    simp only [List.map_cons]
    rw [ht.1, ht.2]
    cases rest.dropWhile (fun x => decide (x.size = a.size)) with
    | nil => simp [mapTree, mapTrees]
    | cons b below =>
      simp only [List.map_cons, h.size]
      have := congrArg ForestState.forest (forestFold_map h (b :: below)
        { forest := (a :: rest.takeWhile (fun x => decide (x.size = a.size))).map (fun x => ActTree.node x []),
          currentLength := b.size, levels := [[]] })
      simp only [ForestState.mapActs, List.map_map, List.map_cons, List.map_nil] at this
      simp only [List.map_map]
      rw [← this]
      simp [mapTree, mapTrees, Function.comp_def]

theorem createActivityNodes_relabel (hashes : List (List Int)) (nameOf : RepeatSet → String) (f : String → String)
    (level level' uid : Nat) (rs : List RepeatSet) :
    createActivityNodes hashes (fun r => f (nameOf r)) level' uid rs =
      (createActivityNodes hashes nameOf level uid rs).map (List.map (relabelled f level')) := by
  induction rs generalizing uid with
  | nil => rfl
  | cons r rs ih =>
    simp only [createActivityNodes, createActivityNode]
    cases hashes[r.traceIndex]? with
    | none => rfl
    | some t =>
      rw [ih (uid + 1)]
      cases createActivityNodes hashes nameOf level (uid + 1) rs <;> rfl

theorem relabelled_keeps (f : String → String) (level : Nat) : KeepsSets (relabelled f level) := fun _ => ⟨rfl, rfl⟩

theorem buildTree_relabel (log : Log E) (rs : List RepeatSet) (nameOf : RepeatSet → String) (f : String → String)
    (level level' uid : Nat) (ext : E → String) :
    buildRepeatSetTree log rs (fun r => f (nameOf r)) level' ext uid =
      (buildRepeatSetTree log rs nameOf level ext uid).map (List.map (mapTree (relabelled f level'))) := by
  unfold buildRepeatSetTree buildRepeatSetTreeOfHashes
  split
  · rfl
  · rw [createActivityNodes_relabel _ nameOf f level]
    cases createActivityNodes (hashTraces ext log) nameOf level uid rs with
    | error e => rfl
    | ok nodes =>
      simp only [Except.map]
      rw [forestOfNodes_map (relabelled_keeps f level')]

/-! ### Extraction -/

theorem groupBySizeLoop_map {f : Activity → Activity} (h : KeepsSets f) (groups : List (List ActTree)) (cur : Nat)
    (xs : List ActTree) :
    groupBySizeLoop (groups.map (List.map (mapTree f))) cur (xs.map (mapTree f)) =
      (groupBySizeLoop groups cur xs).map (List.map (mapTree f)) := by
  induction xs generalizing groups cur with
  | nil => rfl
  | cons x xs ih =>
    rw [List.map_cons, groupBySizeLoop, groupBySizeLoop, h.treeSize]
    split
    · rw [← ih]; simp
    · rw [← ih]
      congr 1
      have : ((groups.map (List.map (mapTree f))).getLastD []) = (groups.getLastD []).map (mapTree f) := by
        rw [List.getLastD_eq_getLast?, List.getLastD_eq_getLast?, List.getLast?_map]
        cases groups.getLast? <;> rfl
      rw [this]
      simp [List.map_dropLast]

/-- The change keeps the order of the names of these trees. -/
def KeepsOrder (f : Activity → Activity) (nodes : List ActTree) : Prop :=
  ∀ a ∈ nodes, ∀ b ∈ nodes, a.act.name ≤ b.act.name ↔ (f a.act).name ≤ (f b.act).name

theorem splitBySize_map {f : Activity → Activity} (h : KeepsSets f) {nodes : List ActTree} (ho : KeepsOrder f nodes) :
    splitBySize (nodes.map (mapTree f)) = (splitBySize nodes).map (List.map (mapTree f)) := by
  have hs : (nodes.map (mapTree f)).insertionSort (fun a b => a.size ≤ b.size) =
      (nodes.insertionSort (fun a b => a.size ≤ b.size)).map (mapTree f) :=
    (List.map_insertionSort _ _ (mapTree f) nodes (fun a _ b _ => by rw [h.treeSize, h.treeSize])).symm
  unfold splitBySize
  rw [hs]
  cases hn : nodes.insertionSort (fun a b => a.size ≤ b.size) with
  | nil => rfl
  | cons a rest =>
    simp only [List.map_cons]
    have := groupBySizeLoop_map h [[a]] a.size rest
    simp only [List.map_cons, List.map_nil] at this
    rw [h.treeSize, this, List.map_map, List.map_map]
    apply List.map_congr_left
    intro g hg
    have hmem : ∀ x ∈ g, x ∈ nodes := by
      intro x hx
      have h1 := (groupBySizeLoop_spec [[a]] a.size rest (by simp) (by simp) (by simp)).1
      have h2 : x ∈ (groupBySizeLoop [[a]] a.size rest).flatten := List.mem_flatten.2 ⟨g, hg, hx⟩
      rw [h1] at h2
      simp only [List.flatten_cons, List.flatten_nil, List.append_nil, List.singleton_append] at h2
      rw [← hn] at h2
      exact (List.perm_insertionSort _ _).subset h2
    simp only [Function.comp_apply]
    rw [List.map_insertionSort (r := fun a b : ActTree => a.act.name ≤ b.act.name)
      (s := fun a b : ActTree => a.act.name ≤ b.act.name) (mapTree f) g
      (fun x hx y hy => by rw [mapTree_act, mapTree_act]; exact ho x (hmem x hx) y (hmem y hy))]

theorem countL_map (f : Activity → Activity) (t : ActTree) : ActTree.count (mapTree f t) = ActTree.count t := by
  refine ActTree.rec (motive_1 := fun t => ActTree.count (mapTree f t) = ActTree.count t)
    (motive_2 := fun ts => ActTree.countL (mapTrees f ts) = ActTree.countL ts) ?_ ?_ ?_ t
  · intro a cs ih
    rw [mapTree, ActTree.count, ActTree.count, ih]
  · rfl
  · intro t ts h1 h2
    rw [mapTrees, ActTree.countL, ActTree.countL, h1, h2]

theorem countL_maps (f : Activity → Activity) (ts : List ActTree) :
    ActTree.countL (ts.map (mapTree f)) = ActTree.countL ts := by
  induction ts with
  | nil => rfl
  | cons t ts ih => rw [List.map_cons, ActTree.countL, ActTree.countL, ih, countL_map]

theorem narrowLoop_map {f : Activity → Activity} (h : KeepsSets f) (s : List Int) (fuel : Nat) (q result : List ActTree) :
    narrowLoop s fuel (q.map (mapTree f)) (result.map (mapTree f)) =
      (narrowLoop s fuel q result).map (List.map (mapTree f)) := by
  induction fuel generalizing q result with
  | zero => cases q <;> rfl
  | succ fuel ih =>
    cases q with
    | nil => rfl
    | cons t q =>
      rw [List.map_cons, narrowLoop, narrowLoop, h.covers]
      split
      · rw [← ih, mapTree_children, List.map_append, List.map_append]; rfl
      · rw [← ih]

theorem narrowActivity_map {f : Activity → Activity} (h : KeepsSets f) (t : ActTree) (s : List Int) :
    narrowActivity (mapTree f t) s = (narrowActivity t s).map (mapTree f) := by
  unfold narrowActivity
  have := narrowLoop_map h s (ActTree.countL t.children) t.children []
  rw [List.map_nil] at this
  rw [mapTree_children, countL_maps, this]
  cases narrowLoop s (ActTree.countL t.children) t.children [] with
  | none => rfl
  | some result =>
    simp only [Option.map_some]
    rw [← List.map_insertionSort (r := fun a b : ActTree => a.size ≤ b.size) (s := fun a b : ActTree => a.size ≤ b.size)
      (mapTree f) result (fun a _ b _ => by rw [h.treeSize, h.treeSize])]
    cases result.insertionSort (fun a b : ActTree => a.size ≤ b.size) <;> rfl

theorem narrowed_map {f : Activity → Activity} (h : KeepsSets f) (t : ActTree) (s : List Int) :
    narrowed (mapTree f t) s = mapTree f (narrowed t s) := by
  have h1 := narrowActivity_eq (mapTree f t) s
  rw [narrowActivity_map h, narrowActivity_eq] at h1
  exact (Option.some.inj h1).symm

theorem findStart_map {f : Activity → Activity} (h : KeepsSets f) (groups : List (List ActTree)) (e : Int) :
    findStart (groups.map (List.map (mapTree f))) e = (findStart groups e).map (mapTree f) := by
  rw [findStart_eq, findStart_eq, ← List.map_flatten]
  exact find?_map' _ _ _ (fun x => by rw [h.treeEvents]) _

theorem findLarger_map {f : Activity → Activity} (h : KeepsSets f) (groups : List (List ActTree)) (cur : ActTree)
    (s : List Int) :
    findLarger (groups.map (List.map (mapTree f))) (mapTree f cur) s = (findLarger groups cur s).map (mapTree f) := by
  unfold findLarger
  induction groups with
  | nil => rfl
  | cons g groups ih =>
    rw [List.map_cons, List.findSome?_cons, List.findSome?_cons, ih]
    cases g with
    | nil => rfl
    | cons a g =>
      simp only [List.map_cons]
      rw [h.treeSize, h.treeSize]
      by_cases hc : a.size < cur.size
      · rw [if_pos hc, if_pos hc]
      · rw [if_neg hc, if_neg hc]
        have := find?_map' (mapTree f) (fun a => a.covers s) (fun a => a.covers s) (fun x => h.covers x s) (a :: g)
        rw [List.map_cons] at this
        rw [this]
        cases (a :: g).find? (fun a => a.covers s) <;> rfl

/-- A segment with changed activities. -/
def Seg.mapActs (f : Activity → Activity) (g : Seg) : Seg := { g with act := mapTree f g.act }

/-- A situation with changed activities. -/
def mapCurrent (f : Activity → Activity) (c : ActTree × Nat × List Int) : ActTree × Nat × List Int := (mapTree f c.1, c.2)

theorem scan_map {f : Activity → Activity} (h : KeepsSets f) (groups : List (List ActTree)) (rest : List Int) (idx : Nat)
    (c : Option (ActTree × Nat × List Int)) :
    scan (groups.map (List.map (mapTree f))) rest idx (c.map (mapCurrent f)) =
      (scan groups rest idx c).map (Seg.mapActs f) := by
  induction rest generalizing idx c with
  | nil =>
    cases c with
    | none => rfl
    | some c => obtain ⟨a, s, seen⟩ := c; rfl
  | cons e rest ih =>
    have hstart : (findStart (groups.map (List.map (mapTree f))) e).map (fun a => (a, idx, [e])) =
        ((findStart groups e).map (fun a => (a, idx, [e]))).map (mapCurrent f) := by
      rw [findStart_map h, Option.map_map, Option.map_map]; rfl
    cases c with
    | none =>
      simp only [Option.map_none, scan]
      rw [hstart, ih]
    | some c =>
      obtain ⟨a, s, seen⟩ := c
      simp only [Option.map_some, mapCurrent, scan]
      rw [h.treeEvents]
      by_cases he : e ∈ a.events
      · rw [if_pos he, if_pos he]
        exact ih (idx + 1) (some (a, s, e :: seen))
      · rw [if_neg he, if_neg he, findLarger_map h]
        cases findLarger groups a (e :: seen) with
        | some a' => exact ih (idx + 1) (some (a', s, e :: seen))
        | none =>
          simp only [Option.map_none, List.map_cons]
          rw [hstart, ih]; rfl

theorem instancesOf_map {f : Activity → Activity} (h : KeepsSets f) {nodes : List ActTree} (ho : KeepsOrder f nodes)
    (sn : Bool) (filter : Instance → Bool) (hf : ∀ i, filter (mapInstance f i) = filter i) (t : List Int) :
    instancesOf (nodes.map (mapTree f)) sn filter t = (instancesOf nodes sn filter t).map (mapInstance f) := by
  unfold instancesOf
  have hs := scan_map h (splitBySize nodes) t 0 none
  rw [Option.map_none] at hs
  rw [splitBySize_map h ho, hs, List.map_map, List.filter_map, List.filter_map, List.map_map]
  have e1 : ∀ g : Seg, Seg.toInstance sn (g.mapActs f) = mapInstance f (Seg.toInstance sn g) := by
    intro g
    unfold Seg.toInstance Seg.mapActs mapInstance
    cases sn
    · rfl
    · simp [narrowed_map h]
  have e2 : filter ∘ (Seg.toInstance sn ∘ Seg.mapActs f) = filter ∘ Seg.toInstance sn := by
    funext g; simp only [Function.comp_apply, e1, hf]
  rw [e2]
  exact List.map_congr_left (fun g _ => e1 g)

end Ficus
