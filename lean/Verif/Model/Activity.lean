import Verif.Model.Tandem
import Mathlib.Data.List.Dedup
import Mathlib.Data.List.Sort

/-! Model of the repeat sets and of the activity forest of
`src/python/ficus/legacy/analysis/patterns/event_log_patterns.py`. -/

namespace Ficus

/-- `SubArrayInEventLog`, common/common_models.py:23-26. -/
structure SubArray where
  firstPos : Nat
  length : Nat
  deriving DecidableEq, Repr

/-- `SubArrayWithTraceIndex`, patterns_models.py:19-21. -/
structure RepeatSet where
  firstPos : Nat
  length : Nat
  traceIndex : Nat
  deriving DecidableEq, Repr

/-- `trace[start:start + length]` for non-negative bounds (event_log_patterns.py:153, 186 and others). -/
def slice {α : Type} (t : List α) (start length : Nat) : List α := (t.drop start).take length

/-- `list(sorted(set(l)))`, event_log_patterns.py:153. -/
def sortedSet (l : List Int) : List Int := l.dedup.insertionSort (fun a b => a ≤ b)

/-- The inner loop body of `_do_create_repeat_sets`, event_log_patterns.py:151-159. -/
def repeatSetStep (trace : List Int) (index : Nat) (d : Dict Int RepeatSet) (sub : SubArray) : Dict Int RepeatSet :=
  let h := collHashAll (fun h : Int => h) (sortedSet (slice trace sub.firstPos sub.length))
  if d.contains h then d
  else d.set h { firstPos := sub.firstPos, length := sub.length, traceIndex := index }

/-- The outer loop of `_do_create_repeat_sets`, event_log_patterns.py:149-160, over the zipped lists with the running
`index`. -/
def repeatSetLoop : List (List SubArray × List Int) → Nat → Dict Int RepeatSet → Dict Int RepeatSet
  | [], _, d => d
  | (subs, trace) :: rest, index, d => repeatSetLoop rest (index + 1) (subs.foldl (repeatSetStep trace index) d)

/-- `_do_create_repeat_sets`, event_log_patterns.py:145-162. -/
def createRepeatSetsOfHashes (hashes : List (List Int)) (subs : List (List SubArray)) : List RepeatSet :=
  (repeatSetLoop (subs.zip hashes) 0 []).map Prod.snd

/-- `create_repeat_sets`, event_log_patterns.py:138-142. -/
def createRepeatSets {E : Type} (log : Log E) (subs : List (List SubArray)) (ext : E → String) : List RepeatSet :=
  createRepeatSetsOfHashes (hashTraces ext log) subs

/-- `ActivityNode` without its children, patterns_models.py:26-43. `events` is `set_of_events` as a duplicate-free
list, `uid` is `_unique_index`, which also stands for the object identity of the node.
Simplification: the stored class extractor is left out. -/
structure Activity where
  uid : Nat
  name : String
  level : Nat
  repeatSet : RepeatSet
  events : List Int
  deriving DecidableEq, Repr

/-- `self.length = len(self.set_of_events)`, patterns_models.py:39. -/
def Activity.size (a : Activity) : Nat := a.events.length

/-- `contains_other`, patterns_models.py:45-46. -/
def Activity.containsOther (a b : Activity) : Bool := b.events.all (fun e => decide (e ∈ a.events))

/-- `unique_name`, patterns_models.py:54-55. -/
def Activity.uniqueName (a : Activity) : String := "Activity_" ++ toString a.uid

/-- An activity node with its `child_nodes` (`GraphNode`, common/common_models.py:4-7). -/
inductive ActTree
  | node (act : Activity) (children : List ActTree)

/-- The node itself. -/
def ActTree.act : ActTree → Activity
  | .node a _ => a

/-- `child_nodes`, common/common_models.py:7. -/
def ActTree.children : ActTree → List ActTree
  | .node _ cs => cs

mutual
/-- `parent.child_nodes.append(c)` for the node object with identity `p` inside a tree (event_log_patterns.py:228
and 238). The forest is a value here, so the mutation is an update at the place of the node. -/
def ActTree.appendChild (p : Nat) (c : Activity) : ActTree → ActTree
  | .node a cs => if a.uid = p then .node a (cs ++ [.node c []]) else .node a (ActTree.appendChildL p c cs)
/-- The same for a list of trees. -/
def ActTree.appendChildL (p : Nat) (c : Activity) : List ActTree → List ActTree
  | [] => []
  | t :: ts => ActTree.appendChild p c t :: ActTree.appendChildL p c ts
end

/-- `create_activity_node`, event_log_patterns.py:187-193 with `extract_set_events` 183-185. `nameOf` is
`activity_names_creator`; `uid` is the value of the global counter (patterns_models.py:41-43). -/
def createActivityNode (hashes : List (List Int)) (nameOf : RepeatSet → String) (level uid : Nat) (r : RepeatSet) :
    Except PyErr Activity :=
  match hashes[r.traceIndex]? with
  | none => .error .indexError
  | some trace =>
    .ok { uid := uid, name := nameOf r, level := level, repeatSet := r,
          events := (slice trace r.firstPos r.length).dedup }

/-- `list(map(create_activity_node, repeat_sets))`, event_log_patterns.py:198, with the running counter. -/
def createActivityNodes (hashes : List (List Int)) (nameOf : RepeatSet → String) (level : Nat) :
    Nat → List RepeatSet → Except PyErr (List Activity)
  | _, [] => .ok []
  | uid, r :: rs => do
    let a ← createActivityNode hashes nameOf level uid r
    let rest ← createActivityNodes hashes nameOf level (uid + 1) rs
    return a :: rest

/-- The state of the second loop of `_do_build_repeat_set_tree`: the forest `top_level_nodes`, `current_length`, and
`nodes_by_level`, kept with the newest level first. -/
structure ForestState where
  forest : List ActTree
  currentLength : Nat
  levels : List (List Activity)

/-- `nodes_by_level[-1].append(x)`, event_log_patterns.py:242, newest level first. -/
def appendToNewest (x : Activity) : List (List Activity) → List (List Activity)
  | [] => [[x]]
  | l :: ls => (l ++ [x]) :: ls

/-- The loop body event_log_patterns.py:218-244. The search over `nodes_by_level` from the last level to the first,
within a level from left to right, and then over `top_level_nodes`, takes the first node that contains the current
one; `activity_node != current_activity_node` compares identities (`ActivityNode` defines no `__eq__`). -/
def forestStep (st : ForestState) (cur : Activity) : ForestState :=
  let (len, levels) :=
    if cur.size < st.currentLength then (cur.size, [] :: st.levels) else (st.currentLength, st.levels)
  let isMatch := fun x : Activity => x.containsOther cur && decide (x.uid ≠ cur.uid)
  match levels.flatten.find? isMatch with
  | some p =>
    { forest := ActTree.appendChildL p.uid cur st.forest, currentLength := len, levels := appendToNewest cur levels }
  | none =>
    match (st.forest.map ActTree.act).find? isMatch with
    | some p =>
      { forest := ActTree.appendChildL p.uid cur st.forest, currentLength := len, levels := appendToNewest cur levels }
    | none =>
      { forest := st.forest ++ [.node cur []], currentLength := len, levels := appendToNewest cur levels }

/-- event_log_patterns.py:198-246 on the created nodes: sort by size (descending, stable), the nodes of maximal size
become roots, the others are placed one by one. -/
def forestOfNodes (nodes : List Activity) : List ActTree :=
  match nodes.insertionSort (fun a b => b.size ≤ a.size) with
  | [] => []
  | a :: rest =>
    let tops := a :: rest.takeWhile (fun x => decide (x.size = a.size))
    let below := rest.dropWhile (fun x => decide (x.size = a.size))
    match below with
    | [] => tops.map (fun x => .node x [])
    | b :: _ =>
      (below.foldl forestStep
        { forest := tops.map (fun x => .node x []), currentLength := b.size, levels := [[]] }).forest

/-- `_do_build_repeat_set_tree`, event_log_patterns.py:178-246. -/
def buildRepeatSetTreeOfHashes (hashes : List (List Int)) (repeatSets : List RepeatSet)
    (nameOf : RepeatSet → String) (level uid : Nat) : Except PyErr (List ActTree) :=
  if repeatSets.length = 0 then .ok []
  else (createActivityNodes hashes nameOf level uid repeatSets).map forestOfNodes

/-- `build_repeat_set_tree`, event_log_patterns.py:165-175. -/
def buildRepeatSetTree {E : Type} (log : Log E) (repeatSets : List RepeatSet) (nameOf : RepeatSet → String)
    (level : Nat) (ext : E → String) (uid : Nat := 0) : Except PyErr (List ActTree) :=
  buildRepeatSetTreeOfHashes (hashTraces ext log) repeatSets nameOf level uid

end Ficus
