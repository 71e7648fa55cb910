import Verif.Model.RsTandem
import Verif.Model.Activity
import Mathlib.Data.String.Basic

/-! Model of the repeat sets, of the graph of activities, of narrowing and of the extraction of activity instances of the
backend: features/analysis/patterns/repeat_sets.rs and activity_instances.rs (all paths are below
/repo/src/rust/ficus_backend/src). `none` is a panic; sets of classes are lists without duplicates. `SubArray` and `RepeatSet` are
the structures of the local code with the fields of `SubArrayInTraceInfo`, tandem_arrays.rs:5-9, and
`SubArrayWithTraceIndex`, repeat_sets.rs:11-15. -/

namespace Ficus.Rs

/-! ### Repeat sets -/

/-- The sorted vector of the classes of a sub-array, repeat_sets.rs:35-45; the slice panics beyond the end of the trace. The order
in which the set is iterated does not matter, as the vector is sorted. -/
def classVector (trace : List Nat) (p : SubArray) : Option (List Nat) :=
  if p.firstPos + p.length ≤ trace.length then
    some ((slice trace p.firstPos p.length).dedup.insertionSort (fun a b => a ≤ b))
  else none

/-- The body of the loop over the patterns of a trace, repeat_sets.rs:35-51. -/
def addRepeatSet (wordHash : List Nat → Option Nat) (trace : List Nat) (index : Nat) (d : Dict Nat RepeatSet) (p : SubArray) :
    Option (Dict Nat RepeatSet) := do
  let hash ← wordHash (← classVector trace p)
  return if d.contains hash then d else d.set hash ⟨p.firstPos, p.length, index⟩

/-- The loop over the traces, repeat_sets.rs:33-55. -/
def repeatSetMap (wordHash : List Nat → Option Nat) : List (List Nat × List SubArray) → Nat → Dict Nat RepeatSet →
    Option (Dict Nat RepeatSet)
  | [], _, d => some d
  | (trace, patterns) :: rest, index, d => do
    repeatSetMap wordHash rest (index + 1) (← patterns.foldlM (addRepeatSet wordHash trace index) d)

/-- The comparison of repeat_sets.rs:62-72: by trace, then by start, then by length. -/
def comesFirst (first second : RepeatSet) : Prop :=
  if first.traceIndex = second.traceIndex then
    if first.firstPos ≠ second.firstPos then first.firstPos ≤ second.firstPos else first.length ≤ second.length
  else first.traceIndex ≤ second.traceIndex

instance : DecidableRel comesFirst := fun a b => by unfold comesFirst; infer_instance

/-- `build_repeat_sets`, repeat_sets.rs:27-75. `sort_by` is stable, as `insertionSort` is. -/
def buildRepeatSets (it : Iter) (wordHash : List Nat → Option Nat) (log : List (List Nat)) (patterns : List (List SubArray)) :
    Option (List RepeatSet) := do
  let map ← repeatSetMap wordHash (log.zip patterns) 0 []
  return (it.order "repeat_sets.rs:58" 0 (map.map Prod.snd)).insertionSort comesFirst

/-! ### The graph of activities -/

/-- `ActivityNode`, repeat_sets.rs:77-84. Nodes are shared by pointers in the code; here a pointer is a number. -/
structure RNode where
  repeatSet : Option RepeatSet
  classes : List Nat
  children : List Nat
  level : Nat
  name : String
  deriving DecidableEq, Repr

/-- `len`, repeat_sets.rs:87-89. -/
def RNode.size (n : RNode) : Nat := n.classes.length

/-- `is_superset`, repeat_sets.rs:92 and activity_instances.rs:265. -/
def RNode.covers (n : RNode) (classes : List Nat) : Bool := classes.all (fun c => decide (c ∈ n.classes))

/-- `extract_events_set`, repeat_sets.rs:109-118: panics if there is no such trace or event. -/
def eventsSet (log : List (List Nat)) (r : RepeatSet) : Option (List Nat) := do
  let trace ← log[r.traceIndex]?
  if r.length = 0 ∨ r.firstPos + r.length ≤ trace.length then return (slice trace r.firstPos r.length).dedup else none

/-- `create_activity_node`, repeat_sets.rs:120-129. -/
def createNode (log : List (List Nat)) (level : Nat) (nameOf : RepeatSet → String) (r : RepeatSet) : Option RNode := do
  return { repeatSet := some r, classes := ← eventsSet log r, children := [], level := level, name := nameOf r }

/-- The variables of the loop, repeat_sets.rs:131-157: the nodes with their children, and the pointers to the top level and to the
nodes by levels. -/
structure Grown where
  nodes : List RNode
  tops : List Nat
  currentLength : Nat
  levels : List (List Nat)

/-- `children.push`. -/
def pushChild (child : Nat) (nodes : List RNode) (parent : Nat) : List RNode :=
  nodes.modify parent (fun n => { n with children := n.children ++ [child] })

/-- Whether the node of a pointer contains the given classes, repeat_sets.rs:91-93. -/
def containsAt (nodes : List RNode) (classes : List Nat) (p : Nat) : Bool :=
  match nodes[p]? with
  | some n => n.covers classes
  | none => false

/-- `nodes_by_level.last_mut().unwrap().push(..)`, repeat_sets.rs:190. -/
def pushLast (x : Nat) (levels : List (List Nat)) : List (List Nat) :=
  levels.dropLast ++ [levels.getLastD [] ++ [x]]

/-- The body of the loop, repeat_sets.rs:160-193. The loops that look for parents and add children are split into a filter and the
additions: children do not matter for the filter. -/
def growStep (st : Grown) (i : Nat) : Grown :=
  let classes := ((st.nodes[i]?).map RNode.classes).getD []
  let smaller := decide (classes.length < st.currentLength)
  let currentLength := if smaller then classes.length else st.currentLength
  let levels := if smaller then st.levels ++ [[]] else st.levels
  let parents := levels.dropLast.reverse.flatten.filter (containsAt st.nodes classes)
  let parents := if parents = [] then st.tops.filter (fun t => containsAt st.nodes classes t && decide (t ≠ i)) else parents
  { nodes := parents.foldl (pushChild i) st.nodes,
    tops := if parents = [] then st.tops ++ [i] else st.tops,
    currentLength := currentLength,
    levels := pushLast i levels }

/-- The search for parents among the nodes sorted by size, repeat_sets.rs:137-196: the nodes, and the pointers to those that are
returned. -/
def growNodes (nodes : List RNode) : List RNode × List Nat :=
  match nodes with
  | [] => ([], [])
  | first :: _ =>
    let top := (nodes.takeWhile (fun n => decide (n.size = first.size))).length
    match nodes[top]? with
    | none => (nodes, List.range top)
    | some next =>
      let st := (List.range' top (nodes.length - top)).foldl growStep
        { nodes := nodes, tops := List.range top, currentLength := next.size, levels := [[]] }
      (st.nodes, st.tops)

/-- `build_repeat_set_tree_from_repeats`, repeat_sets.rs:96-197; there are no nodes if there are no repeats, repeat_sets.rs:105-107. -/
def buildGraph (log : List (List Nat)) (repeats : List RepeatSet) (level : Nat) (nameOf : RepeatSet → String) :
    Option (List RNode × List Nat) := do
  let created ← repeats.mapM (createNode log level nameOf)
  return growNodes (created.insertionSort (fun first second => second.size ≤ first.size))

/-! ### Narrowing and extraction -/

/-- The nodes behind the pointers. -/
abbrev Heap := Nat → RNode

/-- The nodes of a graph as pointers, repeat_sets.rs:77-84; other pointers, which there are none of in the code, have no classes. -/
def heapOf (nodes : List RNode) : Heap :=
  fun p => (nodes[p]?).getD { repeatSet := none, classes := [], children := [], level := 0, name := "" }

/-- `ActivityNarrowingKind`, activity_instances.rs:34-40. -/
inductive Narrowing
  | dontNarrow | stayTheSame | narrowUp | narrowDown
  deriving DecidableEq, Repr

/-- The loop of `narrow_activity`, activity_instances.rs:261-271, with fuel; here `none` means that the fuel was not enough. -/
def narrowQueue (h : Heap) (seen : List Nat) : Nat → List Nat → List Nat → Option (List Nat)
  | _, [], result => some result
  | 0, _ :: _, _ => none
  | fuel + 1, p :: queue, result =>
    if (h p).covers seen then narrowQueue h seen fuel (queue ++ (h p).children) (result ++ [p])
    else narrowQueue h seen fuel queue result

/-- A bound for the rounds of the loop of `narrow_activity`, activity_instances.rs:261-271, below a node, to a given depth; the code has
no such bound. -/
def weightTo (h : Heap) : Nat → Nat → Nat
  | 0, _ => 0
  | k + 1, p => 1 + ((h p).children.map (weightTo h k)).sum

/-- The same (activity_instances.rs:261-271) to the depth that a graph whose children are smaller than their parents can have. -/
def weight (h : Heap) (p : Nat) : Nat := weightTo h ((h p).size + 1) p

/-- `min_by` on the sizes of nodes, activity_instances.rs:279-280: the first of the smallest. -/
def smallest (h : Heap) : Nat → List Nat → Nat
  | best, [] => best
  | best, p :: ps => smallest h (if (h p).size < (h best).size then p else best) ps

/-- `narrow_activity`, activity_instances.rs:245-285. Both kinds that narrow take the smallest node. -/
def narrow (h : Heap) (fuel : Nat) (kind : Narrowing) (p : Nat) (seen : List Nat) : Option Nat :=
  match kind with
  | .dontNarrow => some p
  | .stayTheSame => some p
  | .narrowUp => do
    match ← narrowQueue h seen fuel (h p).children [] with
    | [] => return p
    | q :: qs => return smallest h q qs
  | .narrowDown => do
    match ← narrowQueue h seen fuel (h p).children [] with
    | [] => return p
    | q :: qs => return smallest h q qs

/-- The loop of `split_activities_nodes_by_size`, activity_instances.rs:226-233: the last list is the open one. -/
def sizeLists (h : Heap) : List (List Nat) → Nat → List Nat → List (List Nat)
  | lists, _, [] => lists
  | lists, current, p :: ps =>
    if (h p).size ≠ current then sizeLists h (lists ++ [[p]]) (h p).size ps
    else sizeLists h (pushLast p lists) current ps

/-- `activities.sort_by(..)`, activity_instances.rs:222: the vector of the caller is sorted in place. -/
def sortActivities (h : Heap) (activities : List Nat) : List Nat :=
  activities.insertionSort (fun first second => (h first).size ≤ (h second).size)

/-- `split_activities_nodes_by_size`, activity_instances.rs:217-243: the loop begins again with the first activity, which is twice in
its list. Strings are compared by their code points in Rust and in Lean. -/
def bySize (h : Heap) (activities : List Nat) : List (List Nat) :=
  match sortActivities h activities with
  | [] => []
  | p :: ps => (sizeLists h [[p]] (h p).size (p :: ps)).map (fun list =>
      list.insertionSort (fun first second => (h first).name ≤ (h second).name))

/-- `ActivityInTraceInfo`, activity_instances.rs:20-25. -/
structure RInstance where
  node : Nat
  startPos : Nat
  length : Nat
  deriving DecidableEq, Repr

/-- `ActivityInTraceFilterKind`, activity_instances.rs:56-60. -/
inductive FilterKind
  | noFilter | defaultFilter
  deriving DecidableEq, Repr

/-- `is_suitable_activity_instance`, activity_instances.rs:201-215. -/
def suitable (h : Heap) (minEvents : Nat) (kind : FilterKind) (i : RInstance) : Bool :=
  match kind with
  | .noFilter => true
  | .defaultFilter => if (h i.node).size < minEvents then false else decide (i.length > (h i.node).size / 2)

/-- The options of `extract_activities_instances`, activity_instances.rs:80-86, and the fuel for narrowing. -/
structure Options where
  fuel : Nat
  kind : Narrowing
  minEvents : Nat
  filter : FilterKind

/-- The search for a first activity, activity_instances.rs:110-126. -/
def firstKnowing (h : Heap) (lists : List (List Nat)) (e : Nat) : Option Nat :=
  lists.findSome? (fun list => list.find? (fun p => decide (e ∈ (h p).classes)))

/-- The search for a larger activity, activity_instances.rs:135-153. -/
def firstLarger (h : Heap) (lists : List (List Nat)) (current : Nat) (seen : List Nat) : Option Nat :=
  lists.findSome? (fun list =>
    match list with
    | [] => none
    | q :: _ => if (h q).size < (h current).size then none else list.find? (fun p => (h p).covers seen))

/-- The end of an instance, activity_instances.rs:156-168 and 181-192. -/
def closeInstance (h : Heap) (o : Options) (out : List RInstance) (current start stop : Nat) (seen : List Nat) :
    Option (List RInstance) := do
  let i : RInstance := { node := ← narrow h o.fuel o.kind current seen, startPos := start, length := stop - start }
  return if suitable h o.minEvents o.filter i then out ++ [i] else out

/-- The variables of the loop over a trace, activity_instances.rs:91-95: `index` is the position that is read next; the activity, the
start and the classes seen are set and cleared together. -/
structure Scanned where
  index : Nat
  current : Option (Nat × Nat × List Nat)
  out : List RInstance

/-- The body of the loop, activity_instances.rs:108-177, for the event `e` at the index. -/
def scanEvent (h : Heap) (o : Options) (lists : List (List Nat)) (e : Nat) (st : Scanned) : Option Scanned :=
  match st.current with
  | none =>
    some { st with
      index := st.index + 1
      current := (firstKnowing h lists e).map (fun p => (p, st.index, [e])) }
  | some (p, start, seen) =>
    if e ∈ (h p).classes then some { st with
      index := st.index + 1
      current := some (p, start, e :: seen) }
    else
      match firstLarger h lists p (e :: seen) with
      | some q => some { st with
          index := st.index + 1
          current := some (q, start, e :: seen) }
      | none => do
        return { index := st.index, current := none, out := ← closeInstance h o st.out p start st.index seen }

/-- The loop over a trace, activity_instances.rs:97-178, with fuel for its rounds. -/
def scanRounds (h : Heap) (o : Options) (lists : List (List Nat)) (t : List Nat) : Nat → Scanned → Option Scanned
  | fuel, st =>
    match t[st.index]? with
    | none => some st
    | some e =>
      match fuel with
      | 0 => none
      | fuel + 1 =>
        match scanEvent h o lists e st with
        | none => none
        | some st' => scanRounds h o lists t fuel st'

/-- The body of the loop over the traces, activity_instances.rs:91-195; each event takes at most two rounds. -/
def instancesOfTrace (h : Heap) (o : Options) (lists : List (List Nat)) (t : List Nat) : Option (List RInstance) := do
  let st ← scanRounds h o lists t (2 * t.length) { index := 0, current := none, out := [] }
  match st.current with
  | none => return st.out
  | some (p, start, seen) => closeInstance h o st.out p start st.index seen

/-- `extract_activities_instances`, activity_instances.rs:80-199. -/
def extractInstances (h : Heap) (o : Options) (log : List (List Nat)) (activities : List Nat) : Option (List (List RInstance)) :=
  log.mapM (instancesOfTrace h o (bySize h activities))

end Ficus.Rs
