import Verif.Model.Info

/-! Model of what the backend counts in a log and of its directly follows graph,
/repo/src/rust/ficus_backend/src/features/analysis/event_log_info.rs and directly_follows_graph.rs (all paths of this file
are below src/rust/ficus_backend/src). A `HashMap` is a `Dict`, a `HashSet` a list without duplicates. The order in which
rust iterates over them is not determined and differs between runs; it is a parameter wherever it is used. The bounds of
`usize` and `u64` are left out. -/

namespace Ficus.Rs

/-- The order of iteration over the maps and sets of rust (`std::collections`, external): for each place of the code and
each number of a visit any permutation. -/
structure Iter where
  order : String → Nat → {α : Type} → List α → List α
  perm : ∀ (place : String) (n : Nat) {α : Type} (l : List α), (order place n l).Perm l

/-- The order of insertion, for examples. -/
def Iter.plain : Iter := ⟨fun _ _ _ l => l, fun _ _ _ l => List.Perm.refl l⟩

/-- The reversed order of insertion, for examples. -/
def Iter.reversed : Iter := ⟨fun _ _ _ l => l.reverse, fun _ _ _ l => l.reverse_perm⟩

variable {E : Type} [HasName E]

/-- `increase_in_map`, utils/hash_map_utils.rs:4-13. -/
def increaseInMap {K : Type} [DecidableEq K] (d : Dict K Nat) (k : K) : Dict K Nat :=
  match d.get? k with
  | some v => d.set k (v + 1)
  | none => d.set k 1

/-- `update_pairs_count`, event_log_info.rs:84-95. -/
def updatePairs (d : Dict String (Dict String Nat)) (first second : String) : Dict String (Dict String Nat) :=
  match d.get? first with
  | some values =>
    match values.get? second with
    | some count => d.set first (values.set second (count + 1))
    | none => d.set first (values.set second 1)
  | none => d.set first [(second, 1)]

/-- `HashSet::insert`. -/
def insertSet (s : List String) (x : String) : List String := if x ∈ s then s else s ++ [x]

/-- The variables of the scan, event_log_info.rs:74-78. -/
structure Counts where
  events : Nat := 0
  classes : Dict String Nat := []
  pairs : Dict String (Dict String Nat) := []
  starts : List String := []
  ends : List String := []
  deriving DecidableEq, Repr

/-- The body of the inner loop, event_log_info.rs:108-132, with the previous name. -/
def countEvent (ignored : Option (List String)) (fake : Bool) (st : Counts × Option String) (event : E) :
    Counts × Option String :=
  let current := name event
  if isIgnored ignored current then st
  else
    let c := { st.1 with classes := increaseInMap st.1.classes current }
    match st.2 with
    | none => (if fake then { c with pairs := updatePairs c.pairs "FAKE_START" current } else c, some current)
    | some prev => ({ c with pairs := updatePairs c.pairs prev current }, some current)

/-- After the inner loop, event_log_info.rs:134-136. -/
def finishTrace (fake : Bool) (st : Counts × Option String) : Counts :=
  match st.2 with
  | some prev => if fake then { st.1 with pairs := updatePairs st.1.pairs prev "FAKE_END" } else st.1
  | none => st.1

/-- The body of the outer loop, event_log_info.rs:97-137. -/
def countTrace (ignored : Option (List String)) (fake : Bool) (c : Counts) (events : List E) : Counts :=
  let c := { c with events := c.events + events.length }
  let c := match events.head?, events.getLast? with
    | some first, some last =>
      { c with starts := insertSet c.starts (name first), ends := insertSet c.ends (name last) }
    | _, _ => c
  finishTrace fake (events.foldl (countEvent ignored fake) (c, none))

/-- The three results of the second loop, event_log_info.rs:139-141. -/
structure Follow where
  followed : Dict String (Dict String Nat) := []
  precedes : Dict String (Dict String Nat) := []
  single : List String := []
  deriving DecidableEq, Repr

/-- The followers, event_log_info.rs:145-158. -/
def noteFollower (first second : String) (count : Nat) (f : Follow) : Follow :=
  match f.followed.get? first with
  | some followers =>
    { f with single := f.single.filter (fun x => decide (x ≠ first)),
             followed := if followers.contains second then f.followed
               else f.followed.set first (followers.set second count) }
  | none => { f with followed := f.followed.set first [(second, count)], single := insertSet f.single first }

/-- The predecessors, event_log_info.rs:160-165. -/
def notePredecessor (first second : String) (count : Nat) (f : Follow) : Follow :=
  match f.precedes.get? second with
  | some before => { f with precedes := f.precedes.set second (before.set first count) }
  | none => { f with precedes := f.precedes.set second [(first, count)] }

/-- The body of the second loop, event_log_info.rs:144-166. -/
def followStep (first : String) (f : Follow) (entry : String × Nat) : Follow :=
  notePredecessor first entry.1 entry.2 (noteFollower first entry.1 entry.2 f)

/-- The second loop, event_log_info.rs:143-167. -/
def followLoop (it : Iter) (pairs : Dict String (Dict String Nat)) : Follow :=
  (it.order "dfg_pairs" 0 pairs).foldl
    (fun f entry => (it.order ("followers_map of " ++ entry.1) 0 entry.2).foldl (followStep entry.1) f) {}

/-- `EventLogInfo`, event_log_info.rs:8-15, with `DfgInfo`, 221-226. -/
structure Info where
  eventsCount : Nat
  classes : Dict String Nat
  pairs : Dict String (Dict String Nat)
  followed : Dict String (Dict String Nat)
  precedes : Dict String (Dict String Nat)
  single : List String
  tracesCount : Nat
  starts : List String
  ends : List String
  deriving DecidableEq, Repr

/-- `EventLogInfo::create_from`, event_log_info.rs:64-182. -/
def createInfo (it : Iter) (log : List (List E)) (ignored : Option (List String) := none) (fake : Bool := false) : Info :=
  let c := log.foldl (countTrace ignored fake) {}
  let f := followLoop it c.pairs
  { eventsCount := c.events, classes := c.classes, pairs := c.pairs, followed := f.followed, precedes := f.precedes,
    single := f.single, tracesCount := log.length, starts := c.starts, ends := c.ends }

/-- `event_classes_count`, event_log_info.rs:192-194. -/
def Info.classesCount (i : Info) : Nat := i.classes.length

/-- `event_count`, event_log_info.rs:196-201. -/
def Info.eventCount (i : Info) (c : String) : Nat := (i.classes.get? c).getD 0

/-- `all_event_classes`, event_log_info.rs:207-209; `n` is the number of the visit. -/
def Info.allClasses (it : Iter) (i : Info) (n : Nat) : List String := it.order "event_classes_counts" n i.classes.keys

/-- `get_directly_follows_count`, event_log_info.rs:229-237. -/
def Info.followsCount (i : Info) (first second : String) : Nat :=
  match i.pairs.get? first with
  | some values => (values.get? second).getD 0
  | none => 0

/-- `is_in_directly_follows_relation`, event_log_info.rs:239-245. -/
def Info.follows (i : Info) (left right : String) : Bool :=
  match i.pairs.get? left with
  | some values => values.contains right
  | none => false

/-- `count_events`, event_log_info.rs:266-268. -/
def countEvents {E : Type} (log : List (List E)) : Nat := (log.map List.length).sum

/-! ### The graph -/

/-- `GraphNode`, utils/graph/graph_node.rs:4-10. -/
structure Node where
  id : Nat
  data : Option String
  deriving DecidableEq, Repr

/-- `Graph<String, String>`, utils/graph/graph.rs:9-16. -/
structure Graph where
  nodes : Dict Nat Node := []
  connections : Dict Nat (Dict Nat (Option String)) := []
  deriving DecidableEq, Repr

/-- `are_nodes_connected`, graph.rs:74-80. -/
def Graph.connected (g : Graph) (first second : Nat) : Bool :=
  match g.connections.get? first with
  | some c => c.contains second
  | none => false

/-- `add_node`, graph.rs:49-55; the identifier is the next one of a counter of the process, graph_node.rs:16-21. -/
def Graph.addNode (g : Graph) (next : Nat) (data : Option String) : Graph :=
  { g with nodes := g.nodes.set next { id := next, data := data } }

/-- `connect_nodes`, graph.rs:57-72. -/
def Graph.connect (g : Graph) (first second : Nat) (data : Option String) : Graph :=
  if g.connected first second then g
  else if g.nodes.contains first && g.nodes.contains second then
    match g.connections.get? first with
    | some c => { g with connections := g.connections.set first (c.set second data) }
    | none => { g with connections := g.connections.set first [(second, data)] }
  else g

/-- `nodes_to_ids` and the nodes, directly_follows_graph.rs:6-11. -/
def addClasses : List String → Nat → Graph → Dict String Nat → Graph × Dict String Nat
  | [], _, g, ids => (g, ids)
  | c :: cs, next, g, ids => addClasses cs (next + 1) (g.addNode next (some c)) (ids.set c next)

/-- The loop over the followers of a class, directly_follows_graph.rs:15-19. `none` is the panic of `unwrap`. -/
def connectFollowers (ids : Dict String Nat) (c : String) : List (String × Nat) → Graph → Option Graph
  | [], g => some g
  | (follower, count) :: rest, g =>
    match ids.get? c, ids.get? follower with
    | some first, some second => connectFollowers ids c rest (g.connect first second (some (toString count)))
    | _, _ => none

/-- The loop over the classes, directly_follows_graph.rs:13-21. -/
def connectClasses (it : Iter) (info : Info) (ids : Dict String Nat) : List String → Graph → Option Graph
  | [], g => some g
  | c :: cs, g =>
    match info.followed.get? c with
    | some followers =>
      (connectFollowers ids c (it.order ("followers of " ++ c) 0 followers) g).bind (connectClasses it info ids cs)
    | none => connectClasses it info ids cs g

/-- `construct_dfg`, directly_follows_graph.rs:5-24; `next` is the state of the counter of identifiers. -/
def constructDfg (it : Iter) (next : Nat) (info : Info) : Option Graph :=
  let (g, ids) := addClasses (info.allClasses it 0) next {} []
  connectClasses it info ids (info.allClasses it 1) g

/-- The part `DiscoverDfg`, pipelines/discovery_parts.rs:86-94. -/
def discoverDfg (it : Iter) (next : Nat) (log : List (List E)) : Option Graph :=
  constructDfg it next (createInfo it log)

/-- `all_nodes`, graph.rs:34-36. -/
def Graph.allNodes (it : Iter) (g : Graph) : List Node := it.order "nodes" 0 (g.nodes.map Prod.snd)

/-- `all_edges`, graph.rs:38-47: the two ends and the data. -/
def Graph.allEdges (it : Iter) (g : Graph) : List (Nat × Nat × Option String) :=
  (it.order "connections" 0 g.connections).flatMap (fun entry =>
    (it.order ("connections of " ++ toString entry.1) 0 entry.2).map (fun e => (entry.1, e.1, e.2)))

end Ficus.Rs
