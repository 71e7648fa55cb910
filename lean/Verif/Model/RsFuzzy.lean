import Verif.Model.RsInfo
import Mathlib.Data.Rat.Defs
import Mathlib.Algebra.Order.Ring.Rat
import Mathlib.Algebra.Order.Group.Abs

/-! Model of the fuzzy miner of the backend, /repo/src/rust/ficus_backend/src/features/discovery/fuzzy/fuzzy_miner.rs and
fuzzy_metrics_provider.rs, with the part of utils/graph it uses (all paths of this file are below
src/rust/ficus_backend/src). Floats are rational numbers: rounding is left out, and the quotient of zeros, which is not a
number, is `none`. A `HashMap` is a `Dict`, a set a list without duplicates, their order of iteration a parameter. The
outer `Option` of a result is `none` for a panic of an `unwrap` and for a loop that does not end. The counters of
identifiers are arguments, their bounds are left out. -/

namespace Ficus.Rs
variable {E : Type} [HasName E]

/-- `FuzzyGraph`, fuzzy_miner.rs:11, a `Graph<String, f64>`, utils/graph/graph.rs:9-16. The fuzzy miner gives data to every
node and to every edge, so that data is not optional here. -/
structure FuzzyGraph where
  nodes : Dict Nat String := []
  conns : Dict Nat (Dict Nat ℚ) := []
  deriving DecidableEq, Repr

namespace FuzzyGraph

/-- `are_nodes_connected`, utils/graph/graph.rs:74-80. -/
def connected (g : FuzzyGraph) (x y : Nat) : Bool :=
  match g.conns.get? x with
  | some c => c.contains y
  | none => false

/-- `connect_nodes`, utils/graph/graph.rs:57-72. -/
def connect (g : FuzzyGraph) (x y : Nat) (d : ℚ) : FuzzyGraph :=
  if g.connected x y then g
  else if g.nodes.contains x then
    if g.nodes.contains y then
      match g.conns.get? x with
      | some c => { g with conns := g.conns.set x (c.set y d) }
      | none => { g with conns := g.conns.set x [(y, d)] }
    else g
  else g

/-- `disconnect_nodes`, utils/graph/graph.rs:82-88, without the result, which nobody uses. -/
def disconnect (g : FuzzyGraph) (x y : Nat) : FuzzyGraph :=
  match g.conns.get? x with
  | some c => { g with conns := g.conns.set x (c.del y) }
  | none => g

/-- `all_nodes`, utils/graph/graph.rs:34-36, the nodes with their identifiers. -/
def allNodes (it : Iter) (g : FuzzyGraph) : List (Nat × String) := it.order "nodes" 0 g.nodes

/-- `all_edges`, utils/graph/graph.rs:38-47, without the data. -/
def allEdges (it : Iter) (g : FuzzyGraph) : List (Nat × Nat) :=
  (it.order "connections" 0 g.conns).flatMap (fun e =>
    (it.order ("connections of " ++ Nat.repr e.1) 0 e.2).map (fun f => (e.1, f.1)))

/-- `outgoing_nodes`, utils/graph/graph.rs:105-110. -/
def outgoing (it : Iter) (g : FuzzyGraph) (x : Nat) : List Nat :=
  match g.conns.get? x with
  | none => []
  | some c => it.order ("connections of " ++ Nat.repr x) 1 c.keys

/-- `incoming_edges`, utils/graph/graph.rs:112-121. -/
def incoming (it : Iter) (g : FuzzyGraph) (x : Nat) : List Nat :=
  (it.order "connections" 1 g.conns).filterMap (fun e => if e.2.contains x then some e.1 else none)

/-- `all_connected_nodes`, utils/graph/graph.rs:90-103. The loop hides the argument behind a variable of the same name: it
asks for every node whether it is connected to itself. -/
def allConnected (it : Iter) (g : FuzzyGraph) (x : Nat) : List Nat :=
  g.outgoing it x ++
    (it.order "connections" 2 g.conns).filterMap (fun e => if e.2.contains e.1 then some e.1 else none)

end FuzzyGraph

/-- `unary_frequency_significance`, fuzzy_metrics_provider.rs:35-37. -/
def unarySig (i : Info) (c : String) : ℚ := (i.eventCount c : ℚ)

/-- `binary_frequency_significance`, fuzzy_metrics_provider.rs:39-41. -/
def binarySig (i : Info) (a b : String) : ℚ := (i.followsCount a b : ℚ)

/-- The variables of `proximity_correlation`, fuzzy_metrics_provider.rs:48-53. The index of the last seen event is that event
here. -/
structure Proximity (E : Type) where
  count : Nat := 0
  result : ℚ := 0
  last : Option E := none

/-- The body of the inner loop of `proximity_correlation`, fuzzy_metrics_provider.rs:55-76; `millis` is
`signed_duration_since(..).num_milliseconds()` of the second and the first event (chrono, external). -/
def proximityEvent (millis : E → E → Int) (a b : String) (st : Proximity E) (event : E) : Proximity E :=
  if name event = a then { st with last := some event }
  else if name event = b then
    match st.last with
    | some first => { count := st.count + 1, result := st.result + (millis event first : ℚ), last := none }
    | none => st
  else st

/-- `proximity_correlation`, fuzzy_metrics_provider.rs:43-86, without the cache, which keeps the results for each pair of
names while the log does not change. -/
def proximity (millis : E → E → Int) (log : List (List E)) (a b : String) : ℚ :=
  let st := log.foldl (fun st trace => trace.foldl (proximityEvent millis a b) { st with last := none })
    ({} : Proximity E)
  if st.count ≠ 0 then st.result / (st.count : ℚ) else 0

/-- `relative_significance`, fuzzy_metrics_provider.rs:88-106. `none` is the float that is not a number: a sum is zero only
if the numerator is zero as well, because `b` (`a`) is one of the nodes. -/
def relativeSig (i : Info) (g : FuzzyGraph) (a b : String) : Option ℚ :=
  let first := (g.nodes.map (fun n => binarySig i a n.2)).sum
  let second := (g.nodes.map (fun n => binarySig i n.2 b)).sum
  if first = 0 ∨ second = 0 then none
  else some (1 / 2 * binarySig i a b / first + 1 / 2 * binarySig i a b / second)

/-- `utility_measure`, fuzzy_metrics_provider.rs:108-110. -/
def utility (millis : E → E → Int) (log : List (List E)) (i : Info) (rate : ℚ) (a b : String) : ℚ :=
  rate * binarySig i a b + (1 - rate) * proximity millis log a b

/-- The arguments of `discover_graph_fuzzy`, fuzzy_miner.rs:15-21. -/
structure FuzzyArgs where
  unary : ℚ := 0
  binary : ℚ := 0
  preserve : ℚ := 0
  ratio : ℚ := 0
  rate : ℚ := 0
  edgeCutoff : ℚ := 0
  nodeCutoff : ℚ := 0

/-- The first loop of `initialize_fuzzy_graph`, fuzzy_miner.rs:51-56; `next` is the next identifier of a node
(utils/graph/graph_node.rs:14-21, with utils/graph/graph.rs:49-55). -/
def addFuzzyNodes (i : Info) (p : FuzzyArgs) :
    List String → Nat → FuzzyGraph → Dict String Nat → Nat × FuzzyGraph × Dict String Nat
  | [], next, g, ids => (next, g, ids)
  | c :: rest, next, g, ids =>
    if p.unary < unarySig i c then
      addFuzzyNodes i p rest (next + 1) { g with nodes := g.nodes.set next c } (ids.set c next)
    else addFuzzyNodes i p rest next g ids

/-- The pairs of the keys of `classes_to_ids` in the order of two nested loops, fuzzy_miner.rs:58-59 and 77-78; `n` is the
number of the visit. -/
def keyPairs (it : Iter) (n : Nat) (ids : Dict String Nat) : List (String × String) :=
  (it.order "classes_to_ids" n ids.keys).flatMap (fun a =>
    (it.order ("classes_to_ids for " ++ a) n ids.keys).map (fun b => (a, b)))

/-- The body of the second loops of `initialize_fuzzy_graph`, fuzzy_miner.rs:60-65. -/
def connectStep (i : Info) (p : FuzzyArgs) (ids : Dict String Nat) (g : FuzzyGraph) (ab : String × String) :
    Option FuzzyGraph :=
  if p.binary < binarySig i ab.1 ab.2 then do
    let x ← ids.get? ab.1
    let y ← ids.get? ab.2
    some (g.connect x y (binarySig i ab.1 ab.2))
  else some g

/-- `initialize_fuzzy_graph`, fuzzy_miner.rs:44-68. -/
def initializeFuzzy (it : Iter) (i : Info) (p : FuzzyArgs) (next : Nat) :
    Option (Nat × FuzzyGraph × Dict String Nat) := do
  let (next, g, ids) := addFuzzyNodes i p (i.allClasses it 0) next {} []
  let g ← (keyPairs it 0 ids).foldlM (connectStep i p ids) g
  some (next, g, ids)

/-- `first < second` for a float that may be no number. -/
def ltNum : Option ℚ → ℚ → Bool
  | some a, b => decide (a < b)
  | none, _ => false

/-- fuzzy_miner.rs:83-99, for two nodes connected in both directions. -/
def resolvePair (p : FuzzyArgs) (xy yx : Option ℚ) (x y : Nat) (g : FuzzyGraph) : FuzzyGraph :=
  if ltNum xy p.preserve || ltNum yx p.preserve then
    match xy, yx with
    | some s, some t =>
      if p.ratio < |s - t| then
        if s < t then g.disconnect x y else g.disconnect y x
      else (g.disconnect x y).disconnect y x
    | _, _ => (g.disconnect x y).disconnect y x
  else g

/-- The body of the loops of `resolve_conflicts`, fuzzy_miner.rs:79-100, with `are_nodes_bi_connected`, 356-358. -/
def resolveStep (i : Info) (p : FuzzyArgs) (ids : Dict String Nat) (g : FuzzyGraph) (ab : String × String) :
    Option FuzzyGraph := do
  let x ← ids.get? ab.1
  let y ← ids.get? ab.2
  if g.connected x y && g.connected y x then
    some (resolvePair p (relativeSig i g ab.1 ab.2) (relativeSig i g ab.2 ab.1) x y g)
  else some g

/-- `resolve_conflicts`, fuzzy_miner.rs:70-103. -/
def resolveConflicts (it : Iter) (i : Info) (p : FuzzyArgs) (ids : Dict String Nat) (g : FuzzyGraph) :
    Option FuzzyGraph :=
  (keyPairs it 1 ids).foldlM (resolveStep i p ids) g

/-- The insertion of an element into a set of numbers. -/
def insertNat (s : List Nat) (x : Nat) : List Nat := if x ∈ s then s else s ++ [x]

/-- The first loop of `filter_edges`, fuzzy_miner.rs:112-119. -/
def incomingSets (edges : List (Nat × Nat)) : Dict Nat (List Nat) :=
  edges.foldl (fun d e =>
    match d.get? e.2 with
    | some s => d.set e.2 (insertNat s e.1)
    | none => d.set e.2 [e.1]) []

/-- The smallest of some numbers, fuzzy_miner.rs:135; for no numbers, where the code has infinity, it is not used. -/
def minOf : List ℚ → ℚ
  | [] => 0
  | x :: l => l.foldl min x

/-- The largest of some numbers, fuzzy_miner.rs:136. -/
def maxOf : List ℚ → ℚ
  | [] => 0
  | x :: l => l.foldl max x

/-- The body of the second loop of `filter_edges`, fuzzy_miner.rs:121-149. -/
def filterIncoming (it : Iter) (measure : String → String → ℚ) (p : FuzzyArgs) (g : FuzzyGraph)
    (entry : Nat × List Nat) : Option FuzzyGraph :=
  if entry.2.length = 0 then some g
  else do
    let sources := it.order ("incoming of " ++ Nat.repr entry.1) 0 entry.2
    let second ← g.nodes.get? entry.1
    let names ← sources.mapM (fun x => g.nodes.get? x)
    let measures := names.map (fun first => measure first second)
    let low := minOf measures
    let high := maxOf measures
    some ((sources.zip measures).foldl (fun g e =>
      let normalized := if high ≠ low then (e.2 - low) / (high - low) else 1
      if normalized < p.edgeCutoff then g.disconnect e.1 entry.1 else g) g)

/-- `filter_edges`, fuzzy_miner.rs:105-150. -/
def filterEdges (it : Iter) (measure : String → String → ℚ) (p : FuzzyArgs) (g : FuzzyGraph) : Option FuzzyGraph :=
  (it.order "node_to_incoming_nodes" 0 (incomingSets (g.allEdges it))).foldlM (filterIncoming it measure p) g

/-- The clusters: `ClustersMap`, fuzzy_miner.rs:152, from the identifier of a `OneSet` (utils/sets/one_set.rs:6-12) to its
elements, `nodes_to_clusters`, 155, and the next identifier, one_set.rs:14. A `BTreeSet` is a list without duplicates; its
order only matters for the order of a sum and, before it becomes a `HashSet`, not at all. -/
structure Clusters where
  sets : Dict Nat (List Nat) := []
  home : Dict Nat Nat := []
  next : Nat := 0

/-- fuzzy_miner.rs:177-189 and the same choice in 342-351: the first of the largest values. -/
def bestOf {α : Type} (value : α → ℚ) (l : List α) : Option α :=
  (l.foldl (fun (best : Option (α × ℚ)) x =>
    match best with
    | none => some (x, value x)
    | some b => if b.2 < value x then some (x, value x) else some b) none).map Prod.fst

/-- fuzzy_miner.rs:191-201: a node joins the cluster of the node it is most correlated with or gets an own cluster. -/
def joinCluster (cs : Clusters) (x partner : Nat) : Option Clusters :=
  match cs.home.get? partner with
  | some c => do
    let s ← cs.sets.get? c
    some { cs with sets := cs.sets.set c (insertNat s x), home := cs.home.set x c }
  | none => some { sets := cs.sets.set cs.next [x], home := cs.home.set x cs.next, next := cs.next + 1 }

/-- The names of nodes, `graph.node(..).unwrap().data().unwrap()`. -/
def namedNodes (g : FuzzyGraph) (l : List Nat) : Option (List (Nat × String)) :=
  l.mapM (fun x => (g.nodes.get? x).map (fun n => (x, n)))

/-- The body of the loop of `find_initial_clusters`, fuzzy_miner.rs:171-201. -/
def clusterNode (it : Iter) (corr : String → String → ℚ) (i : Info) (p : FuzzyArgs) (g : FuzzyGraph) (cs : Clusters)
    (node : Nat × String) : Option Clusters :=
  if p.nodeCutoff ≤ unarySig i node.2 then some cs
  else do
    let others ← namedNodes g ((g.allConnected it node.1).filter (fun y => decide (y ≠ node.1)))
    match bestOf (fun o : Nat × String => corr node.2 o.2) others with
    | some partner => joinCluster cs node.1 partner.1
    | none => some cs

/-- `find_initial_clusters`, fuzzy_miner.rs:163-203; `next` is the next identifier of a set. -/
def initialClusters (it : Iter) (corr : String → String → ℚ) (i : Info) (p : FuzzyArgs) (g : FuzzyGraph) (next : Nat) :
    Option Clusters :=
  (g.allNodes it).foldlM (clusterNode it corr i p g) { next := next }

/-- The set of the elements of a list, `collect` into a `HashSet`, fuzzy_miner.rs:218 and 223. -/
def collectSet (l : List Nat) : List Nat := l.foldl insertNat []

/-- The first loop of `try_merge_clusters`, fuzzy_miner.rs:273-287: the clusters of the given nodes outside of the cluster, or
`none` if one of them has no cluster. -/
def neighbourClusters (home : Dict Nat Nat) (cluster : List Nat) : List Nat → List Nat → Option (List Nat)
  | [], acc => some acc
  | x :: rest, acc =>
    if x ∈ cluster then neighbourClusters home cluster rest acc
    else
      match home.get? x with
      | none => none
      | some c => neighbourClusters home cluster rest (insertNat acc c)

/-- `clusters_correlation`, fuzzy_miner.rs:311-333. -/
def clustersCorrelation (corr : String → String → ℚ) (g : FuzzyGraph) (s t : List Nat) : Option ℚ := do
  let first ← namedNodes g s
  let second ← namedNodes g t
  let values := first.flatMap (fun a => second.map (fun b => corr a.2 b.2))
  some (if values.length = 0 then 0 else values.sum / (values.length : ℚ))

/-- `find_most_correlated_cluster`, fuzzy_miner.rs:335-354; the result is a cluster with its identifier. -/
def mostCorrelated (it : Iter) (n : Nat) (corr : String → String → ℚ) (g : FuzzyGraph) (sets : Dict Nat (List Nat))
    (cluster candidates : List Nat) : Option (Option (Nat × List Nat)) := do
  let scored ← (it.order "candidates" n candidates).mapM (fun c => do
    let s ← sets.get? c
    let v ← clustersCorrelation corr g cluster s
    some ((c, s), v))
  some ((bestOf Prod.snd scored).map Prod.fst)

/-- `OneSet::merge`, utils/sets/one_set.rs:41-46, without the identifier. -/
def unionSets (s t : List Nat) : List Nat := t.foldl insertNat s

/-- `try_merge_clusters`, fuzzy_miner.rs:265-309: the inner `none` is the result `false`. -/
def tryMerge (it : Iter) (n : Nat) (corr : String → String → ℚ) (g : FuzzyGraph) (cs : Clusters) (id : Nat)
    (cluster nodes : List Nat) : Option (Option Clusters) :=
  match neighbourClusters cs.home cluster (it.order "nodes of try_merge_clusters" n nodes) [] with
  | none => some none
  | some candidates => do
    match ← mostCorrelated it n corr g cs.sets cluster candidates with
    | none => some none
    | some other =>
      let merged := unionSets cluster other.2
      some (some {
        sets := ((cs.sets.del id).del other.1).set cs.next merged
        home := merged.foldl (fun h x => h.set x cs.next) cs.home
        next := cs.next + 1 })

/-- The `for` loop of `merge_clusters`, fuzzy_miner.rs:214-227: the inner `none` is the end of the loop without a merge. -/
def mergeRound (it : Iter) (n : Nat) (corr : String → String → ℚ) (g : FuzzyGraph) (cs : Clusters) :
    List Nat → Option (Option Clusters)
  | [] => some none
  | id :: rest => do
    let cluster ← cs.sets.get? id
    match ← tryMerge it n corr g cs id cluster (collectSet (cluster.flatMap (g.outgoing it))) with
    | some merged => some (some merged)
    | none =>
      match ← tryMerge it n corr g cs id cluster (collectSet (cluster.flatMap (g.incoming it))) with
      | some merged => some (some merged)
      | none => mergeRound it n corr g cs rest

/-- `merge_clusters`, fuzzy_miner.rs:205-231. The first argument bounds the number of merges; the result is `none` if they are
not done then. -/
def mergeClusters (it : Iter) (corr : String → String → ℚ) (g : FuzzyGraph) : Nat → Clusters → Option Clusters
  | 0, _ => none
  | fuel + 1, cs => do
    match ← mergeRound it fuel corr g cs (it.order "clusters" fuel cs.sets.keys) with
    | some merged => mergeClusters it corr g fuel merged
    | none => some cs

/-- The name of a merged node, fuzzy_miner.rs:238-255: a comma after each name, and the last one is removed. -/
def clusterName (names : List String) : String := "Cluster[" ++ ",".intercalate names ++ "]"

/-- `find_incoming_edges`, utils/graph/graph_clusters.rs:30-60, with the sum as merger of the data, fuzzy_miner.rs:256-260. -/
def incomingMerged (it : Iter) (g : FuzzyGraph) (cluster : List Nat) : List (Nat × ℚ) :=
  (g.allNodes it).filterMap (fun node =>
    if node.1 ∈ cluster then none
    else
      match g.conns.get? node.1 with
      | none => none
      | some c =>
        let edges := cluster.filterMap (fun x => c.get? x)
        if edges.length = 0 then none else some (node.1, edges.sum))

/-- The body of the loops of `find_outgoing_edges`, utils/graph/graph_clusters.rs:70-79. -/
def noteOutgoing (cluster : List Nat) (d : Dict Nat (List ℚ)) (e : Nat × ℚ) : Dict Nat (List ℚ) :=
  if e.1 ∈ cluster then d
  else
    match d.get? e.1 with
    | some l => d.set e.1 (l ++ [e.2])
    | none => d.set e.1 [e.2]

/-- `find_outgoing_edges`, utils/graph/graph_clusters.rs:62-89. -/
def outgoingMerged (it : Iter) (g : FuzzyGraph) (cluster : List Nat) : Dict Nat ℚ :=
  (cluster.foldl (fun d x =>
    match g.conns.get? x with
    | some c => (it.order ("connections of " ++ Nat.repr x) 2 c).foldl (noteOutgoing cluster) d
    | none => d) ([] : Dict Nat (List ℚ))).map (fun e => (e.1, e.2.sum))

/-- `adjust_transitions_for_cluster`, utils/graph/graph_clusters.rs:91-126. -/
def adjustTransitions (g : FuzzyGraph) (cluster : List Nat) (id : Nat) (incoming : List (Nat × ℚ))
    (outgoing : Dict Nat ℚ) : FuzzyGraph :=
  let conns := incoming.foldl (fun (d : Dict Nat (Dict Nat ℚ)) e =>
    match d.get? e.1 with
    | some c => d.set e.1 (c.set id e.2)
    | none => d) g.conns
  let conns := conns.set id outgoing
  let conns := cluster.foldl (fun (d : Dict Nat (Dict Nat ℚ)) x => d.del x) conns
  let conns := conns.map (fun e => (e.1, cluster.foldl (fun (d : Dict Nat ℚ) x => d.del x) e.2))
  { nodes := cluster.foldl (fun (d : Dict Nat String) x => d.del x) g.nodes, conns := conns }

/-- `merge_nodes_into_one`, utils/graph/graph_clusters.rs:10-28; `next` is the next identifier of a node. -/
def mergeInto (it : Iter) (next : Nat) (g : FuzzyGraph) (set : List Nat) : Option FuzzyGraph := do
  let cluster := it.order "cluster_nodes" next set
  let names ← cluster.mapM (fun x => g.nodes.get? x)
  let g := { g with nodes := g.nodes.set next (clusterName names) }
  some (adjustTransitions g cluster next (incomingMerged it g cluster) (outgoingMerged it g cluster))

/-- `merge_nodes`, fuzzy_miner.rs:233-263. -/
def mergeNodes (it : Iter) : List (List Nat) → Nat → FuzzyGraph → Option FuzzyGraph
  | [], _, g => some g
  | s :: rest, next, g => do
    let g ← mergeInto it next g s
    mergeNodes it rest (next + 1) g

/-- `discover_clusters` before `merge_nodes`, fuzzy_miner.rs:155-159. There are at most as many merges as sets. -/
def discoverClusters (it : Iter) (corr : String → String → ℚ) (i : Info) (p : FuzzyArgs) (g : FuzzyGraph) (nextSet : Nat) :
    Option Clusters := do
  let cs ← initialClusters it corr i p g nextSet
  mergeClusters it corr g (cs.sets.length + 1) cs

/-- The first three steps of `discover_graph_fuzzy`, fuzzy_miner.rs:23-38, with the next identifier of a node. -/
def fuzzyEdges (it : Iter) (millis : E → E → Int) (p : FuzzyArgs) (log : List (List E)) (next : Nat) :
    Option (Nat × FuzzyGraph) := do
  let i := createInfo it log
  let (next, g, ids) ← initializeFuzzy it i p next
  let g ← resolveConflicts it i p ids g
  let g ← filterEdges it (utility millis log i p.rate) p g
  some (next, g)

/-- `discover_graph_fuzzy`, fuzzy_miner.rs:13-42. -/
def discoverFuzzy (it : Iter) (millis : E → E → Int) (p : FuzzyArgs) (log : List (List E)) (next nextSet : Nat) :
    Option FuzzyGraph := do
  let (next, g) ← fuzzyEdges it millis p log next
  let cs ← discoverClusters it (proximity millis log) (createInfo it log) p g nextSet
  mergeNodes it ((it.order "clusters of merge_nodes" 0 cs.sets).map Prod.snd) next g

end Ficus.Rs
