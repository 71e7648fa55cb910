import Verif.Model.RsTables

/-! Model of the clusters of traces and of activities of the backend: features/clustering (all paths are below
/repo/src/rust/ficus_backend/src/features/clustering if nothing else is said) and of utils/colors.rs. The clustering itself (linfa,
external: `Dbscan`, `KMeans`, `silhouette_score`) is a parameter. -/

namespace Ficus.Rs.Cl

/-! ### Colours -/

/-- `Color`, utils/colors.rs:5-10. -/
structure Color where
  red : UInt8
  green : UInt8
  blue : UInt8
  deriving DecidableEq, Repr

/-- The loop of `Color::random`, utils/colors.rs:21-38, with the used colours: `draws` are the colours that the random generator
(external) would give, `none` is that they are not enough. -/
def drawColor (used : List Color) : List Color → Option (Color × List Color)
  | [] => none
  | c :: draws => if c ∈ used then drawColor used draws else some (c, draws)

/-- `ColorsHolder`, utils/colors.rs:51-54, with the colours to be drawn. -/
structure Colors where
  names : Dict String Color := []
  used : List Color := []
  draws : List Color

/-- `get_or_create`, utils/colors.rs:64-73. -/
def getColor (h : Colors) (name : String) : Option (Color × Colors) :=
  match h.names.get? name with
  | some c => some (c, h)
  | none => do
    let (c, draws) ← drawColor h.used h.draws
    return (c, { names := h.names.set name c, used := c :: h.used, draws := draws })

/-- Several calls of `get_or_create` after each other, as in common.rs:42-45. -/
def getColors : Colors → List String → Option (List Color × Colors)
  | h, [] => some ([], h)
  | h, n :: names => do
    let (c, h) ← getColor h n
    let (cs, h) ← getColors h names
    return (c :: cs, h)

/-- `create_cluster_name`, common.rs:66-68. -/
def clusterTitle (label : Nat) : String := "CLUSTER_" ++ Nat.repr label

/-- `create_colors_vector`, common.rs:41-46. -/
def colorsVector (h : Colors) (labels : List Nat) : Option (List Color × Colors) := getColors h (labels.map clusterTitle)

/-! ### Clusters of traces -/

/-- The labels of a data set, traces/dbscan.rs:48-52 and activities/dbscan.rs:36-40: zero is noise. -/
def labelOf : Option Nat → Nat
  | none => 0
  | some x => x + 1

/-- The body of the loop over the traces, traces/dbscan.rs:56-64. The copies of traces are equal to them. -/
def addToLog {T : Type} (logs : Dict Nat (List T)) (p : T × Nat) : Dict Nat (List T) :=
  match logs.get? p.2 with
  | some log => logs.set p.2 (log ++ [p.1])
  | none => logs.set p.2 [p.1]

/-- The logs of `clusterize_log_by_traces_dbscan`, traces/dbscan.rs:54-67. -/
def clusterLogs {T : Type} (it : Iter) (traces : List T) (labels : List Nat) : List (List T) :=
  (it.order "new_logs" 0 ((traces.zip labels).foldl addToLog [])).map Prod.snd

/-- `LabeledDataset`, utils/dataset/dataset.rs:31-35. -/
structure Labeled where
  table : Table
  labels : List Nat
  colors : List Color

/-- The end of the functions, traces/dbscan.rs:68-70, activities/dbscan.rs:42-43 and activities/k_means.rs:66-69. -/
def labeledTable (h : Colors) (table : Table) (labels : List Nat) : Except Failure (Labeled × Colors) := do
  let (colors, h) ← orPanic (colorsVector h labels)
  return ({ table := table, labels := labels, colors := colors }, h)

/-- `clusterize_log_by_traces_dbscan`, traces/dbscan.rs:33-71; `cluster` gives the clusters of the rows. -/
def clusterTraces {E : Type} [HasName E] (it : Iter) (distance : Distance) (find : Option (String → Option (Option Match)))
    (source : TraceSource) (cluster : List (List ℚ) → List (Option Nat)) (h : Colors) (log : List (List (Nested E))) :
    Except Failure (List (List (List (Nested E))) × Labeled × Colors) := do
  let table ← createTracesTable it distance find source log
  let labels := (cluster table.values).map labelOf
  return (clusterLogs it log labels, ← labeledTable h table labels)

/-! ### Clusters of activities -/

/-- The variables of the first loop of `merge_activities`, activities/merging.rs:24-25. -/
structure Grouped where
  names : Dict String Nat := []
  clusters : Dict Nat (List RNode) := []

/-- The body of the first loop, activities/merging.rs:28-36. -/
def groupActivity (g : Grouped) (p : RNode × Option Nat) : Grouped :=
  match p.2 with
  | none => g
  | some label =>
    { names := g.names.set p.1.name label,
      clusters := match g.clusters.get? label with
        | some members => g.clusters.set label (members ++ [p.1])
        | none => g.clusters.set label [p.1] }

/-- The events of the repeat set are only read, activities/merging.rs:54-62: a panic if they are not there. -/
def checkRepeat (traces : List Nat) (node : RNode) : Option Unit :=
  match node.repeatSet with
  | none => some ()
  | some r => do
    let size ← traces[r.traceIndex]?
    if r.firstPos + r.length ≤ size then some () else none

/-- The node of a cluster, activities/merging.rs:47-77. The vector of the parts of a name, activities/merging.rs:39 and 65-66, is not
used by the code. -/
def clusterNodeOf (traces : List Nat) (label : Nat) (members : List RNode) : Option RNode := do
  let _ ← members.mapM (checkRepeat traces)
  let first ← members.head?
  return { repeatSet := none, classes := (members.flatMap (fun m => m.classes)).dedup, children := [], level := first.level,
           name := clusterTitle label }

/-- The body of the second loop, activities/merging.rs:43-79: clusters of one activity are left out. -/
def addClusterNode (traces : List Nat) (d : Dict Nat RNode) (c : Nat × List RNode) : Option (Dict Nat RNode) :=
  if c.2.length < 2 then some d else do return d.set c.1 (← clusterNodeOf traces c.1 c.2)

/-- The body of the third loop, activities/merging.rs:84-98. -/
def renameHeld (names : Dict String Nat) (nodes : Dict Nat RNode) (a : Held) : Held :=
  match names.get? a.node.name with
  | none => a
  | some label =>
    match nodes.get? label with
    | none => a
    | some node => { a with node := node }

/-- The loop of activities/merging.rs:110-134 after the activity `last`: `last_seen_activity` is always the name of it. -/
def joinFrom : Held → List Held → List Held
  | last, [] => [last]
  | last, a :: rest =>
    if last.node.name = a.node.name ∧ last.startPos + last.length = a.startPos then
      joinFrom { last with length := last.length + a.length } rest
    else last :: joinFrom a rest

/-- The body of the last loop, activities/merging.rs:103-134. -/
def joinHeld : List Held → List Held
  | [] => []
  | a :: rest => joinFrom a rest

/-- `merge_activities`, activities/merging.rs:18-136. `traces` are the lengths of the traces of the log; `none` is a panic. -/
def mergeActivities (it : Iter) (traces : List Nat) (instances : List (List Held)) (processed : List RNode)
    (labels : List (Option Nat)) : Option (List (List Held)) := do
  let g := (processed.zip labels).foldl groupActivity {}
  let nodes ← (it.order "clusters_to_activities" 0 g.clusters).foldlM (addClusterNode traces) []
  return instances.map (fun t => joinHeld (t.map (renameHeld g.names nodes)))

/-- `clusterize_activities_dbscan`, activities/dbscan.rs:16-44: the new activities of the traces and the data set. -/
def clusterByDensity {E : Type} [HasName E] (it : Iter) (find : Option (String → Option (Option Match))) (source : ActivitySource)
    (cluster : List (List ℚ) → List (Option Nat)) (h : Colors) (log : List (List (Nested E))) (level : Nat)
    (instances : List (List Held)) : Except Failure (List (List Held) × Labeled × Colors) := do
  let (table, processed) ← activitiesTable it find source log level instances
  let clusters := cluster table.values
  let merged ← orPanic (mergeActivities it (log.map List.length) instances processed clusters)
  return (merged, ← labeledTable h table (clusters.map labelOf))

/-- `clusterize_activities_k_means`, activities/k_means.rs:27-51, with `create_labeled_dataset_from_k_means`, 53-70. -/
def clusterByMeans {E : Type} [HasName E] (it : Iter) (find : Option (String → Option (Option Match))) (source : ActivitySource)
    (cluster : List (List ℚ) → List Nat) (h : Colors) (log : List (List (Nested E))) (level : Nat)
    (instances : List (List Held)) : Except Failure (List (List Held) × Labeled × Colors) := do
  let (table, processed) ← activitiesTable it find source log level instances
  let labels := cluster table.values
  let merged ← orPanic (mergeActivities it (log.map List.length) instances processed (labels.map some))
  return (merged, ← labeledTable h table labels)

/-- The loop of the grid search, activities/k_means.rs:92-109, for the numbers of clusters that are left. `fit` are the labels for a
number of clusters, `score` is the silhouette score: `none` is an error, `some none` is not a number. -/
def searchGrid (fit : Nat → List Nat) (score : List Nat → Option (Option ℚ)) : List Nat → ℚ → Option (List Nat) →
    Except Failure (Option (List Nat))
  | [], _, best => .ok best
  | k :: ks, metric, best =>
    match score (fit k) with
    | none => .error .noScore
    | some none => searchGrid fit score ks metric best
    | some (some s) => if metric < s then searchGrid fit score ks s (some (fit k)) else searchGrid fit score ks metric best

/-- `clusterize_activities_k_means_grid_search`, activities/k_means.rs:86-131. -/
def clusterByGrid {E : Type} [HasName E] (it : Iter) (find : Option (String → Option (Option Match))) (source : ActivitySource)
    (fit : List (List ℚ) → Nat → List Nat) (score : List (List ℚ) → List Nat → Option (Option ℚ)) (h : Colors)
    (log : List (List (Nested E))) (level : Nat) (instances : List (List Held)) :
    Except Failure (List (List Held) × Labeled × Colors) := do
  let (table, processed) ← activitiesTable it find source log level instances
  match ← searchGrid (fit table.values) (score table.values) (List.range' 2 (processed.length - 2)) (-1) none with
  | none => throw .noLabels
  | some labels => do
    let merged ← orPanic (mergeActivities it (log.map List.length) instances processed (labels.map some))
    return (merged, ← labeledTable h table labels)

end Ficus.Rs.Cl
