import Verif.Model.RsInstances
import Verif.Model.RsInfo
import Mathlib.Algebra.Order.Field.Rat

/-! Model of the data sets of traces and of activities of the backend: features/clustering/common.rs, traces/dbscan.rs (the functions
that create data sets) and activities/activities_common.rs (all paths are below /repo/src/rust/ficus_backend/src/features/clustering
if nothing else is said). Floating-point numbers are rational here. -/

namespace Ficus.Rs.Cl

/-- What ends a function: a panic, or one of the errors of error.rs:8-13. -/
inductive Failure
  | panic | noRepeatSet | noArray | noScore | noLabels
  deriving DecidableEq, Repr

/-- `unwrap` and indices, as in activities_common.rs:133: `None` is a panic. -/
def orPanic {A : Type} : Option A → Except Failure A
  | some x => .ok x
  | none => .error .panic

/-- `RegexEventHasher::transform`, event_log/core/event/event_hasher.rs:85-96, or the name itself if there is no expression, as in
traces/dbscan.rs:146-149 and activities_common.rs:96-100. Simplification: an expression that does not compile, on which the functions
panic (traces/dbscan.rs:131-134), is left out. -/
def transformName (find : Option (String → Option (Option Match))) (name : String) : String :=
  match find with
  | none => name
  | some f =>
    match f name with
    | some (some m) => if m.1 = 0 then upTo name m.2 else name
    | _ => name

/-- An event without the list of underlying events (`event.borrow()`, traces/dbscan.rs:145). -/
def own {E : Type} : Nested E → E
  | .atom e => e
  | .over e _ => e

/-- `TracesRepresentationSource`, traces/traces_params.rs:17-22. -/
inductive TraceSource
  | events | underlying | deepest
  deriving DecidableEq, Repr

/-- `create_vector_of_immediate_underlying_events`, features/analysis/patterns/activity_instances.rs:704-717 (below the root of the
sources). -/
def immediate {E : Type} : Nested E → List E
  | .atom e => [e]
  | .over _ underlying => underlying.map own

/-- `create_trace_representation`, traces/dbscan.rs:97-124. `create_vector_of_underlying_events`, activity_instances.rs:682-702, is
the same recursion as `substitute`. -/
def representation {E : Type} (source : TraceSource) (trace : List (Nested E)) : List E :=
  match source with
  | .events => trace.map own
  | .underlying => trace.flatMap immediate
  | .deepest => trace.flatMap (substitute [])

/-- The first or the next extreme value of a column, common.rs:50-57, where the loop starts with the least or the greatest
floating-point number; there is no value of an empty column. -/
def extreme (pick : ℚ → ℚ → ℚ) : List ℚ → Option ℚ
  | [] => none
  | x :: xs => some (xs.foldl pick x)

/-- The second inner loop of `scale_raw_dataset_min_max`, common.rs:59-62, for one row. -/
def scaleEntry (width column : Nat) (low high : ℚ) (vector : List ℚ) (row : Nat) : Option (List ℚ) := do
  let index := column + row * width
  let x ← vector[index]?
  return vector.set index (if high = low then 1 else (x - low) / (high - low))

/-- The body of the loop of `scale_raw_dataset_min_max`, common.rs:50-62: nothing is done without rows. -/
def scaleColumn (height width : Nat) (vector : List ℚ) (column : Nat) : Option (List ℚ) := do
  let values ← (List.range height).mapM (fun row => vector[column + row * width]?)
  match extreme max values, extreme min values with
  | some high, some low => (List.range height).foldlM (scaleEntry width column low high) vector
  | _, _ => some vector

/-- `scale_raw_dataset_min_max`, common.rs:48-64; `none` is a panic of an index. -/
def scaleDataset (vector : List ℚ) (height width : Nat) : Option (List ℚ) :=
  (List.range width).foldlM (scaleColumn height width) vector

/-- `FicusDataset`, utils/dataset/dataset.rs:3-7. -/
structure Table where
  values : List (List ℚ)
  columns : List String
  rows : List String
  deriving DecidableEq, Repr

/-- `Array2::from_shape_vec` (ndarray, external: an error if the number of entries is wrong), as in traces/dbscan.rs:180-183, and
`transform_to_ficus_dataset`, common.rs:24-39. -/
def tableOf (vector : List ℚ) (rows columns : List String) : Except Failure Table := do
  if vector.length ≠ rows.length * columns.length then throw .noArray
  let values ← orPanic ((List.range rows.length).mapM (fun i =>
    (List.range columns.length).mapM (fun j => vector[i * columns.length + j]?)))
  return { values := values, columns := columns, rows := rows }

/-- The numbers of a row before scaling, traces/dbscan.rs:172-174 and activities_common.rs:175-183. -/
def rawRow (classes : List String) (counts : Dict String Nat) : List ℚ :=
  classes.map (fun c => ((counts.get? c).getD 0 : ℚ))

/-- The end of `create_traces_dataset_default_internal`, traces/dbscan.rs:158-189, and of `create_dataset_internal`,
activities_common.rs:173-199, with the transformation to `FicusDataset`. -/
def countsTable (classes : List String) (rows : List (String × Dict String Nat)) : Except Failure Table := do
  let vector ← orPanic (scaleDataset (rows.flatMap (fun r => rawRow classes r.2)) rows.length classes.length)
  tableOf vector (rows.map Prod.fst) classes

/-- The elements of a set in a sorted vector, traces/dbscan.rs:155-156 and activities_common.rs:167-168. -/
def sortedNames (it : Iter) (names : List String) : List String :=
  (it.order "all_event_classes" 0 names.dedup).insertionSort (fun a b => a ≤ b)

/-- The counts of the classes of events, traces/dbscan.rs:160-170 and activities_common.rs:95-104. -/
def countNames (names : List String) : Dict String Nat := names.foldl increaseInMap []

/-- `create_traces_dataset_default`, traces/dbscan.rs:87-95, with `create_traces_dataset_default_internal`, 126-190. -/
def tracesTable {E : Type} [HasName E] (it : Iter) (find : Option (String → Option (Option Match))) (source : TraceSource)
    (log : List (List (Nested E))) : Except Failure Table :=
  let words := log.map (fun t => (representation source t).map (fun e => transformName find (name e)))
  countsTable (sortedNames it words.flatten)
    (words.zipIdx.map (fun w => ("Trace_" ++ Nat.repr w.2, countNames w.1)))

/-- The numbers of classes, traces/dbscan.rs:223-233: a new class gets the number of classes seen so far plus one. -/
def numberClass (numbers : Dict String Nat) (c : String) : Dict String Nat :=
  if numbers.contains c then numbers else numbers.set c (numbers.length + 1)

/-- A row of the data set of words, traces/dbscan.rs:237-251: numbers of classes and zeros up to the width. -/
def wordRow (numbers : Dict String Nat) (width : Nat) (word : List String) : Option (List ℚ) := do
  return (← word.mapM (fun c => do return ((← numbers.get? c : Nat) : ℚ))) ++ List.replicate (width - word.length) 0

/-- `create_traces_dataset_levenshtein`, traces/dbscan.rs:192-200, with `create_traces_dataset_levenshtein_internal`, 202-264, and the
transformation to `FicusDataset`. -/
def wordsTable {E : Type} [HasName E] (find : Option (String → Option (Option Match))) (source : TraceSource)
    (log : List (List (Nested E))) : Except Failure Table := do
  let words := log.map (fun t => (representation source t).map (fun e => transformName find (name e)))
  let width := words.foldl (fun m w => max m (w.length + 1)) 0
  let numbers := words.flatten.foldl numberClass []
  let rows ← orPanic (words.mapM (wordRow numbers width))
  tableOf rows.flatten ((List.range words.length).map (fun i => "Trace_" ++ Nat.repr i))
    ((List.range width).map (fun i => "Symbol_" ++ Nat.repr i))

/-- `FicusDistance`, utils/distance/distance.rs:6-12. -/
inductive Distance
  | cosine | l1 | l2 | levenshtein
  deriving DecidableEq, Repr

/-- `create_traces_dataset`, traces/dbscan.rs:73-85. -/
def createTracesTable {E : Type} [HasName E] (it : Iter) (distance : Distance) (find : Option (String → Option (Option Match)))
    (source : TraceSource) (log : List (List (Nested E))) : Except Failure Table :=
  match distance with
  | .cosine | .l1 | .l2 => tracesTable it find source log
  | .levenshtein => wordsTable find source log

/-! ### Data sets of activities -/

/-- `ActivityInTraceInfo`, features/analysis/patterns/activity_instances.rs:20-25, with the node itself instead of the pointer: the
functions here neither compare pointers nor change nodes. -/
structure Held where
  node : RNode
  startPos : Nat
  length : Nat
  deriving DecidableEq, Repr

/-- `ActivityRepresentationSource`, activities/activities_params.rs:8-13. -/
inductive ActivitySource
  | eventClasses | subTraces | deepest
  deriving DecidableEq, Repr

/-- The events of the repeat set of an activity, activities_common.rs:132-139 and 221-227; panics if there is no such trace or if the
slice ends after the end of the trace. -/
def repeatEvents {E : Type} (log : List (List (Nested E))) (r : RepeatSet) : Except Failure (List (Nested E)) := do
  let trace ← orPanic log[r.traceIndex]?
  if r.firstPos + r.length ≤ trace.length then return (trace.drop r.firstPos).take r.length else throw .panic

/-- The classes of the events of an activity with their counts: `create_dataset_from_activities_classes`, activities_common.rs:220-249,
or the updates of `create_activities_repr_from_subtraces`, 107-148, for sub-traces, 83, and for their underlying events,
56-65. -/
def activityCounts {E : Type} [HasName E] (find : Option (String → Option (Option Match))) (source : ActivitySource)
    (log : List (List (Nested E))) (node : RNode) : Except Failure (Dict String Nat) := do
  match source, node.repeatSet with
  | .eventClasses, none => throw .noRepeatSet
  | .eventClasses, some r =>
    return ((← repeatEvents log r).map (fun e => transformName find (name (own e)))).dedup.map (fun c => (c, 1))
  | _, none => return []
  | .subTraces, some r => return countNames ((← repeatEvents log r).map (fun e => transformName find (name (own e))))
  | .deepest, some r =>
    return countNames (((← repeatEvents log r).flatMap (substitute [])).map (fun e => transformName find (name e)))

/-- The body of the loops over the activities, activities_common.rs:117-140 and 212-250: only the first instance of a name with the
level counts. -/
def processActivity {E : Type} [HasName E] (find : Option (String → Option (Option Match))) (source : ActivitySource)
    (log : List (List (Nested E))) (level : Nat) (processed : Dict String (RNode × Dict String Nat)) (activity : Held) :
    Except Failure (Dict String (RNode × Dict String Nat)) := do
  if processed.contains activity.node.name then return processed
  if activity.node.level ≠ level then return processed
  return processed.set activity.node.name (activity.node, ← activityCounts find source log activity.node)

/-- `create_dataset`, activities_common.rs:34-42, with `create_dataset_internal`, 150-200: the data set and the nodes of its rows. The
set of all classes, which is filled with the counts (activities_common.rs:102-103 and 238-240), is here made of them. -/
def activitiesTable {E : Type} [HasName E] (it : Iter) (find : Option (String → Option (Option Match))) (source : ActivitySource)
    (log : List (List (Nested E))) (level : Nat) (instances : List (List Held)) : Except Failure (Table × List RNode) := do
  let processed ← instances.flatten.foldlM (processActivity find source log level) []
  let classes := sortedNames it (processed.flatMap (fun e => e.2.2.keys))
  let rows := ((it.order "processed" 0 processed).map Prod.snd).insertionSort (fun a b => a.1.name ≤ b.1.name)
  return (← countsTable classes (rows.map (fun r => (r.1.name, r.2))), rows.map Prod.fst)

end Ficus.Rs.Cl
