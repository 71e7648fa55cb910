import Verif.Model.Front

/-! Model of how the backend reads the messages of a pipeline, /repo/src/rust/ficus_backend/src: which part it runs with
which parameters. What the parts then do is not modelled. `none` stands for a failure of the backend, an error or a panic,
whatever the log is, or for a value that is asked for and not sent back. -/

namespace Ficus.Backend
open Front

/-! ### Reading a configuration -/

/-- The entry of a key in the user data of a part, grpc/backend_service.rs:272-278 and utils/user_data/user_data.rs:37-42:
a later entry replaces an earlier one. -/
def entry (c : Config) (key : String) : Option Scalar := Dict.get? c.reverse key

/-- A parameter of the type `String` (keys: pipelines/keys/context_keys_init.rs:207-466). A value of another type is a panic,
user_data.rs:99-104. -/
def string (c : Config) (key : String) : Option String :=
  match entry c key with
  | some (.string s) => some s
  | _ => none
/-- A parameter of the type `u32`. -/
def number (c : Config) (key : String) : Option Int :=
  match entry c key with
  | some (.uint32 n) => some n
  | _ => none
/-- A parameter of the type `bool`. -/
def bool (c : Config) (key : String) : Option Bool :=
  match entry c key with
  | some (.bool b) => some b
  | _ => none
/-- A parameter of the type `f64`, given by the 32 bits that were sent. -/
def float (c : Config) (key : String) : Option Nat :=
  match entry c key with
  | some (.float b) => some b
  | _ => none
/-- A parameter of the type `Vec<String>`. -/
def strings (c : Config) (key : String) : Option (List String) :=
  match entry c key with
  | some (.strings l) => some l
  | _ => none
/-- A parameter of an enumeration, grpc/converters.rs:81-104 and 121-125: the type is told by its name, and an unknown
value is left out. -/
def enumeration {A : Type} (type : String) (parse : String → Option A) (c : Config) (key : String) : Option A :=
  match entry c key with
  | some (.enum t v) => if t = type then parse v else none
  | _ => none
/-- An optional parameter of the type `String`: absent, or as given. -/
def optional (c : Config) (key : String) : Option (Option String) :=
  match entry c key with
  | none => some none
  | some (.string s) => some (some s)
  | _ => none

/-- `PatternsDiscoveryStrategy::from_str`, features/analysis/patterns/contexts.rs:22-28. -/
def parseStrategy : String → Option Strategy
  | "FromAllTraces" => some .allTraces
  | "FromSingleMergedTrace" => some .mergedTrace
  | _ => none
/-- `PatternsKindDto::from_str`, pipelines/patterns_parts.rs:30-39. -/
def parseKind : String → Option PatternsKind
  | "PrimitiveTandemArrays" => some .primitiveTandem
  | "MaximalTandemArrays" => some .maximalTandem
  | "MaximalRepeats" => some .maximalRepeats
  | "SuperMaximalRepeats" => some .superMaximalRepeats
  | "NearSuperMaximalRepeats" => some .nearSuperMaximalRepeats
  | _ => none
/-- `ActivityNarrowingKind::from_str`, features/analysis/patterns/activity_instances.rs:45-53. -/
def parseNarrow : String → Option Narrow
  | "DontNarrow" => some .dont
  | "StayTheSame" => some .stay
  | "NarrowUp" => some .up
  | "NarrowDown" => some .down
  | _ => none
/-- `ActivityInTraceFilterKind::from_str`, features/analysis/patterns/activity_instances.rs:65-71. -/
def parseFilter : String → Option FilterKind
  | "NoFilter" => some .none
  | "DefaultFilter" => some .default
  | _ => none
/-- `AdjustingMode::from_str`, features/analysis/patterns/activity_instances.rs:326-332. -/
def parseAdjusting : String → Option Adjusting
  | "FromAllLog" => some .allLog
  | "FromUnattachedSubTraces" => some .unattached
  | _ => none
/-- `UndefActivityHandlingStrategyDto::from_str`, pipelines/activities_parts.rs:52-59. -/
def parseUndef : String → Option Undef
  | "DontInsert" => some .dont
  | "InsertAsSingleEvent" => some .single
  | "InsertAllEvents" => some .all
  | _ => none
/-- `ActivitiesLogsSourceDto::from_str`, pipelines/activities_parts.rs:70-76. -/
def parseLogsSource : String → Option LogsSource
  | "Log" => some .log
  | "TracesActivities" => some .tracesActivities
  | _ => none
/-- `ActivityRepresentationSource::from_str`, features/clustering/activities/activities_params.rs:18-25. -/
def parseRepr : String → Option ReprSource
  | "EventClasses" => some .eventClasses
  | "SubTraces" => some .subTraces
  | "SubTracesUnderlyingEvents" => some .subTracesUnderlying
  | _ => none
/-- `FicusDistance::from_str`, utils/distance/distance.rs:17-25. -/
def parseDistance : String → Option Distance
  | "Cosine" => some .cosine
  | "L1" => some .l1
  | "L2" => some .l2
  | "Levenshtein" => some .levenshtein
  | _ => none
/-- `TracesRepresentationSource::from_str`, features/clustering/traces/traces_params.rs:27-34. -/
def parseTracesSource : String → Option TracesSource
  | "Events" => some .events
  | "UnderlyingEvents" => some .underlying
  | "DeepestUnderlyingEvents" => some .deepest
  | _ => none

/-! ### What is run -/

/-- How patterns are found, with the parameters used, pipelines/patterns_parts.rs:73-131. -/
inductive Find
  | tandem (primitive : Bool) (maxLength : Int)
  | maximal (strategy : Strategy)
  | superMaximal (strategy : Strategy)
  | nearSuperMaximal (strategy : Strategy)
  deriving DecidableEq

/-- The parts run by the backend, with the parameters that they use. -/
inductive Command
  | bare (b : Bare)
  | writeXes (path : String)
  | writeBxes (path : String)
  | filterCount (n : Int)
  | filterName (name : String)
  | filterRegex (regex : String)
  | find (f : Find) (classes : Option String)
  | discover (level : Int)
  | instances (narrow : Narrow) (minLength : Int) (filter : FilterKind)
  | createLog (undef : Undef)
  | levels (classes : List String) (f : Option Find) (level : Int) (adjusting : Adjusting) (narrow : Narrow)
      (minUnattached minLength : Int) (filter : FilterKind)
  | untilNoMore (f : Find) (classes : Option String) (level : Int) (narrow : Narrow) (minLength : Int)
      (filter : FilterKind) (undef : Undef) (onlyLast : Bool) (after : Option (List Command))
  | eachLog (source : LogsSource) (level : Option Int) (run : List Command)
  | run (pipeline : List Command)
  | extract (classes filter : String)
  | heuristic (args : HeuristicArgs Nat)
  | fuzzy (args : FuzzyArgs Nat)
  | pnml (path : String) (namesAsIds : Bool)
  | names | info | underlying | follows | diversity | full | short
  | placeName (name : String)
  | placeRegex (regex : String)
  | kMeans (args : ClusterArgs Nat) (clusters iterations : Int)
  | grid (args : ClusterArgs Nat) (iterations : Int)
  | dbscan (args : ClusterArgs Nat) (minEvents : Int)
  | dataset (level : Int) (classes : Option String) (source : ReprSource)
  | clusterTraces (minEvents : Int) (tolerance : Nat) (distance : Distance) (source : TracesSource)
      (classes : Option String) (run : List Command)
  | annotate (kind : Annotation) (terminate : Bool)
  /-- Runs a part, if any, and then sends back the values of the keys, under the identifier. -/
  | send (before : Option Command) (keys : List String) (uuid : Uuid)

/-- The names of the parts without parameters, pipelines/parts_names.rs:4-60, all registered in pipeline_parts.rs:27-82;
their functions read no parameter: xes_parts.rs:25-55, util_parts.rs:77-98, filtering_parts.rs:45-58,
mutations_parts.rs:9-37, activities_parts.rs:300-305 and 430-447, discovery_parts.rs:19-84 and 148-156. -/
def bareOf : String → Option Bare
  | "ReadLogFromXes" => some .readXes
  | "ReadLogFromBxes" => some .readBxes
  | "UseNamesEventLog" => some .useNames
  | "FilterLogByVariants" => some .variants
  | "AddArtificialStartEndEvents" => some .startEnd
  | "AddArtificialStartEvents" => some .start
  | "AddArtificialEndEvents" => some .end
  | "SubstituteUnderlyingEvents" => some .substitute
  | "ClearActivities" => some .clear
  | "DiscoverPetriNetAlpha" => some .alpha
  | "DiscoverPetriNetAlphaPlus" => some .alphaPlus
  | "DiscoverPetriNetAlphaPlusPlus" => some .alphaPlusPlus
  | "DiscoverPetriNetAlphaPlusPlusNfc" => some .alphaPlusPlusNfc
  | "EnsureInitialMarking" => some .initialMarking
  | _ => none

/-- The strategy of repeats, patterns_parts.rs:99. -/
def strategy (c : Config) : Option Strategy :=
  enumeration "PatternsDiscoveryStrategy" parseStrategy c "patterns_discovery_strategy"

/-- `find_tandem_arrays_and_put_to_context`, patterns_parts.rs:73-90: a missing length is a panic. -/
def findTandem (primitive : Bool) (c : Config) : Option Find := (number c "tandem_array_length").map (Find.tandem primitive)

/-- `find_patterns`, patterns_parts.rs:111-131. -/
def findPatterns (c : Config) : Option Find := do
  let kind ← enumeration "PatternsKindDto" parseKind c "patterns_kind"
  match kind with
  | .primitiveTandem => findTandem true c
  | .maximalTandem => findTandem false c
  | .maximalRepeats => (strategy c).map .maximal
  | .superMaximalRepeats => (strategy c).map .superMaximal
  | .nearSuperMaximalRepeats => (strategy c).map .nearSuperMaximal

/-- The narrowing and the filter of instances, activities_parts.rs:124 and 127. -/
def narrowOf (c : Config) : Option Narrow := enumeration "ActivityNarrowingKind" parseNarrow c "narrow_activities"
/-- See `narrowOf`. -/
def filterOf (c : Config) : Option FilterKind :=
  enumeration "ActivityInTraceFilterKind" parseFilter c "activity_in_trace_filter_kind"
/-- The handling of undefined activities, activities_parts.rs:155. -/
def undefOf (c : Config) : Option Undef :=
  enumeration "UndefActivityHandlingStrategyDto" parseUndef c "undef_activity_handling_strategy"

/-- `discover_activities_instances_for_several_levels`, activities_parts.rs:173-205. The configuration of each level
(187-196) has no `tandem_array_length`, whatever was sent, so that kinds of tandem arrays fail if there is a level; and
the strategy is required in any case. -/
def readLevels (c : Config) : Option Command := do
  let classes ← strings c "event_classes_regexes"
  let level ← number c "activity_level"
  let adjusting ← enumeration "AdjustingMode" parseAdjusting c "adjusting_mode"
  let _ ← strategy c
  let narrow ← narrowOf c
  let minUnattached ← number c "events_count"
  let minLength ← number c "min_activity_length"
  let filter ← filterOf c
  let _ ← enumeration "PatternsKindDto" parseKind c "patterns_kind"
  let f ← if classes = [] then some none
    else (findPatterns (c.filter (fun kv => kv.1 ≠ "tandem_array_length"))).map some
  return .levels classes f level adjusting narrow minUnattached minLength filter

/-- `discover_activities_until_no_more`, activities_parts.rs:347-396, but the pipeline, which is optional (350). -/
def readUntilNoMore (c : Config) (after : Option (List Command)) : Option Command := do
  let level ← number c "activity_level"
  let onlyLast ← bool c "execute_only_on_last_extraction"
  let f ← findPatterns c
  let classes ← optional c "event_class_regex"
  let narrow ← narrowOf c
  let minLength ← number c "min_activity_length"
  let filter ← filterOf c
  let undef ← undefOf c
  return .untilNoMore f classes level narrow minLength filter undef onlyLast after

/-- `execute_with_each_activity_log`, activities_parts.rs:398-428: the level is read only for activities of traces. -/
def readEachLog (c : Config) (run : List Command) : Option Command := do
  let source ← enumeration "ActivitiesLogsSourceDto" parseLogsSource c "activities_logs_source"
  match source with
  | .log => return .eachLog .log none run
  | .tracesActivities => return .eachLog .tracesActivities (some (← number c "activity_level")) run

/-- `create_activities_clustering_params`, activities_parts.rs:507-559. -/
def readCluster (c : Config) : Option (ClusterArgs Nat) := do
  let classes ← optional c "event_class_regex"
  let level ← number c "activity_level"
  let source ← enumeration "ActivityRepresentationSource" parseRepr c "activities_repr_source"
  let tolerance ← float c "tolerance"
  let distance ← enumeration "FicusDistance" parseDistance c "distance"
  return ⟨level, tolerance, classes, source, distance⟩

/-- The part of a name with a configuration without pipeline, pipeline_parts.rs:27-82 and grpc/backend_service.rs:265-284.
Lines of the parameters: xes_parts.rs:17 and 59, filtering_parts.rs:23, 33 and 63, patterns_parts.rs:43-108,
activities_parts.rs:82, 124-127, 155, 453-457, discovery_parts.rs:35-36, 99-103 and 123-129, drawing_parts.rs:51 and 90,
annotations_parts.rs:36; of clusters activities_parts.rs:491-505, 561-592 and 594-609. Parts that need a pipeline fail
(400 and 631, util_parts.rs:102), as unknown names do. -/
def readPlain (name : String) (c : Config) : Option Command :=
  match bareOf name with
  | some b => some (.bare b)
  | none =>
    if name = "WriteLogToXes" then (string c "path").map .writeXes
    else if name = "WriteLogToBxes" then (string c "path").map .writeBxes
    else if name = "FilterTracesByEventsCount" then (number c "events_count").map .filterCount
    else if name = "FilterEventsByName" then (string c "event_name").map .filterName
    else if name = "FilterEventsByRegex" then (string c "regex").map .filterRegex
    else if name = "FindPrimitiveTandemArrays" then do
      return .find (← findTandem true c) (← optional c "event_class_regex")
    else if name = "FindMaximalTandemArrays" then do
      return .find (← findTandem false c) (← optional c "event_class_regex")
    else if name = "FindMaximalRepeats" then do
      return .find (.maximal (← strategy c)) (← optional c "event_class_regex")
    else if name = "FindSuperMaximalRepeats" then do
      return .find (.superMaximal (← strategy c)) (← optional c "event_class_regex")
    else if name = "FindNearSuperMaximalRepeats" then do
      return .find (.nearSuperMaximal (← strategy c)) (← optional c "event_class_regex")
    else if name = "DiscoverActivities" then (number c "activity_level").map .discover
    else if name = "DiscoverActivitiesInstances" then do
      return .instances (← narrowOf c) (← number c "min_activity_length") (← filterOf c)
    else if name = "CreateLogFromActivities" then (undefOf c).map .createLog
    else if name = "DiscoverActivitiesForSeveralLevels" then readLevels c
    else if name = "DiscoverActivitiesUntilNoMore" then readUntilNoMore c none
    else if name = "ApplyClassExtractor" then do return .extract (← string c "event_class_regex") (← string c "regex")
    else if name = "DiscoverPetriNetHeuristic" then do
      return .heuristic ⟨← float c "dependency_threshold", ← number c "positive_observations_threshold",
        ← float c "relative_to_best_threshold", ← float c "and_threshold", ← float c "loop_length_two_threshold"⟩
    else if name = "DiscoverFuzzyGraph" then do
      return .fuzzy ⟨← float c "unary_frequency_threshold", ← float c "binary_frequency_significance_threshold",
        ← float c "preserve_threshold", ← float c "ratio_threshold", ← float c "utility_rate",
        ← float c "edge_cutoff_threshold", ← float c "node_cutoff_threshold"⟩
    else if name = "SerializePetriNet" then do return .pnml (← string c "path") (← bool c "pnml_use_names_as_ids")
    else if name = "GetNamesEventLog" then some .names
    else if name = "GetEventLogInfo" then some .info
    else if name = "GetUnderlyingEventsCount" then some .underlying
    else if name = "DiscoverDirectlyFollowsGraph" then some .follows
    else if name = "TracesDiversityDiagram" then some .diversity
    else if name = "DrawFullActivitiesDiagram" then some .full
    else if name = "DrawShortActivitiesDiagram" then some .short
    else if name = "DrawPlacementOfEventByName" then (string c "event_name").map .placeName
    else if name = "DrawPlacementOfEventsByRegex" then (string c "regex").map .placeRegex
    else if name = "ClusterizeActivitiesFromTracesKMeans" then do
      return .kMeans (← readCluster c) (← number c "clusters_count") (← number c "learning_iterations_count")
    else if name = "ClusterizeActivitiesFromTracesKMeansGridSearch" then do
      return .grid (← readCluster c) (← number c "learning_iterations_count")
    else if name = "ClusterizeActivitiesFromTracesDbscan" then do
      return .dbscan (← readCluster c) (← number c "min_events_in_cluster_count")
    else if name = "CreateTracesActivitiesDataset" then do
      return .dataset (← number c "activity_level") (← optional c "event_class_regex")
        (← enumeration "ActivityRepresentationSource" parseRepr c "activities_repr_source")
    else if name = "AnnotatePetriNetWithCount" then (bool c "terminate_on_unreplayable_traces").map (.annotate .count)
    else if name = "AnnotatePetriNetWithFrequency" then
      (bool c "terminate_on_unreplayable_traces").map (.annotate .frequency)
    else if name = "AnnotatePetriNetWithTraceFrequency" then
      (bool c "terminate_on_unreplayable_traces").map (.annotate .traceFrequency)
    else none

/-- The same with a pipeline under the key `pipeline` (see `GPart`): activities_parts.rs:350 and 400, 628-650 with 611-626,
util_parts.rs:100-107. Parts that do not read it are left out. -/
def readWith (name : String) (c : Config) (pipeline : List Command) : Option Command :=
  if name = "DiscoverActivitiesUntilNoMore" then readUntilNoMore c (some pipeline)
  else if name = "ExecuteWithEachActivityLog" then readEachLog c pipeline
  else if name = "ExecuteFrontendPipeline" then some (.run pipeline)
  else if name = "ClusterizeLogTraces" then do
    let tolerance ← float c "tolerance"
    let distance ← enumeration "FicusDistance" parseDistance c "distance"
    let source ← enumeration "TracesRepresentationSource" parseTracesSource c "traces_repr_source"
    let classes ← optional c "event_class_regex"
    let minEvents ← number c "min_events_in_cluster_count"
    return .clusterTraces minEvents tolerance distance source classes pipeline
  else none

/-- The values that can be sent back, grpc/converters.rs:142-178. The number of underlying events, which
activities_parts.rs:320 puts into the context, is not among them. -/
def sendable : List String :=
  ["path", "hashes_event_log", "names_event_log", "patterns", "repeat_sets", "colors_event_log", "event_log_info",
   "petri_net", "graph", "petri_net_count_annotation", "petri_net_frequency_annotation",
   "petri_net_trace_frequency_annotation", "traces_activities_dataset", "labeled_traces_activities_dataset",
   "labeled_log_traces_dataset", "log_traces_dataset"]

/-- The values that are in the context after a part has been run, because the part has put them there or needs them:
util_parts.rs:40 and 71, activities_parts.rs:320, discovery_parts.rs:90, drawing_parts.rs:43, 84, 125 and 159, annotations_parts.rs:35-40,
activities_parts.rs:502, 573, 589, 606 and 639. Simplification: parts that are not used in requests are left out. -/
def present : Command → List String
  | .names => ["names_event_log"]
  | .info => ["event_log_info"]
  | .underlying => ["underlying_events_count"]
  | .follows => ["graph"]
  | .diversity | .full | .short | .placeName _ | .placeRegex _ => ["colors_event_log"]
  | .kMeans .. | .grid .. | .dbscan .. => ["labeled_traces_activities_dataset"]
  | .dataset .. => ["traces_activities_dataset"]
  | .clusterTraces .. => ["labeled_log_traces_dataset"]
  | .annotate .count _ => ["petri_net", "petri_net_count_annotation"]
  | .annotate .frequency _ => ["petri_net", "petri_net_frequency_annotation"]
  | .annotate .traceFrequency _ => ["petri_net", "petri_net_trace_frequency_annotation"]
  | _ => []

/-- A request for values after a part, grpc/backend_service.rs:231-249 and grpc/get_context_pipeline.rs:36-103: a missing
value is an error. -/
def request (keys : List String) (u : Uuid) (before : Command) : Option Command :=
  if ∀ k ∈ keys, k ∈ sendable ∧ k ∈ present before then some (.send (some before) keys u) else none

mutual
/-- `to_pipeline` for one part, grpc/backend_service.rs:223-249. -/
def read : GPart → Option Command
  | .default name c => readPlain name c
  | .defaultWith name c pipeline => do
    let l ← readAll pipeline
    readWith name c l
  | .simple key u => if key ∈ sendable then some (.send none [key] u) else none
  | .complex keys before c u => do
    let b ← readPlain before c
    request keys u b
  | .complexWith keys before c u pipeline => do
    let l ← readAll pipeline
    let b ← readWith before c l
    request keys u b
/-- `to_pipeline`, grpc/backend_service.rs:220-253. -/
def readAll : List GPart → Option (List Command)
  | [] => some []
  | g :: gs => do
    let x ← read g
    let xs ← readAll gs
    return x :: xs
end

end Ficus.Backend
