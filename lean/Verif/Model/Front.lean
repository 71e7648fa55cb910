import Verif.Model.Remote

/-! Model of the parts of remote pipelines with their parameters, grpc_pipelines/activities_parts.py, patterns_parts.py,
filtering_parts.py, xes_parts.py, mutation_parts.py, discovery_parts.py, drawing_parts.py and util_parts.py: the messages
that they are converted to. Parameters that only callbacks use (titles, paths of pictures, scales, fonts, ...) are left
out. `F` is the type of python floats. -/

namespace Ficus.Front

/-! ### Enumerations, by the names of their members -/

/-- `PatternsDiscoveryStrategy`, data_models.py:4-6. -/
inductive Strategy | allTraces | mergedTrace
  deriving DecidableEq
/-- `.name`. -/
def Strategy.name : Strategy → String
  | .allTraces => "FromAllTraces"
  | .mergedTrace => "FromSingleMergedTrace"

/-- `PatternsKind`, data_models.py:9-14. -/
inductive PatternsKind | primitiveTandem | maximalTandem | maximalRepeats | superMaximalRepeats | nearSuperMaximalRepeats
  deriving DecidableEq
/-- `.name`. -/
def PatternsKind.name : PatternsKind → String
  | .primitiveTandem => "PrimitiveTandemArrays"
  | .maximalTandem => "MaximalTandemArrays"
  | .maximalRepeats => "MaximalRepeats"
  | .superMaximalRepeats => "SuperMaximalRepeats"
  | .nearSuperMaximalRepeats => "NearSuperMaximalRepeats"

/-- `NarrowActivityKind`, data_models.py:17-21. -/
inductive Narrow | dont | stay | up | down
  deriving DecidableEq
/-- `.name`. -/
def Narrow.name : Narrow → String
  | .dont => "DontNarrow"
  | .stay => "StayTheSame"
  | .up => "NarrowUp"
  | .down => "NarrowDown"

/-- `ActivityFilterKind`, data_models.py:24-26. -/
inductive FilterKind | none | default
  deriving DecidableEq
/-- `.name`. -/
def FilterKind.name : FilterKind → String
  | .none => "NoFilter"
  | .default => "DefaultFilter"

/-- `ActivitiesLogsSource`, data_models.py:29-31. -/
inductive LogsSource | log | tracesActivities
  deriving DecidableEq
/-- `.name`. -/
def LogsSource.name : LogsSource → String
  | .log => "Log"
  | .tracesActivities => "TracesActivities"

/-- `ActivitiesRepresentationSource`, data_models.py:34-37. -/
inductive ReprSource | eventClasses | subTraces | subTracesUnderlying
  deriving DecidableEq
/-- `.name`. -/
def ReprSource.name : ReprSource → String
  | .eventClasses => "EventClasses"
  | .subTraces => "SubTraces"
  | .subTracesUnderlying => "SubTracesUnderlyingEvents"

/-- `Distance`, data_models.py:40-44. -/
inductive Distance | cosine | l1 | l2 | levenshtein
  deriving DecidableEq
/-- `.name`. -/
def Distance.name : Distance → String
  | .cosine => "Cosine"
  | .l1 => "L1"
  | .l2 => "L2"
  | .levenshtein => "Levenshtein"

/-- `TracesRepresentationSource`, data_models.py:47-50. -/
inductive TracesSource | events | underlying | deepest
  deriving DecidableEq
/-- `.name`. -/
def TracesSource.name : TracesSource → String
  | .events => "Events"
  | .underlying => "UnderlyingEvents"
  | .deepest => "DeepestUnderlyingEvents"

/-- `AdjustingMode`, legacy/pipelines/analysis/patterns/models.py:9-11. -/
inductive Adjusting | unattached | allLog
  deriving DecidableEq
/-- `.name`. -/
def Adjusting.name : Adjusting → String
  | .unattached => "FromUnattachedSubTraces"
  | .allLog => "FromAllLog"

/-- `UndefinedActivityHandlingStrategy`, legacy/analysis/patterns/patterns_models.py:68-71. -/
inductive Undef | dont | single | all
  deriving DecidableEq
/-- `.name`. -/
def Undef.name : Undef → String
  | .dont => "DontInsert"
  | .single => "InsertAsSingleEvent"
  | .all => "InsertAllEvents"

/-! ### Parts -/

/-- The parameters of `DiscoverActivitiesForSeveralLevels2`, activities_parts.py:58-80. -/
structure LevelsArgs where
  classes : List String
  kind : PatternsKind
  narrow : Narrow
  level : Int
  strategy : Strategy
  maxLength : Int
  adjusting : Adjusting
  minUnattached : Int
  minActivity : Int
  filter : FilterKind
  deriving DecidableEq

/-- The parameters of `DiscoverActivitiesUntilNoMore2` but its pipeline, activities_parts.py:141-168. -/
structure NoMoreArgs where
  eventClass : Option String
  kind : PatternsKind
  narrow : Narrow
  level : Int
  strategy : Strategy
  undef : Undef
  maxLength : Int
  adjusting : Adjusting
  minUnattached : Int
  minActivity : Int
  filter : FilterKind
  onlyLast : Bool
  deriving DecidableEq

/-- The parameters that `ClusterizationPart2` sends, activities_parts.py:315-338. -/
structure ClusterArgs (F : Type) where
  level : Int
  tolerance : F
  extractor : Option String
  source : ReprSource
  distance : Distance
  deriving DecidableEq

/-- The parameters of `DiscoverPetriNetHeuristic2`, discovery_parts.py:37-48. -/
structure HeuristicArgs (F : Type) where
  dependency : F
  observations : Int
  relative : F
  andT : F
  loopTwo : F
  deriving DecidableEq

/-- The parameters of `DiscoverFuzzyGraph`, discovery_parts.py:63-78. -/
structure FuzzyArgs (F : Type) where
  unary : F
  binary : F
  preserve : F
  ratio : F
  utility : F
  edge : F
  node : F
  deriving DecidableEq

/-- Parts without parameters and callback: xes_parts.py:6-8 and 22-24, util_parts.py:9-11, filtering_parts.py:44-46,
mutation_parts.py:6-21, activities_parts.py:222-229, discovery_parts.py:11-34 and 286-288. -/
inductive Bare
  | readXes | readBxes | useNames | variants | startEnd | start | end | substitute | clear | alpha | alphaPlus
  | alphaPlusPlus | alphaPlusPlusNfc | initialMarking
  deriving DecidableEq

/-- The names of the parts, constants.py:1, 71, 79-106. -/
def Bare.name : Bare → String
  | .readXes => "ReadLogFromXes"
  | .readBxes => "ReadLogFromBxes"
  | .useNames => "UseNamesEventLog"
  | .variants => "FilterLogByVariants"
  | .startEnd => "AddArtificialStartEndEvents"
  | .start => "AddArtificialStartEvents"
  | .end => "AddArtificialEndEvents"
  | .substitute => "SubstituteUnderlyingEvents"
  | .clear => "ClearActivities"
  | .alpha => "DiscoverPetriNetAlpha"
  | .alphaPlus => "DiscoverPetriNetAlphaPlus"
  | .alphaPlusPlus => "DiscoverPetriNetAlphaPlusPlus"
  | .alphaPlusPlusNfc => "DiscoverPetriNetAlphaPlusPlusNfc"
  | .initialMarking => "EnsureInitialMarking"

/-- Parts that show something and have no parameter that is sent: util_parts.py:14-22, grpc_pipelines.py:187-195,
activities_parts.py:232-243, discovery_parts.py:159-173, drawing_parts.py:14-55 and 159-262. The two flags tell the
classes that draw on a canvas. -/
inductive Show
  | names | info | underlying | follows | diversity (canvas : Bool) | full (canvas : Bool) | short (canvas : Bool)
  deriving DecidableEq

/-- The keys of the values asked for and the name of the part that makes them. -/
def Show.request : Show → List String × String
  | .names => (["names_event_log"], "GetNamesEventLog")
  | .info => (["event_log_info"], "GetEventLogInfo")
  | .underlying => (["underlying_events_count"], "GetUnderlyingEventsCount")
  | .follows => (["graph"], "DiscoverDirectlyFollowsGraph")
  | .diversity _ => (["colors_event_log"], "TracesDiversityDiagram")
  | .full _ => (["colors_event_log"], "DrawFullActivitiesDiagram")
  | .short _ => (["colors_event_log"], "DrawShortActivitiesDiagram")

/-- The three parts that annotate Petri nets, discovery_parts.py:232-283. -/
inductive Annotation | count | frequency | traceFrequency
  deriving DecidableEq

/-- The key and the part of an annotation. -/
def Annotation.request : Annotation → String × String
  | .count => ("petri_net_count_annotation", "AnnotatePetriNetWithCount")
  | .frequency => ("petri_net_frequency_annotation", "AnnotatePetriNetWithFrequency")
  | .traceFrequency => ("petri_net_trace_frequency_annotation", "AnnotatePetriNetWithTraceFrequency")

/-- The objects that may be in a `Pipeline2`, with the parameters that they keep; parts with a callback have their
identifier.
- `bare`, `show`: see above;
- `writeXes`, `writeBxes`: xes_parts.py:11-19 and 27-35;
- `minCount`, `byName`, `byRegex`: filtering_parts.py:8-41;
- `tandem`, `repeats`: patterns_parts.py:12-88 (kinds that are of the other sort do not exist: `tandem true` finds
  primitive and `tandem false` maximal tandem arrays);
- `discover`, `instances`, `createLog`, `levels`, `fromPatterns`, `noMore`, `noMoreThen` (with a pipeline), `eachLog`,
  `extractor`, `kMeans`, `grid`, `dbscan`, `dataset`, `clusterTraces`: activities_parts.py;
- `heuristic`, `fuzzy`, `pnml`, `viewNet`, `viewGraph`, `annotate`: discovery_parts.py;
- `placeName`, `placeRegex`: drawing_parts.py:58-156;
- `beforeAfter`: util_parts.py:25-44;
- `other`: an object that is not a part. -/
inductive FPart (F : Type)
  | bare (b : Bare)
  | show (s : Show) (uuid : Uuid)
  | writeXes (path : String)
  | writeBxes (path : String)
  | minCount (n : Int)
  | byName (name : String)
  | byRegex (regex : String)
  | tandem (primitive : Bool) (maxLength : Int) (extractor : Option String)
  | maximalRepeats (strategy : Strategy) (extractor : Option String)
  | superRepeats (strategy : Strategy) (extractor : Option String)
  | nearRepeats (strategy : Strategy) (extractor : Option String)
  | discover (level : Int)
  | instances (narrow : Narrow) (minEvents : Int) (filter : FilterKind)
  | createLog (strategy : Undef)
  | levels (args : LevelsArgs)
  | fromPatterns (kind : PatternsKind) (strategy : Strategy) (maxLength level : Int)
  | noMore (args : NoMoreArgs)
  | noMoreThen (args : NoMoreArgs) (inner : List (FPart F))
  | eachLog (source : LogsSource) (level : Int) (inner : List (FPart F))
  | extractor (extractor filter : String)
  | kMeans (uuid : Uuid) (args : ClusterArgs F) (clusters iterations : Int)
  | grid (uuid : Uuid) (args : ClusterArgs F) (iterations : Int)
  | dbscan (uuid : Uuid) (args : ClusterArgs F) (minEvents : Int)
  | dataset (uuid : Uuid) (level : Int) (extractor : Option String) (source : ReprSource)
  | clusterTraces (uuid : Uuid) (minEvents : Int) (tolerance : F) (distance : Distance) (source : TracesSource)
      (extractor : Option String) (inner : List (FPart F))
  | heuristic (args : HeuristicArgs F)
  | fuzzy (args : FuzzyArgs F)
  | pnml (path : String) (namesAsIds : Bool)
  | viewNet (uuid : Uuid)
  | viewGraph (uuid : Uuid)
  | annotate (kind : Annotation) (uuid : Uuid) (terminate : Bool)
  | placeName (uuid : Uuid) (name : String) (canvas : Bool)
  | placeRegex (uuid : Uuid) (regex : String) (canvas : Bool)
  | beforeAfter (inner : List (FPart F))
  | other

/-! ### Configurations -/

/-- The result of adding one entry, grpc_pipelines.py:235-239. -/
abbrev Entry := Except PyErr (String × Scalar)

/-- `append_uint32_value`, grpc_pipelines.py:242-243: protobuf rejects integers that do not fit (ValueError). -/
def u32 (key : String) (n : Int) : Entry := if 0 ≤ n ∧ n < 2 ^ 32 then .ok (key, .uint32 n.toNat) else .error .valueError
/-- `append_string_value`, grpc_pipelines.py:227-228. -/
def str (key s : String) : Entry := .ok (key, .string s)
/-- `append_bool_value`, grpc_pipelines.py:246-247. -/
def flag (key : String) (b : Bool) : Entry := .ok (key, .bool b)
/-- `append_enum_value`, grpc_pipelines.py:250-251. -/
def enum (key type value : String) : Entry := .ok (key, .enum type value)
/-- `append_float_value`, grpc_pipelines.py:231-232; `f32` is the conversion to 32 bits. -/
def flt {F : Type} (f32 : F → Nat) (key : String) (x : F) : Entry := .ok (key, .float (f32 x))
/-- `if value is not None: append_string_value(...)`, e.g. patterns_parts.py:25-26. -/
def optStr (key : String) : Option String → List Entry
  | none => []
  | some s => [str key s]

/-- A configuration, filled entry by entry; the first failure is raised. -/
def build : List Entry → Except PyErr Config
  | [] => .ok []
  | .error e :: _ => .error e
  | .ok x :: l => (build l).map (x :: ·)

/-- `append_narrow_kind`, grpc_pipelines.py:275-276. -/
def narrowEntry (x : Narrow) : Entry := enum "narrow_activities" "ActivityNarrowingKind" x.name
/-- `append_adjusting_mode`, grpc_pipelines.py:267-268. -/
def adjustingEntry (x : Adjusting) : Entry := enum "adjusting_mode" "AdjustingMode" x.name
/-- `append_patterns_kind`, grpc_pipelines.py:263-264. -/
def kindEntry (x : PatternsKind) : Entry := enum "patterns_kind" "PatternsKindDto" x.name
/-- `append_patterns_discovery_strategy`, grpc_pipelines.py:254-256. -/
def strategyEntry (x : Strategy) : Entry := enum "patterns_discovery_strategy" "PatternsDiscoveryStrategy" x.name
/-- `append_activity_filter_kind`, grpc_pipelines.py:285-286. -/
def filterEntry (x : FilterKind) : Entry := enum "activity_in_trace_filter_kind" "ActivityInTraceFilterKind" x.name
/-- `append_undef_activity_handling_strat`, grpc_pipelines.py:279-282. -/
def undefEntry (x : Undef) : Entry := enum "undef_activity_handling_strategy" "UndefActivityHandlingStrategyDto" x.name

/-- `FindTandemArrays2.to_grpc_part`, patterns_parts.py:22-28. -/
def tandemConfig (maxLength : Int) (extractor : Option String) : Except PyErr Config :=
  build (u32 "tandem_array_length" maxLength :: optStr "event_class_regex" extractor)

/-- `FindRepeats2.to_grpc_part`, patterns_parts.py:55-61. -/
def repeatsConfig (strategy : Strategy) (extractor : Option String) : Except PyErr Config :=
  build (strategyEntry strategy :: optStr "event_class_regex" extractor)

/-- `DiscoverActivities2.to_grpc_part`, activities_parts.py:19-22. -/
def discoverConfig (level : Int) : Except PyErr Config := build [u32 "activity_level" level]

/-- `DiscoverActivitiesInstances2.to_grpc_part`, activities_parts.py:35-42. -/
def instancesConfig (narrow : Narrow) (minEvents : Int) (filter : FilterKind) : Except PyErr Config :=
  build [narrowEntry narrow, u32 "min_activity_length" minEvents, filterEntry filter]

/-- `DiscoverActivitiesForSeveralLevels2.to_grpc_part`, activities_parts.py:82-97. -/
def levelsConfig (a : LevelsArgs) : Except PyErr Config :=
  build [narrowEntry a.narrow, .ok ("event_classes_regexes", .strings a.classes), adjustingEntry a.adjusting,
    u32 "activity_level" a.level, u32 "events_count" a.minUnattached, kindEntry a.kind, strategyEntry a.strategy,
    u32 "min_activity_length" a.minActivity, filterEntry a.filter, u32 "tandem_array_length" a.maxLength]

/-- The parts in the pipeline of `DiscoverActivitiesFromPatterns2.to_grpc_part`, activities_parts.py:112-132. -/
def fromPatternsParts (kind : PatternsKind) (strategy : Strategy) (maxLength level : Int) :
    Except PyErr (List (String × Config)) := do
  let patterns ← match kind with
    | .maximalRepeats => (repeatsConfig strategy none).map (fun c => ("FindMaximalRepeats", c))
    | .superMaximalRepeats => (repeatsConfig strategy none).map (fun c => ("FindSuperMaximalRepeats", c))
    | .nearSuperMaximalRepeats => (repeatsConfig strategy none).map (fun c => ("FindNearSuperMaximalRepeats", c))
    | .primitiveTandem => (tandemConfig maxLength none).map (fun c => ("FindPrimitiveTandemArrays", c))
    | .maximalTandem => (tandemConfig maxLength none).map (fun c => ("FindMaximalTandemArrays", c))
  let c ← discoverConfig level
  return [patterns, ("DiscoverActivities", c)]

/-- `DiscoverActivitiesUntilNoMore2.to_grpc_part` but the pipeline, activities_parts.py:170-185. -/
def noMoreConfig (a : NoMoreArgs) : Except PyErr Config :=
  build ([narrowEntry a.narrow, adjustingEntry a.adjusting, u32 "activity_level" a.level,
    u32 "events_count" a.minUnattached, kindEntry a.kind, strategyEntry a.strategy,
    u32 "min_activity_length" a.minActivity, undefEntry a.undef, filterEntry a.filter,
    flag "execute_only_on_last_extraction" a.onlyLast] ++ optStr "event_class_regex" a.eventClass)

variable {F : Type} (f32 : F → Nat)

/-- `ClusterizationPart2.create_common_config`, activities_parts.py:340-358. -/
def commonEntries (a : ClusterArgs F) : List Entry :=
  [u32 "activity_level" a.level, flt f32 "tolerance" a.tolerance,
    enum "activities_repr_source" "ActivityRepresentationSource" a.source.name,
    enum "distance" "FicusDistance" a.distance.name] ++ optStr "event_class_regex" a.extractor

/-- `ClusterizeActivitiesFromTracesKMeans.to_grpc_part`, activities_parts.py:385-395. -/
def kMeansConfig (a : ClusterArgs F) (clusters iterations : Int) : Except PyErr Config :=
  build (commonEntries f32 a ++ [u32 "clusters_count" clusters, u32 "learning_iterations_count" iterations])

/-- `ClusterizeActivitiesFromTracesKMeansGridSearch.to_grpc_part`, activities_parts.py:420-429. -/
def gridConfig (a : ClusterArgs F) (iterations : Int) : Except PyErr Config :=
  build (commonEntries f32 a ++ [u32 "learning_iterations_count" iterations])

/-- `ClusterizeActivitiesFromTracesDbscan.to_grpc_part`, activities_parts.py:454-464. -/
def dbscanConfig (a : ClusterArgs F) (minEvents : Int) : Except PyErr Config :=
  build (commonEntries f32 a ++ [u32 "min_events_in_cluster_count" minEvents])

/-- `VisualizeTracesActivities2.to_grpc_part`, activities_parts.py:491-508. -/
def datasetConfig (level : Int) (extractor : Option String) (source : ReprSource) : Except PyErr Config :=
  build (u32 "activity_level" level :: optStr "event_class_regex" extractor ++
    [enum "activities_repr_source" "ActivityRepresentationSource" source.name])

/-- `ClusterizeLogTracesDbscan.to_grpc_part` but the pipeline, activities_parts.py:546-571. -/
def clusterTracesConfig (minEvents : Int) (tolerance : F) (distance : Distance) (source : TracesSource)
    (extractor : Option String) : Except PyErr Config :=
  build ([flt f32 "tolerance" tolerance, enum "distance" "FicusDistance" distance.name,
    enum "traces_repr_source" "TracesRepresentationSource" source.name, u32 "min_events_in_cluster_count" minEvents] ++
    optStr "event_class_regex" extractor)

/-- `DiscoverPetriNetHeuristic2.to_grpc_part`, discovery_parts.py:50-59. -/
def heuristicConfig (a : HeuristicArgs F) : Except PyErr Config :=
  build [flt f32 "dependency_threshold" a.dependency, u32 "positive_observations_threshold" a.observations,
    flt f32 "relative_to_best_threshold" a.relative, flt f32 "and_threshold" a.andT,
    flt f32 "loop_length_two_threshold" a.loopTwo]

/-- `DiscoverFuzzyGraph.to_grpc_part`, discovery_parts.py:80-90. -/
def fuzzyConfig (a : FuzzyArgs F) : Except PyErr Config :=
  build [flt f32 "unary_frequency_threshold" a.unary, flt f32 "binary_frequency_significance_threshold" a.binary,
    flt f32 "preserve_threshold" a.preserve, flt f32 "ratio_threshold" a.ratio, flt f32 "utility_rate" a.utility,
    flt f32 "edge_cutoff_threshold" a.edge, flt f32 "node_cutoff_threshold" a.node]

mutual
/-- The part as an object of a remote pipeline (see `RPart`), whose identifier does not matter if it has no callback. The
`to_grpc_part` methods are cited at the configurations; further: `writeXes` xes_parts.py:16-19, `writeBxes` 32-35,
`minCount`, `byName`, `byRegex` filtering_parts.py:13-17, 25-29 and 37-41, `createLog` activities_parts.py:51-55,
`eachLog` 208-215, `extractor` 251-257, `pnml` discovery_parts.py:99-105, `viewNet` 144-146, `viewGraph` 185-187,
`annotate` 221-229, `placeName` drawing_parts.py:74-87, `placeRegex` 126-136. -/
def FPart.part : FPart F → RPart
  | .bare b => .plain 0 b.name (.ok [])
  | .show s u => .complex u s.request.1 s.request.2 (.ok [])
  | .writeXes path => .plain 0 "WriteLogToXes" (build [str "path" path])
  | .writeBxes path => .plain 0 "WriteLogToBxes" (build [str "path" path])
  | .minCount n => .plain 0 "FilterTracesByEventsCount" (build [u32 "events_count" n])
  | .byName name => .plain 0 "FilterEventsByName" (build [str "event_name" name])
  | .byRegex regex => .plain 0 "FilterEventsByRegex" (build [str "regex" regex])
  | .tandem primitive n e =>
    .plain 0 (if primitive then "FindPrimitiveTandemArrays" else "FindMaximalTandemArrays") (tandemConfig n e)
  | .maximalRepeats s e => .plain 0 "FindMaximalRepeats" (repeatsConfig s e)
  | .superRepeats s e => .plain 0 "FindSuperMaximalRepeats" (repeatsConfig s e)
  | .nearRepeats s e => .plain 0 "FindNearSuperMaximalRepeats" (repeatsConfig s e)
  | .discover level => .plain 0 "DiscoverActivities" (discoverConfig level)
  | .instances narrow n filter => .plain 0 "DiscoverActivitiesInstances" (instancesConfig narrow n filter)
  | .createLog s => .plain 0 "CreateLogFromActivities" (build [undefEntry s])
  | .levels a => .plain 0 "DiscoverActivitiesForSeveralLevels" (levelsConfig a)
  | .fromPatterns kind s n level => .hidden 0 (fromPatternsParts kind s n level)
  | .noMore a => .plain 0 "DiscoverActivitiesUntilNoMore" (noMoreConfig a)
  | .noMoreThen a inner => .nested 0 "DiscoverActivitiesUntilNoMore" (noMoreConfig a) (parts inner)
  | .eachLog source level inner => .nested 0 "ExecuteWithEachActivityLog"
      (build [u32 "activity_level" level, enum "activities_logs_source" "ActivitiesLogsSourceDto" source.name]) (parts inner)
  | .extractor e filter => .plain 0 "ApplyClassExtractor" (build [str "event_class_regex" e, str "regex" filter])
  | .kMeans u a k n => .complex u ["labeled_traces_activities_dataset"] "ClusterizeActivitiesFromTracesKMeans"
      (kMeansConfig f32 a k n)
  | .grid u a n => .complex u ["labeled_traces_activities_dataset"] "ClusterizeActivitiesFromTracesKMeansGridSearch"
      (gridConfig f32 a n)
  | .dbscan u a n => .complex u ["labeled_traces_activities_dataset"] "ClusterizeActivitiesFromTracesDbscan"
      (dbscanConfig f32 a n)
  | .dataset u level e s => .complex u ["traces_activities_dataset"] "CreateTracesActivitiesDataset"
      (datasetConfig level e s)
  | .clusterTraces u n t d s e inner => .complexNested u ["labeled_log_traces_dataset"] "ClusterizeLogTraces"
      (clusterTracesConfig f32 n t d s e) (parts inner)
  | .heuristic a => .plain 0 "DiscoverPetriNetHeuristic" (heuristicConfig f32 a)
  | .fuzzy a => .plain 0 "DiscoverFuzzyGraph" (fuzzyConfig f32 a)
  | .pnml path b => .plain 0 "SerializePetriNet" (build [str "path" path, flag "pnml_use_names_as_ids" b])
  | .viewNet u => .simple u "petri_net"
  | .viewGraph u => .simple u "graph"
  | .annotate k u b => .complex u ["petri_net", k.request.1] k.request.2
      (build [flag "terminate_on_unreplayable_traces" b])
  | .placeName u name _ => .complex u ["colors_event_log"] "DrawPlacementOfEventByName" (build [str "event_name" name])
  | .placeRegex u regex _ => .complex u ["colors_event_log"] "DrawPlacementOfEventsByRegex" (build [str "regex" regex])
  | .beforeAfter inner => .beforeAfter 0 (parts inner)
  | .other => .other
/-- The parts of a pipeline. -/
def parts : List (FPart F) → List RPart
  | [] => []
  | p :: ps => p.part :: parts ps
end

/-- `to_grpc_part` of a part. -/
def FPart.message (p : FPart F) : Except PyErr GPart := (p.part f32).toGrpc

/-- `Pipeline2.to_grpc_pipeline`, grpc_pipelines.py:80-81. -/
def messages (ps : List (FPart F)) : Except PyErr (List GPart) := toGrpcPipeline (parts f32 ps)

end Ficus.Front
