import Verif.Model.Pipeline

/-! Model of the parts of the local pipelines as users of contexts: which values they read, in which order, and which
contexts they change. Files src/python/ficus/legacy/pipelines/: filtering/filter_parts.py, analysis/analysis_parts.py,
start/start_parts.py, discovery/discovery_parts.py, analysis/patterns/patterns_graph_parts.py,
mutations/mutations_parts.py, serialization/pipeline_parts.py, analysis/patterns/patterns_parts.py and
analysis/high_level.py.

What the parts compute from the values that they read (the functions of the other models, plotting, pm4py) is a
parameter here: an object of a part class carries the functions that its `execute` calls. -/

namespace Ficus
namespace Library
variable {V S : Type}

/-- The functions called by the code of a part. `call name args` is the call of the function of that name, which may
change objects and the used colours and may raise, but does not get hold of a context; `pairs` are the items over which
the code iterates. Simplification: a save path, which may be a function of the context (common.py:24-32), is part of
`call`, so it may raise but not change the context. -/
structure Ext (V S : Type) where
  call : String → List V → List String × S → Except PyErr V × (List String × S)
  pairs : V → List String × S → List (V × V)

/-- A call from the code of a part. -/
def Ext.run (x : Ext V S) (name : String) (args : List V) : Py V S V := fun w =>
  ((x.call name args (w.used, w.rest)).1,
    { w with used := (x.call name args (w.used, w.rest)).2.1, rest := (x.call name args (w.used, w.rest)).2.2 })

/-- The accessors of contexts/accessors.py:7-52: they fail with `AttributeError` for `None`. -/
def value (v : Input) (key : String) : Py V S V :=
  match v with
  | none => Py.fail .attributeError
  | some r => getOrThrow r key

/-- Several accessors, as arguments of a call, from left to right. -/
def values (v : Input) : List String → Py V S (List V)
  | [] => Py.ret []
  | k :: ks => Py.bind (value v k) (fun a => Py.bind (values v ks) (fun as => Py.ret (a :: as)))

/-- `cached_colors(current_input)`, accessors.py:51-52 with part_results.py:135-139. -/
def colors (x : Ext V S) (v : Input) : Py V S V :=
  match v with
  | none => Py.fail .attributeError
  | some r =>
    Py.bind (hasValue r "cached_colors") (fun b =>
      Py.bind (if b then Py.ret r else Py.bind (x.run "dict" []) (fun d => withValue r "cached_colors" d))
        (fun _ => getOrThrow r "cached_colors"))

/-- `current_input.with_...(value)`, part_results.py:38-84. -/
def put (v : Input) (key : String) (a : V) : Py V S Input :=
  match v with
  | none => Py.fail .attributeError
  | some r => Py.bind (withValue r key a) (fun c => Py.ret (some c))

/-- `PipelinePartResult()`. -/
def fresh : Py V S Input := Py.bind newContext (fun c => Py.ret (some c))

/-- Reads values, calls a function with them and returns the input: the shape of the parts that print, draw, save or
change events in place. -/
def show' (x : Ext V S) (f : String) (keys : List String) (v : Input) : Py V S Input :=
  Py.bind (values v keys) (fun as => Py.bind (x.run f as) (fun _ => Py.ret v))

/-- The same with the cached colours as further argument. -/
def showColors (x : Ext V S) (f : String) (keys : List String) (v : Input) : Py V S Input :=
  Py.bind (values v keys) (fun as => Py.bind (colors x v) (fun c => Py.bind (x.run f (as ++ [c])) (fun _ => Py.ret v)))

/-- Reads values, calls a function and puts the result into the same context. -/
def compute (x : Ext V S) (f : String) (keys : List String) (key : String) (v : Input) : Py V S Input :=
  Py.bind (values v keys) (fun as => Py.bind (x.run f as) (fun a => put v key a))

/-- Reads the log, calls a function and puts the result into a new context: `PipelinePartResult().with_log(f(log))`. The
new context is created first. -/
def renew (x : Ext V S) (f : String) (v : Input) : Py V S Input :=
  Py.bind fresh (fun n => Py.bind (value v "log") (fun l => Py.bind (x.run f [l]) (fun a => put n "log" a)))

/-- `PreprocessEventsNames`, mutations_parts.py:35-42: the log is changed in place, then the same log is put into a new
context. -/
def preprocessNames (x : Ext V S) (v : Input) : Py V S Input :=
  Py.bind (value v "log") (fun l =>
    Py.bind (x.run "preprocess_event_names_inplace" [l]) (fun _ => Py.bind fresh (fun n => put n "log" l)))

/-- `ClearActivities`, patterns_parts.py:404-410: the activities are put before `empty_list` reads the log. -/
def clear (x : Ext V S) (v : Input) : Py V S Input :=
  Py.bind (x.run "list" []) (fun e =>
  Py.bind (put v "activities" e) (fun v =>
  Py.bind (value v "log") (fun l =>
  Py.bind (x.run "empty_list" [l]) (fun e1 =>
  Py.bind (put v "traces_activities" e1) (fun v =>
  Py.bind (x.run "list" []) (fun e2 =>
  Py.bind (put v "repeat_sets" e2) (fun v =>
  Py.bind (value v "log") (fun l =>
  Py.bind (x.run "empty_list" [l]) (fun e3 =>
  put v "patterns" e3)))))))))

/-- `DiscoverTandemArrays`, patterns_parts.py:17-36. -/
def tandemArrays (x : Ext V S) : Input → Py V S Input := compute x "find_tandem_arrays" ["log"] "patterns"

/-- `DiscoverRepeats`, patterns_parts.py:131-146. -/
def repeats (x : Ext V S) : Input → Py V S Input := compute x "find_repeats" ["log"] "patterns"

/-- `DiscoverRepeatsSets`, patterns_parts.py:50-59. -/
def repeatSets (x : Ext V S) : Input → Py V S Input := compute x "create_repeat_sets" ["log", "patterns"] "repeat_sets"

/-- `DiscoverActivities`, patterns_parts.py:71-92. -/
def activities (x : Ext V S) : Input → Py V S Input := compute x "build_repeat_set_tree" ["log", "repeat_sets"] "activities"

/-- `DiscoverActivitiesInTraces`, patterns_parts.py:95-112. -/
def inTraces (x : Ext V S) : Input → Py V S Input :=
  compute x "extract_activities_from_log" ["log", "activities"] "traces_activities"

/-- `DiscoverActivitiesInUnattachedSubTraces`, patterns_parts.py:271-292. -/
def inUnattached (x : Ext V S) : Input → Py V S Input :=
  compute x "add_unattached_activities" ["log", "activities", "traces_activities"] "traces_activities"

/-- `PrintFoundActivitiesCount`, patterns_parts.py:453-456. -/
def printFound (x : Ext V S) : Input → Py V S Input := show' x "print" ["activities"]

/-- `PrintActivities`, patterns_parts.py:149-162; without `do_print` it does not look at the context. -/
def printActivities (x : Ext V S) (doPrint : Bool) (v : Input) : Py V S Input :=
  if doPrint then show' x "print" ["activities"] v else Py.ret v

/-- `input_transformer` of `DiscoverActivitiesFromPatterns`, patterns_parts.py:432-436. The copy is made first. -/
def patternsInput (x : Ext V S) (merged : Bool) (v : Input) : Py V S Input :=
  Py.bind (copyInput v) (fun c =>
    if merged then
      Py.bind (value v "log") (fun l => Py.bind (x.run "merge_all_traces_in_one_log" [l]) (fun m => put c "log" m))
    else Py.ret c)

/-- `output_merger` of `DiscoverActivitiesFromPatterns`, patterns_parts.py:438-441. -/
def patternsOutput (v t : Input) : Py V S Input :=
  Py.bind (copyInput v) (fun c =>
  Py.bind (value t "activities") (fun a =>
  Py.bind (put c "activities" a) (fun c =>
  Py.bind (value t "patterns") (fun p => put c "patterns" p))))

/-- `DiscoverActivitiesFromPatterns`, patterns_parts.py:418-450, with the source of the patterns. `merged` is
`DiscoverFromSingleMergedTrace`. -/
def fromPatterns (x : Ext V S) (merged : Bool) (source : Input → Py V S Input) : Part V S :=
  .withTemp (patternsInput x merged) patternsOutput
    [.prim source, .prim (repeatSets x), .prim (activities x), .prim (printFound x)]

/-- `DiscoverActivitiesFromTandemArrays`, high_level.py:27-60, and `DiscoverActivitiesInstancesFromRepeats`, 63-95: a
pipeline of three parts. A pipeline that is always run is written as a condition that holds. -/
def discover (x : Ext V S) (merged debug : Bool) (source : Input → Py V S Input) : Part V S :=
  .cond (fun _ => Py.ret true) [fromPatterns x merged source, .prim (printActivities x debug), .prim (inTraces x)]

/-- `has_value`, part_results.py:90-91, on an input. -/
def has (v : Input) (key : String) : Py V S Bool :=
  match v with
  | none => Py.fail .attributeError
  | some r => hasValue r key

/-- `input_transformer` of `AdjustWithActivitiesFromUnattachedEvents`, high_level.py:116-127; `unattached` is the mode
`FromUnattachedSubTraces`. -/
def adjustInput (x : Ext V S) (unattached : Bool) (v : Input) : Py V S Input :=
  Py.bind (has v "traces_activities") (fun b =>
    Py.bind
      (if unattached then
        if b then
          Py.bind (values v ["log", "traces_activities"]) (fun as => x.run "create_unattached_events_log" as)
        else Py.fail .valueError
      else value v "log")
      (fun l => Py.bind fresh (fun n => put n "log" l)))

/-- `output_merger` of `AdjustWithActivitiesFromUnattachedEvents`, high_level.py:129-132. -/
def adjustOutput (x : Ext V S) (v t : Input) : Py V S Input :=
  Py.bind (has v "activities") (fun b =>
  Py.bind (if b then value v "activities" else x.run "list" []) (fun old =>
  Py.bind (value t "activities") (fun new =>
  Py.bind (x.run "extend" [old, new]) (fun _ => put v "activities" old))))

/-- The first statement of `AdjustWithActivitiesFromUnattachedEvents.execute`, high_level.py:134-135. -/
def adjustStart (x : Ext V S) (v : Input) : Py V S Input :=
  Py.bind (has v "traces_activities") (fun b =>
    if b then Py.ret v else Py.bind (value v "log") (fun l =>
      Py.bind (x.run "empty_lists" [l]) (fun e => put v "traces_activities" e)))

/-- `AdjustWithActivitiesFromUnattachedEvents`, high_level.py:98-151. The pipeline of one part inside is a nested
pipeline. -/
def adjust (x : Ext V S) (unattached merged : Bool) : List (Part V S) :=
  [.prim (adjustStart x),
   .cond (fun _ => Py.ret true)
     [.withTemp (adjustInput x unattached) (adjustOutput x) [fromPatterns x merged (repeats x)],
      .prim (inUnattached x)]]

/-- `DiscoverActivitiesForSeveralLevels`, high_level.py:154-183: one part per class extractor, each with its functions. -/
def severalLevels (unattached merged : Bool) : List (Ext V S) → List (Part V S)
  | [] => []
  | x :: xs => adjust x unattached merged ++ severalLevels unattached merged xs

/-- `BuildActivityGraph`, patterns_graph_parts.py:32-51. -/
def activityGraph (x : Ext V S) (level : List V) (v : Input) : Py V S Input :=
  Py.bind (values v ["activities"]) (fun as => Py.bind (x.run "build_graph" (as ++ level)) (fun g => put v "graph" g))

/-- `DrawGraph`, patterns_graph_parts.py:94-100. -/
def drawGraph (x : Ext V S) : Input → Py V S Input := show' x "draw_graph" ["graph"]

/-- `BuildEventClassGraph`, patterns_graph_parts.py:144-159. -/
def classGraph (x : Ext V S) : Input → Py V S Input := compute x "build_graph" ["event_class_tree"] "graph"

/-- The loop of `DrawActivitiesGraphByEventClassLevels`, patterns_graph_parts.py:78-89: a graph on a copy of the context
for each level. -/
def graphsOfLevels (x : Ext V S) (v : Input) : List (V × V) → Py V S Input
  | [] => Py.ret v
  | l :: ls =>
    Py.bind (x.run "save_path_mutator" [l.1]) (fun _ =>
    Py.bind ((Part.withCopy [.prim (activityGraph x [l.1]), .prim (drawGraph x)]).exec v) (fun _ => graphsOfLevels x v ls))

/-- `DrawActivitiesGraphByEventClassLevels`, patterns_graph_parts.py:61-91. -/
def levelGraphs (x : Ext V S) (v : Input) : Py V S Input :=
  Py.bind (value v "activities") (fun a =>
  Py.bind (x.run "split_activities_by_level" [a]) (fun l =>
  fun w => graphsOfLevels x v (x.pairs l (w.used, w.rest)) w))

/-- The classes of parts, except those that get pipelines from the user. -/
inductive Cls
  | emptyStart
  | posEntropyDirect | posEntropyIndirect | dfgEntropyDirect | dfgEntropyIndirect
  | drawDirectTillEnd | drawIndirectTillEnd | filterByCount | filterByVariants
  | diversityDiagram | tracesHistogram | eventsPlacement | entropyHistogram | posEntropyHistogram | placementOfEvents
  | saveEventNames | printInfo | printDfg
  | petriInductive | petriAlpha | petriAlphaPlus | petriHeuristic | drawPetriNet
  | activityGraph | levelGraphs | drawGraph | serializeGraph | classTree | drawClassTree | classGraph
  | removeByName | removeByNames | removeByPredicate | preprocessNames | preprocessEvents | substituteUnderlying
  | applyExtractor | removeLifecycle | addArtificial
  | saveXes
  | tandemArrays | addAllPatterns | repeatSets | activities | inTraces | logFromActivities | repeats
  | printActivities (doPrint : Bool) | printUnattached | percentage | activitiesDiagram | drawPatterns | inUnattached
  | drawActivitiesGraph | printNamesToHashes | singlePlacement | logsForActivities | logsWithPromote | clear
  | printFound | saveNames | printUnderlying | saveInstances | writeIndices | tagEvents
  | fromPatterns (merged tandem : Bool) | discoverTandem (debug : Bool) | discoverRepeats (merged debug : Bool)
  | adjust (unattached merged : Bool)
  deriving DecidableEq, Repr

/-- `execute` of a part of the class. Where the code reads a value again, or calls several functions one after another,
this is one reading and one call, as reading changes nothing and the functions do not touch the context. -/
def Cls.part (x : Ext V S) : Cls → Part V S
  -- start_parts.py:22-24
  | .emptyStart => .prim (fun _ => fresh)
  -- filter_parts.py:19-20 with 34-38 and 49-53; 65-66 with 80-85 and 98-104
  | .posEntropyDirect => .prim (renew x "filter_events_pos_entropy_direct")
  | .posEntropyIndirect => .prim (renew x "filter_events_pos_entropy_indirect")
  | .dfgEntropyDirect => .prim (renew x "filter_events_default_entropy_direct")
  | .dfgEntropyIndirect => .prim (renew x "filter_events_default_entropy_indirect")
  -- filter_parts.py:111-119, 126-134, 141-143, 147-153
  | .drawDirectTillEnd => .prim (show' x "filter_events_pos_entropy_direct_till_end" ["log"])
  | .drawIndirectTillEnd => .prim (show' x "filter_events_pos_entropy_indirect_till_end" ["log"])
  | .filterByCount => .prim (compute x "remove_empty_traces" ["log"] "log")
  | .filterByVariants => .prim (compute x "split_log_by_traces" ["log"] "log")
  -- analysis_parts.py:23-35, 43-45, 61-69, 77-79, 83-85, 99-108
  | .diversityDiagram => .prim (fun v => Py.bind (x.run "save_path" []) (fun _ =>
      showColors x "draw_traces_diversity_diagram" ["log"] v))
  | .tracesHistogram => .prim (show' x "draw_traces_histogram" ["log"])
  | .eventsPlacement => .prim (showColors x "draw_placements_of_concrete_events" ["log"])
  | .entropyHistogram => .prim (show' x "draw_events_entropy_histogram" ["log"])
  | .posEntropyHistogram => .prim (show' x "draw_position_entropies_histogram" ["log"])
  | .placementOfEvents => .prim (showColors x "draw_placements_of_events" ["log"])
  -- analysis_parts.py:115-120, 124-132, 157-167
  | .saveEventNames => .prim (show' x "save_names" ["log"])
  | .printInfo => .prim (show' x "print_info" ["log"])
  | .printDfg => .prim (show' x "print_dfg" ["log"])
  -- discovery_parts.py:13-17, 21-23, 27-29, 41-47, 54-61
  | .petriInductive => .prim (compute x "discover_petri_net_inductive" ["log"] "petri_net")
  | .petriAlpha => .prim (compute x "discover_petri_net_alpha" ["log"] "petri_net")
  | .petriAlphaPlus => .prim (compute x "discover_petri_net_alpha_plus" ["log"] "petri_net")
  | .petriHeuristic => .prim (compute x "discover_petri_net_heuristics" ["log"] "petri_net")
  | .drawPetriNet => .prim (show' x "view_petri_net" ["petri_net"])
  -- patterns_graph_parts.py:42-51, 76-91, 98-100, 104-105, 117-119, 131-141, 152-159
  | .activityGraph => .prim (Library.activityGraph x [])
  | .levelGraphs => .prim (Library.levelGraphs x)
  | .drawGraph => .prim (Library.drawGraph x)
  | .serializeGraph => .prim (compute x "serialize_graphviz_graph" ["graph"] "serialized_graph")
  | .classTree => .prim (compute x "build_class_tree" ["log"] "event_class_tree")
  | .drawClassTree => .withCopy [.prim (Library.classGraph x), .prim (Library.drawGraph x)]
  | .classGraph => .prim (Library.classGraph x)
  -- mutations_parts.py:15-16, 23-24, 31-32, 39-42, 49-51, 55-60, 74-81, 85-87, 91-101
  | .removeByName => .prim (renew x "remove_event_from_log")
  | .removeByNames => .prim (renew x "remove_events_from_log")
  | .removeByPredicate => .prim (compute x "filter_log" ["log"] "log")
  | .preprocessNames => .prim (Library.preprocessNames x)
  | .preprocessEvents => .prim (show' x "preprocess_events" ["log"])
  | .substituteUnderlying => .prim (compute x "substitute_original_events" ["log"] "log")
  | .applyExtractor => .prim (show' x "class_extractor" ["log"])
  | .removeLifecycle => .prim (show' x "remove_lifecycle_attribute" ["log"])
  | .addArtificial => .prim (show' x "append" ["log"])
  -- serialization/pipeline_parts.py:15-17
  | .saveXes => .prim (show' x "save_event_log_to_xes" ["log"])
  -- patterns_parts.py:26-36, 43-47, 54-59, 80-92, 104-112, 122-128, 138-146
  | .tandemArrays => .prim (Library.tandemArrays x)
  | .addAllPatterns => .prim (compute x "add_all_patterns" ["log", "patterns"] "patterns")
  | .repeatSets => .prim (Library.repeatSets x)
  | .activities => .prim (Library.activities x)
  | .inTraces => .prim (Library.inTraces x)
  | .logFromActivities => .prim (compute x "create_new_log_from_activities" ["log", "traces_activities"] "log")
  | .repeats => .prim (Library.repeats x)
  -- patterns_parts.py:153-162, 166-174, 178-188, 202-213, 227-238, 282-292, 319-326, 330-342, 358-368
  | .printActivities doPrint => .prim (Library.printActivities x doPrint)
  | .printUnattached => .prim (show' x "print" ["log", "traces_activities"])
  | .percentage => .prim (show' x "print" ["log", "traces_activities"])
  | .activitiesDiagram => .prim (showColors x "draw_activity_diagram" ["log", "traces_activities"])
  | .drawPatterns => .prim (showColors x "draw_patterns" ["log", "patterns"])
  | .inUnattached => .prim (Library.inUnattached x)
  | .drawActivitiesGraph => .prim (show' x "draw_activity_graph" ["activities"])
  | .printNamesToHashes => .prim (show' x "print" ["activities"])
  | .singlePlacement => .prim (show' x "draw_activity_placement_diagram" ["log", "activities", "traces_activities"])
  -- patterns_parts.py:376-382, 394-401, 405-410, 454-456, 463-488, 492-494, 501-515, 522-535, 539-547
  | .logsForActivities => .prim (compute x "create_logs_for_activities" ["log", "traces_activities"] "activities_logs")
  | .logsWithPromote =>
    .prim (compute x "create_logs_for_activities_with_promote" ["log", "traces_activities"] "activities_logs")
  | .clear => .prim (Library.clear x)
  | .printFound => .prim (Library.printFound x)
  | .saveNames => .prim (show' x "write" ["activities"])
  | .printUnderlying => .prim (show' x "print" ["log"])
  | .saveInstances => .prim (show' x "write" ["traces_activities"])
  | .writeIndices => .prim (show' x "write" ["traces_activities"])
  | .tagEvents => .prim (show' x "tag" ["traces_activities", "log"])
  -- patterns_parts.py:431-450, high_level.py:48-60, 83-95, 115-151
  | .fromPatterns merged tandem =>
    Library.fromPatterns x merged (if tandem then Library.tandemArrays x else Library.repeats x)
  | .discoverTandem debug => discover x false debug (Library.tandemArrays x)
  | .discoverRepeats merged debug => discover x merged debug (Library.repeats x)
  | .adjust unattached merged => .prim (execParts (Library.adjust x unattached merged))

/-- Parts as the user builds them: an object of a class with its functions, or a combination of pipelines. The condition
of `when` looks at the context and the objects. Not included: `WithTempInput` with functions of the user, and
`ParallelPipeline` without pipelines, which returns `None`. -/
inductive LPart (V S : Type)
  | one (c : Cls) (x : Ext V S)
  | severalLevels (unattached merged : Bool) (xs : List (Ext V S))
  | parallel (first : List (LPart V S)) (others : List (List (LPart V S)))
  | withCopy (pipeline : List (LPart V S))
  | when (condition : Dict String V → List String × S → Except PyErr Bool) (pipeline : List (LPart V S))
  | beforeAndAfter (x : Ext V S) (pipeline : List (LPart V S))
  | eachLog (x : Ext V S) (pipeline : List (LPart V S))

/-- The condition of `IfPipeline`, pipelines.py:104 and 113. -/
def condition (c : Dict String V → List String × S → Except PyErr Bool) : Input → Py V S Bool
  | none => Py.fail .attributeError
  | some r => fun w => (c (w.ctx r) (w.used, w.rest), w)

/-- The loop of `ExecuteWithEachActivityLog`, high_level.py:191-192: the pipeline gets a new context with the log and the
name of the activity. -/
def eachOf (pipeline : List (Part V S)) : List (V × V) → Py V S Unit
  | [] => Py.ret ()
  | (name, log) :: rest =>
    Py.bind fresh (fun n => Py.bind (put n "log" log) (fun n => Py.bind (put n "activity_name_key" name) (fun n =>
      Py.bind (runPipeline pipeline n) (fun _ => eachOf pipeline rest))))

/-- `ExecuteWithEachActivityLog`, high_level.py:186-194. -/
def eachLog (x : Ext V S) (pipeline : List (Part V S)) (v : Input) : Py V S Input :=
  Py.bind (value v "activities_logs") (fun d => fun w =>
    Py.bind (eachOf pipeline (x.pairs d (w.used, w.rest))) (fun _ => Py.ret v) w)

/-- `PrintEventLogInfoBeforeAndAfter`, analysis_parts.py:135-150. -/
def beforeAndAfter (x : Ext V S) (pipeline : List (Part V S)) (v : Input) : Py V S Input :=
  Py.bind (show' x "print_info" ["log"] v) (fun v => Py.bind (runPipeline pipeline v) (fun r =>
    show' x "print_info" ["log"] r))

/-- What a pipeline may be started with, besides contexts and `None`. -/
inductive Given (V : Type)
  | text (path : V)
  | log (l : V)
  | other

/-- `ReadLogFromXes`, start_parts.py:6-11. -/
def readLogFromXes (x : Ext V S) : Given V → Py V S Input
  | .text p => Py.bind fresh (fun n => Py.bind (x.run "read_log_from_xes" [p]) (fun l => put n "log" l))
  | _ => Py.fail .typeError

/-- `UseExistingLog`, start_parts.py:14-19. -/
def useExistingLog : Given V → Py V S Input
  | .log l => Py.bind fresh (fun n => put n "log" l)
  | _ => Py.fail .valueError

mutual
/-- The part that the user's expression builds. -/
def LPart.part : LPart V S → Part V S
  | .one c x => c.part x
  | .severalLevels u m xs => .prim (execParts (Library.severalLevels u m xs))
  | .parallel p ps => .parallel (parts p :: partsLL ps)
  | .withCopy p => .withCopy (parts p)
  | .when c p => .cond (condition c) (parts p)
  | .beforeAndAfter x p => .prim (Library.beforeAndAfter x (parts p))
  | .eachLog x p => .prim (Library.eachLog x (parts p))
/-- A pipeline. -/
def parts : List (LPart V S) → List (Part V S)
  | [] => []
  | p :: ps => p.part :: parts ps
/-- Several pipelines. -/
def partsLL : List (List (LPart V S)) → List (List (Part V S))
  | [] => []
  | p :: ps => parts p :: partsLL ps
end

end Library
end Ficus
