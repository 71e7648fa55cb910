import Verif.Model.RsInstances

/-! Model of the discovery of activities until there are no more, and for several levels, in the backend:
pipelines/activities_parts.rs (all paths are below /repo/src/rust/ficus_backend/src). -/

namespace Ficus.Rs
variable {P : Type}

/-- The event without its underlying events, as `name` sees it, event_log/xes/xes_event.rs:28-30. -/
def Nested.top {E : Type} : Nested E → E
  | .atom event => event
  | .over event _ => event

/-- What the discovery of activities depends on: the order of hash maps, the hash of words, the hash of names, the expression of the
classes, the search for patterns of `find_patterns` (patterns_parts.rs:111-131; for repeats it is external to this model, and `none` is
a panic) and the level, activities_parts.rs:87-109. -/
structure Discovery where
  it : Iter
  wordHash : List Nat → Option Nat
  hash : String → Nat
  classes : Option (String → Option (Option Match))
  patterns : List (List Nat) → Option (List (List SubArray))
  level : Nat

/-- `create_hashed_event_log` (util_parts.rs:26-34) in patterns_parts.rs:82 and 101 and activities_parts.rs:262. -/
def hashesOf (d : Discovery) (log : List (List (Nested (REvent P)))) : List (List Nat) :=
  hashedLog d.hash d.classes (log.map (fun t => t.map Nested.top))

/-- `find_patterns`, patterns_parts.rs:111-138, with `do_discover_activities`, activities_parts.rs:87-109. The name of a repeat set is
never asked for outside of the log, where it would panic (`C130_selection`). -/
def discover (d : Discovery) (log : List (List (Nested (REvent P)))) : Option (List RNode × List Nat) := do
  let patterns ← d.patterns (hashesOf d log)
  let sets ← buildRepeatSets d.it d.wordHash (hashesOf d log) patterns
  buildGraph (hashesOf d log) sets d.level
    (fun r => (activityName (log.map (fun t => t.map Nested.top)) d.classes r).getD "")

/-- The options of instances, activities_parts.rs:123-127, and of narrowing. -/
structure InstanceOptions where
  kind : Narrowing
  minEvents : Nat
  filter : FilterKind

/-- `extract_activities_instances` (activity_instances.rs:80-199) for a graph, with enough fuel for narrowing. -/
def InstanceOptions.forGraph (o : InstanceOptions) (nodes : List RNode) (activities : List Nat) : Options :=
  ⟨(activities.map (weight (heapOf nodes))).sum, o.kind, o.minEvents, o.filter⟩

/-- The options of `discover_activities_until_no_more`, activities_parts.rs:347-351. `after` is what the pipeline that is run after an
extraction makes of the log, where there is one. Simplification: that it may change the instances in the context is left out. -/
structure LoopOptions (P : Type) where
  discovery : Discovery
  instances : InstanceOptions
  strategy : Strategy (REvent P)
  calendar : Calendar
  after : Option (List (List (Nested (REvent P))) → Option (List (List (Nested (REvent P)))))
  onlyLast : Bool

/-- `find_patterns`, `do_discover_activities` and `do_discover_activities_instances`, activities_parts.rs:358-360: the graph and the
instances. The activities are discovered twice from the same patterns, with the same result (`C130_any_order`). -/
def findInstances (o : LoopOptions P) (log : List (List (Nested (REvent P)))) : Option (List RNode × List (List RInstance)) := do
  let graph ← discover o.discovery log
  let instances ← extractInstances (heapOf graph.1) (o.instances.forGraph graph.1 graph.2) (hashesOf o.discovery log) graph.2
  return (graph.1, instances)

/-- Whether the pipeline is run, activities_parts.rs:374-385. -/
def runsPipeline (o : LoopOptions P) (instances : List (List RInstance)) : Bool :=
  o.after.isSome && (!o.onlyLast || instances.all (fun t => t.all (fun i => decide (i.length = 1))))

/-- What the pipeline makes of the log, activities_parts.rs:381-384. -/
def runPipeline (o : LoopOptions P) (instances : List (List RInstance)) (log : List (List (Nested (REvent P)))) :
    Option (List (List (Nested (REvent P)))) :=
  match o.after with
  | some f => if runsPipeline o instances then f log else some log
  | none => some log

/-- The rest of a round, activities_parts.rs:373-387, with `do_create_log_from_activities`, activities_parts.rs:148-171. -/
def abstractLog (o : LoopOptions P) (found : List RNode × List (List RInstance)) (log : List (List (Nested (REvent P)))) :
    Option (List (List (Nested (REvent P)))) := do
  newLog o.strategy (fun i => REvent.new (heapOf found.1 i.node).name o.calendar.minUtc) found.2 (← runPipeline o found.2 log)

/-- What a run leaves: the log, and the logs and instances with which the pipeline was run (activities_parts.rs:382). -/
structure LoopResult (P : Type) where
  log : List (List (Nested (REvent P)))
  runs : List (List (List (Nested (REvent P))) × List (List RInstance))

/-- The loop of `discover_activities_until_no_more`, activities_parts.rs:353-394, for a number of rounds (`countEvents` also counts the
instances, activities_parts.rs:368): `none` if it does not end in so
many rounds, `some none` is a panic or an error of the pipeline. -/
def untilNoMore (o : LoopOptions P) : Nat → List (List (Nested (REvent P))) → Option (Option (LoopResult P))
  | 0, _ => none
  | rounds + 1, log =>
    match findInstances o log with
    | none => some none
    | some found =>
      if countEvents found.2 = 0 then some (some ⟨log, []⟩)
      else
        match abstractLog o found log with
        | none => some none
        | some new =>
          let runs := if runsPipeline o found.2 then [(log, found.2)] else []
          if o.onlyLast && runsPipeline o found.2 || decide (countEvents new = countEvents log) then some (some ⟨new, runs⟩)
          else (untilNoMore o rounds new).map (Option.map (fun r => { r with runs := runs ++ r.runs }))

/-! ### Several levels -/

/-- What the context has of activities: the nodes, the activities and the instances of the traces, if there are some. -/
structure LevelState where
  nodes : List RNode
  activities : List Nat
  instances : Option (List (List RInstance))

/-- The options of `discover_activities_instances_for_several_levels`, activities_parts.rs:173-184: the expressions of `discovery` are
replaced by those of `levels`. -/
structure LevelOptions where
  discovery : Discovery
  levels : List (String → Option (Option Match))
  instances : InstanceOptions
  fromUnattached : Bool
  minUnattached : Nat

/-- Why it stops: a panic, or the error for a context without a log (`get_user_data` in patterns_parts.rs:79 and 98). -/
inductive LevelStop
  | panic | missingLog
  deriving DecidableEq, Repr

/-- `unwrap` and the like. -/
def orPanic {A : Type} : Option A → Except LevelStop A
  | some a => .ok a
  | none => .error .panic

/-- The nodes of a new graph behind the nodes there are; `Rc` pointers of the code need not be moved (activities_parts.rs:234-236). -/
def RNode.moved (offset : Nat) (n : RNode) : RNode := { n with children := n.children.map (fun c => offset + c) }

/-- The log in which patterns are looked for, activities_parts.rs:221-230. -/
def patternsLog (o : LevelOptions) (log : List (List (Nested (REvent P)))) (st : LevelState) :
    Except LevelStop (List (List (Nested (REvent P)))) :=
  if o.fromUnattached then
    match st.instances with
    | some instances => orPanic (unattachedLog log instances)
    | none => .error .missingLog
  else .ok log

/-- `adjust_with_activities_from_unattached_events`, activities_parts.rs:207-246, with `discover_activities_in_unattached_subtraces`,
activities_parts.rs:248-282, and `create_empty_activities`, activities_parts.rs:291-298. That the vector of activities is sorted by
extraction is left out, and so is that levels are `u32`. -/
def adjust (o : LevelOptions) (log : List (List (Nested (REvent P)))) (st : LevelState)
    (level : (String → Option (Option Match)) × Nat) : Except LevelStop LevelState := do
  let d := { o.discovery with classes := some level.1, level := o.discovery.level + level.2 }
  let graph ← orPanic (discover d (← patternsLog o log st))
  let nodes := st.nodes ++ graph.1.map (RNode.moved st.nodes.length)
  let activities := st.activities ++ graph.2.map (fun p => st.nodes.length + p)
  let existing := st.instances.getD (log.map (fun _ => []))
  let instances ← orPanic (addUnattached (heapOf nodes) (o.instances.forGraph nodes activities) o.minUnattached (hashesOf d log)
    activities existing)
  return ⟨nodes, activities, some instances⟩

/-- `discover_activities_instances_for_several_levels`, activities_parts.rs:173-205. -/
def severalLevels (o : LevelOptions) (log : List (List (Nested (REvent P)))) (st : LevelState) : Except LevelStop LevelState :=
  o.levels.reverse.zipIdx.foldlM (adjust o log) st

end Ficus.Rs
