import Verif.Model.Abstraction
import Verif.Model.Info
import Verif.Model.Split

/-! Model of the class tree, of the logs per activity, of the promotion of activities and of the level helpers:
event_log_patterns.py:564-676, patterns/util.py:105-115 and 158-184. -/

namespace Ficus
variable {E : Type}

/-- `EventClassNode`, patterns_models.py:80-85: a name and the child nodes (`GraphNode`, common_models.py). -/
inductive ClassNode
  | node (name : String) (children : List ClassNode)

/-- `node.name`. -/
def ClassNode.name : ClassNode → String
  | .node n _ => n

/-- `node.child_nodes`. -/
def ClassNode.children : ClassNode → List ClassNode
  | .node _ cs => cs

/-- The loop body of `build_class_tree`, event_log_patterns.py:571-581: `names_to_new_nodes` with the children of each
new node. -/
def classLayer (extractor : String → String) (layer : List ClassNode) : List ClassNode :=
  (layer.foldl (fun d n => groupInto d (extractor n.name) n) ([] : Dict String (List ClassNode))).map
    (fun kv => .node kv.1 kv.2)

/-- `build_class_tree`, event_log_patterns.py:564-583. `setOrder` is the order in which python iterates over the set
`initial_set_of_names`, which the language leaves open. -/
def buildClassTree [HasName E] (setOrder : List String → List String) (log : Log E)
    (extractors : List (String → String)) : List ClassNode :=
  extractors.foldl (fun layer f => classLayer f layer)
    ((setOrder (createLogInformation log).eventsCount.keys).map (fun n => .node n []))

/-- Events whose name can be overwritten, `event[concept_name] = value` (log/event_log.py:16-17) on a copy. -/
class Renamable (E : Type) extends HasName E where
  rename : E → String → E

export Renamable (rename)

/-- A bare name as an event. -/
instance : Renamable String := { rename := fun _ n => n }

/-- `_create_trace_for_activity`, event_log_patterns.py:599-608. -/
def createTraceForActivity [Renamable E] (t : List E) (i : Instance) (ext : E → String) : List E :=
  (slice t i.startPos i.length).map (fun e => rename e (ext e))

/-- `handle_activity`, event_log_patterns.py:619-630, together with the iteration over the traces 618-632: the state is
`activities_to_logs`, a log being the list of its traces. `creator` may raise, and gives `none` for `None`. -/
def handleActivity {T : Type} (creator : List E → Instance → Except PyErr (Option T)) (t : List E) (i : Instance)
    (d : Dict String (List T)) : Except PyErr (Dict String (List T)) := do
  match ← creator t i with
  | none => return d
  | some tr => return groupInto d i.node.act.name tr

/-- `_create_logs_for_activities`, event_log_patterns.py:614-634. -/
def createLogsWith {T : Type} (creator : List E → Instance → Except PyErr (Option T)) (log : Log E)
    (insts : List (List Instance)) : Except PyErr (Dict String (List T)) :=
  (insts.zip log.traces).foldlM (fun d p =>
    processTrace p.2.events.length p.1 (fun _ _ d => .ok d) (handleActivity creator p.2.events) d) []

/-- The `trace_creator` of `create_logs_for_activities`, event_log_patterns.py:590-594. -/
def levelCreator [Renamable E] (level : Nat) (ext : E → String) (t : List E) (i : Instance) :
    Except PyErr (Option (List E)) :=
  .ok (if i.node.act.level ≠ level then none else some (createTraceForActivity t i ext))

/-- `create_logs_for_activities`, event_log_patterns.py:586-596. The resulting logs are given by their event lists. -/
def createLogsForActivities [Renamable E] (log : Log E) (insts : List (List Instance)) (level : Nat)
    (ext : E → String) : Except PyErr (Dict String (List (List E))) :=
  createLogsWith (levelCreator level ext) log insts

/-- The `trace_creator` of `create_logs_for_activities_with_promote`, event_log_patterns.py:644-674. The variable
`level` is never changed by the loop 656-662, so the two conditions inside it have no effect. -/
def promoteCreator [Renamable E] (log : Log E) (desired : Nat) (exts : List (E → String)) (adjust : Bool)
    (t : List E) (i : Instance) : Except PyErr (Option (List E)) :=
  if i.node.act.level > desired then .ok none
  else
    match exts[desired]? with
    | none => .error .indexError
    | some top =>
      if i.node.act.level = desired then
        .ok (some (createTraceForActivity t i (if adjust then top else name)))
      else
        match log.traces[i.node.act.repeatSet.traceIndex]? with
        | none => .error .indexError
        | some home =>
          let repeatEvents := slice home.events i.node.act.repeatSet.firstPos i.node.act.repeatSet.length
          let orig := slice t i.startPos i.length
          let copy := (slice exts i.node.act.level (desired + 1 - i.node.act.level)).foldl
            (fun es f => es.map (fun e => rename e (f e))) orig
          if (repeatEvents.map top).all (fun c => decide (c ∈ copy.map name)) &&
              (copy.map name).all (fun c => decide (c ∈ repeatEvents.map top)) then
            .ok (some (if adjust then copy else orig))
          else .ok none

/-- `create_logs_for_activities_with_promote`, event_log_patterns.py:637-676. -/
def createLogsWithPromote [Renamable E] (log : Log E) (insts : List (List Instance)) (desired : Nat)
    (exts : List (E → String)) (adjust : Bool) : Except PyErr (Dict String (List (List E))) :=
  if exts.length ≠ desired + 1 then .error .assertionError
  else createLogsWith (promoteCreator log desired exts adjust) log insts

/-- `split_activities_by_levels_dict`, patterns/util.py:158-166. -/
def splitByLevelsDict (acts : List Activity) : Dict Nat (List Activity) :=
  acts.foldl (fun d a => groupInto d a.level a) []

/-- `split_activities_by_level`, patterns/util.py:169-171. -/
def splitByLevel (acts : List Activity) : List (Nat × List Activity) :=
  (splitByLevelsDict acts).insertionSort (fun a b => a.1 ≤ b.1)

/-- `get_activities_for_level`, patterns/util.py:174-175. -/
def activitiesForLevel (acts : List Activity) (level : Nat) : Except PyErr (List Activity) :=
  (splitByLevelsDict acts).getE level

/-- `select_traces_activities_for_activity_level`, patterns/util.py:178-184. -/
def selectInstancesOfLevel (insts : List (List Instance)) (level : Nat) : List (List Instance) :=
  insts.map (fun is => is.filter (fun i => decide (i.node.act.level = level)))

/-- `create_activity_name_from_trace`, patterns/util.py:111-115, with the separator of constants.py:1. -/
def activityNameFromTrace (t : List E) (s : SubArray) (ext : E → String) : String :=
  String.ofList (List.intercalate [':', ':']
    ((((slice t s.firstPos s.length).map ext).dedup.insertionSort (fun a b => a ≤ b)).map String.toList))

/-- `create_activity_name_from_log`, patterns/util.py:105-108. -/
def activityNameFromLog (log : Log E) (r : RepeatSet) (ext : E → String) : Except PyErr String :=
  match log.traces[r.traceIndex]? with
  | none => .error .indexError
  | some t => .ok (activityNameFromTrace t.events ⟨r.firstPos, r.length⟩ ext)

end Ficus
