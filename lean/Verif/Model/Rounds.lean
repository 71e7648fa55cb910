import Verif.Model.Abstraction
import Verif.Model.Classes
import Verif.Model.Split
import Verif.Model.Info

/-! Model of the repeated discovery of activities: pipelines/analysis/high_level.py:63-95 and 197-257, and the parts it
uses from pipelines/analysis/patterns/patterns_parts.py:50-146 and 404-450. -/

namespace Ficus

/-- The entries of a `PipelinePartResult` that the discovery reads and writes (contexts/part_results.py:34-88).
Simplification: the entries are values; events shared between logs are not modelled here (see Model/Heap). -/
structure DiscoveryCtx where
  log : Log NEvent
  activities : List ActTree := []
  instances : List (List Instance) := []
  repeatSets : List RepeatSet := []
  patterns : List (List SubArray) := []

/-- The fields set by the constructor of `DiscoverActivitiesInstancesFromRepeatsUntilNoMore`, high_level.py:198-218.
`repeats` stands for `find_maximal_repeats` on the hashes of one trace (event_log_patterns.py:102-110), which asks an
external suffix tree; `separator` for the events made by `create_unique_event` (event_log_split.py:72-75); `before` and
`after` for the two optional pipelines, which get the context and may change it or raise. -/
structure RoundsConfig where
  repeats : List Int → Except PyErr (List SubArray)
  separator : Nat → NEvent
  ext : NEvent → String
  filter : Instance → Bool
  merged : Bool
  hashesAsNames : Bool
  shouldNarrow : Bool
  increaseLevel : Bool
  before : DiscoveryCtx → Except PyErr DiscoveryCtx
  after : DiscoveryCtx → Except PyErr DiscoveryCtx

/-- `ClearActivities.execute`, analysis/patterns/patterns_parts.py:404-410. -/
def clearActivities (c : DiscoveryCtx) : DiscoveryCtx :=
  { c with activities := [], instances := c.log.traces.map (fun _ => []), repeatSets := [],
           patterns := c.log.traces.map (fun _ => []) }

/-- `input_transformer`, analysis/patterns/patterns_parts.py:432-436: the log in which patterns are searched. -/
def patternLog (cfg : RoundsConfig) (log : Log NEvent) : Log NEvent :=
  if cfg.merged then mergeAllTraces cfg.separator log else log

/-- `DiscoverActivitiesFromPatterns.execute`, analysis/patterns/patterns_parts.py:431-450, with `DiscoverRepeats` (131-146) for maximal
repeats, `DiscoverRepeatsSets` (50-59), `DiscoverActivities` (71-92) and the name creator 65-68. The result is a copy of
the context with new activities and patterns; the repeat sets stay in the temporary context. `uid` is the value of the
global counter of activity nodes. -/
def discoverFromPatterns (cfg : RoundsConfig) (level uid : Nat) (c : DiscoveryCtx) : Except PyErr DiscoveryCtx := do
  let log := patternLog cfg c.log
  let patterns ← (hashTraces cfg.ext log).mapM cfg.repeats
  let sets := createRepeatSets log patterns cfg.ext
  let acts ← buildRepeatSetTree log sets
    (fun r => ((activityNameFromLog log r cfg.ext).toOption).getD "") level cfg.ext uid
  return { c with activities := acts, patterns := patterns }

/-- `DiscoverActivitiesInTraces.execute`, analysis/patterns/patterns_parts.py:95-112. The extraction never runs out of fuel (C29), so the
`none` branch is unreachable. -/
def discoverInTraces (ext : NEvent → String) (filter : Instance → Bool) (shouldNarrow : Bool) (c : DiscoveryCtx) :
    DiscoveryCtx :=
  match extractActivities c.log c.activities ext filter shouldNarrow with
  | some r => { c with instances := r }
  | none => c

/-- `DiscoverActivitiesInstancesFromRepeats.execute`, high_level.py:83-95: `should_narrow_activity` is not passed on, so
that the default `True` of `DiscoverActivitiesInTraces` (analysis/patterns/patterns_parts.py:99) is used. -/
def discoverFromRepeats (cfg : RoundsConfig) (level uid : Nat) (c : DiscoveryCtx) : Except PyErr DiscoveryCtx := do
  let c ← discoverFromPatterns cfg level uid c
  return discoverInTraces cfg.ext cfg.filter true c

/-- `CreateLogFromActivities.execute`, analysis/patterns/patterns_parts.py:115-128, with the default strategy. -/
def createLogFromActivities (hashesAsNames : Bool) (c : DiscoveryCtx) : Except PyErr DiscoveryCtx := do
  let log ← createNewLog c.log c.instances hashesAsNames .insertAllEvents
  return { c with log := log }

/-- The number of activity nodes created in a tree or forest, by which the global counter advances. -/
def createdNodes (f : List ActTree) : Nat := ActTree.countL f

/-- The `while True` loop, high_level.py:224-257; `none` when the fuel does not suffice. `ClearActivities` changes the
context in place, so that `prev_input` is the cleared context. -/
def untilNoMoreLoop (cfg : RoundsConfig) : Nat → Nat → Nat → Nat → DiscoveryCtx → Option (Except PyErr DiscoveryCtx)
  | 0, _, _, _, _ => none
  | fuel + 1, level, uid, size, c =>
    let prev := clearActivities c
    match discoverFromRepeats cfg level uid prev with
    | .error e => some (.error e)
    | .ok found =>
      if (found.instances.map List.length).sum = 0 then some (.ok prev)
      else
        match cfg.before found with
        | .error e => some (.error e)
        | .ok b =>
          match createLogFromActivities cfg.hashesAsNames b with
          | .error e => some (.error e)
          | .ok n =>
            match cfg.after n with
            | .error e => some (.error e)
            | .ok a =>
              let newSize := calculateEventsCount a.log
              if newSize = size then some (.ok a)
              else untilNoMoreLoop cfg fuel (if cfg.increaseLevel then level + 1 else level)
                (uid + createdNodes found.activities) newSize a

/-- `DiscoverActivitiesInstancesFromRepeatsUntilNoMore.execute`, high_level.py:220-257. -/
def untilNoMore (cfg : RoundsConfig) (fuel initialLevel uid : Nat) (c : DiscoveryCtx) :
    Option (Except PyErr DiscoveryCtx) :=
  untilNoMoreLoop cfg fuel initialLevel uid (calculateEventsCount c.log) c

end Ficus
