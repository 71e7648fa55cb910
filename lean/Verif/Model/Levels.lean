import Verif.Model.Rounds

/-! Model of the discovery of activities at several levels: pipelines/analysis/high_level.py:98-183, with
`DiscoverActivitiesInUnattachedSubTraces` (analysis/patterns/patterns_parts.py:271-293). -/

namespace Ficus

/-- `AdjustingMode`, pipelines/analysis/patterns/models.py:9-11; `other` is any other value. -/
inductive AdjustingMode
  | fromUnattached
  | fromAllLog
  | other
  deriving DecidableEq, Repr

/-- The entries of a `PipelinePartResult` that the adjusting reads and writes (contexts/part_results.py:34-52). An entry
that is absent from the dictionary is `none`. The list of activities is an object that several contexts may share (copies
of a context are shallow, part_results.py:141-144), so that the entry is a reference to it; the other entries are never
changed in place by this part and are values. -/
structure LevelCtx where
  log : Log NEvent
  activities : Option Nat := none
  instances : Option (List (List Instance)) := none

/-- The list objects that hold activities, by reference, and the value of the global counter of activity nodes
(patterns_models.py:24). -/
structure ActHeap where
  lists : List (List ActTree)
  counter : Nat

/-- The fields of `AdjustWithActivitiesFromUnattachedEvents`, high_level.py:99-113, other than the class extractor and
the level. `repeats` stands for `find_maximal_repeats` on the hashes of one trace and `separator` for the events made
by `create_unique_event`, as in Model/Rounds. -/
structure LevelsConfig where
  repeats : List Int → Except PyErr (List SubArray)
  separator : Nat → NEvent
  merged : Bool
  minEvents : Nat
  mode : AdjustingMode
  filter : Instance → Bool
  shouldNarrow : Bool

/-- The configuration of `DiscoverActivitiesFromPatterns` built in high_level.py:138-144 (the fields that this part does
not use have dummy values). -/
def LevelsConfig.rounds (cfg : LevelsConfig) (ext : NEvent → String) : RoundsConfig :=
  { repeats := cfg.repeats, separator := cfg.separator, ext := ext, filter := cfg.filter, merged := cfg.merged,
    hashesAsNames := true, shouldNarrow := true, increaseLevel := false, before := .ok, after := .ok }

/-- `input_transformer`, high_level.py:116-127: the log of the temporary context. -/
def adjustSource (mode : AdjustingMode) (log : Log NEvent) (instances : Option (List (List Instance))) :
    Except PyErr (Log NEvent) :=
  match instances, mode with
  | some insts, .fromUnattached => createUnattachedLog log insts
  | _, .fromAllLog => .ok log
  | _, _ => .error .valueError

/-- `output_merger`, high_level.py:129-132: `extend` changes the list object of the context in place; a context without
the entry gets a new list object. -/
def mergeActivities (h : ActHeap) (ref : Option Nat) (new : List ActTree) : ActHeap × Nat :=
  match ref with
  | some r => ({ h with lists := h.lists.modify r (· ++ new) }, r)
  | none => ({ h with lists := h.lists ++ [[] ++ new] }, h.lists.length)

/-- `AdjustWithActivitiesFromUnattachedEvents.execute`, high_level.py:115-151. The context is changed in place; the
result is the heap and the context afterwards and the exception, if one is raised. The counter advances by the number
of created nodes.
Simplification: a reference is always the index of a list object. -/
def adjust (cfg : LevelsConfig) (ext : NEvent → String) (level : Nat) (h : ActHeap) (c : LevelCtx) :
    ActHeap × LevelCtx × Option PyErr :=
  let c := { c with instances := some (c.instances.getD (c.log.traces.map (fun _ => []))) }
  match adjustSource cfg.mode c.log c.instances with
  | .error e => (h, c, some e)
  | .ok source =>
    match discoverFromPatterns (cfg.rounds ext) level h.counter { log := source } with
    | .error e => (h, c, some e)
    | .ok found =>
      let (h', r) := mergeActivities { h with counter := h.counter + createdNodes found.activities } c.activities
        found.activities
      let c := { c with activities := some r }
      match addUnattachedActivities c.log ((h'.lists[r]?).getD []) (c.instances.getD []) ext cfg.filter cfg.minEvents
          cfg.shouldNarrow with
      | .error e => (h', c, some e)
      | .ok insts => (h', { c with instances := some insts }, none)

/-- `DiscoverActivitiesForSeveralLevels.execute`, high_level.py:171-183, from the class extractor number `index` on. -/
def severalLevelsFrom (cfg : LevelsConfig) (initial : Nat) : Nat → List (NEvent → String) → ActHeap → LevelCtx →
    ActHeap × LevelCtx × Option PyErr
  | _, [], h, c => (h, c, none)
  | index, ext :: exts, h, c =>
    match adjust cfg ext (initial + index) h c with
    | (h', c', none) => severalLevelsFrom cfg initial (index + 1) exts h' c'
    | r => r

/-- `DiscoverActivitiesForSeveralLevels.execute`, high_level.py:171-183. -/
def severalLevels (cfg : LevelsConfig) (initial : Nat) (exts : List (NEvent → String)) (h : ActHeap) (c : LevelCtx) :
    ActHeap × LevelCtx × Option PyErr :=
  severalLevelsFrom cfg initial 0 exts h c

end Ficus
