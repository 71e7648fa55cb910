import Verif.Model.Levels
import Verif.Spec.Rounds

/-! Specification vocabulary for the discovery at several levels. -/

namespace Ficus.Spec

/-- The activities that a context shows. -/
def shownActivities (h : ActHeap) (c : LevelCtx) : List ActTree := (c.activities.bind (fun r => h.lists[r]?)).getD []

/-- The instances that a context shows; a context without the entry has no instance in any trace. -/
def shownInstances (c : LevelCtx) : List (List Instance) := c.instances.getD (c.log.traces.map (fun _ => []))

/-- The reference of the context, if any, is that of an existing list object. -/
def RefOk (h : ActHeap) (c : LevelCtx) : Prop := ∀ r, c.activities = some r → r < h.lists.length

/-- The log in which new activities are searched: the whole log, or the traces with only those events that are in no
instance. -/
def SourceLog (mode : AdjustingMode) (log : Log NEvent) (insts : List (List Instance)) (source : Log NEvent) : Prop :=
  (mode = .fromAllLog ∧ source = log) ∨
  (mode = .fromUnattached ∧ source.evs =
    List.zipWith (fun is (t : Trace NEvent) => pick t.events (uncovered t.events.length (is.map span))) insts log.traces)

/-- `acts` is the forest that `build_repeat_set_tree` makes from the repeats of the traces of `source` (of the merged
trace, if so configured). -/
def ForestOfRepeats (cfg : LevelsConfig) (ext : NEvent → String) (level uid : Nat) (source : Log NEvent)
    (acts : List ActTree) : Prop :=
  ∃ words patterns, words = (if cfg.merged then mergeAllTraces cfg.separator source else source) ∧
    (hashTraces ext words).mapM cfg.repeats = .ok patterns ∧
    buildRepeatSetTree words (createRepeatSets words patterns ext)
      (fun r => ((activityNameFromLog words r ext).toOption).getD "") level ext uid = .ok acts

end Ficus.Spec
