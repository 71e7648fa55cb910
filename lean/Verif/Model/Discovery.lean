import Verif.Model.Repeats
import Verif.Model.Split
import Verif.Model.Extract

/-! Model of the discovery of activities and their instances as a whole: pipelines/analysis/high_level.py:27-95 with the parts
of pipelines/analysis/patterns/patterns_parts.py:17-146 and 418-450. -/

namespace Ficus

/-- `RepeatActivitiesSource`, contexts/part_results.py:15-18. -/
inductive RepeatKind
  | maximal
  | superMaximal
  | nearSuperMaximal
  deriving DecidableEq

/-- `TandemArrayKind`, analysis/patterns/models.py:4-6. -/
inductive TandemKind
  | maximal
  | primitive
  deriving DecidableEq

/-- The part that finds the patterns: `DiscoverRepeats`, analysis/patterns/patterns_parts.py:131-136, or `DiscoverTandemArrays`, 17-24. -/
inductive PatternsSource
  | repeats (kind : RepeatKind)
  | tandems (kind : TandemKind) (maxLoopLength : Nat)
  deriving DecidableEq

/-- A tandem array as a sub array: `TandemArrayInfo` inherits from `SubArrayInEventLog` (patterns_models.py:9-11), so that
`create_repeat_sets` sees its first block. -/
def Tandem.sub (a : Tandem) : SubArray := { firstPos := a.firstPos, length := a.length }

/-- `DiscoverRepeats.execute`, analysis/patterns/patterns_parts.py:138-146, and `DiscoverTandemArrays.execute`, 26-36: the patterns. -/
def findPatterns {E : Type} (lib : TreeLib) (source : PatternsSource) (ext : E → String) (log : Log E) :
    Except PyErr (List (List SubArray)) :=
  match source with
  | .repeats .maximal => .ok (findMaximalRepeats lib ext log)
  | .repeats .superMaximal => .ok (findSuperMaximalRepeats lib ext log)
  | .repeats .nearSuperMaximal => findNearSuperMaximalRepeats lib ext log
  | .tandems .maximal n => (findMaximalTandem log n ext).map (·.map (·.map Tandem.sub))
  | .tandems .primitive n => (findPrimitiveTandem log n ext).map (·.map (·.map Tandem.sub))

/-- `input_transformer`, analysis/patterns/patterns_parts.py:432-436: the log in which patterns are searched. `separator i` is the `i`-th event
made by `create_unique_event` (event_log_split.py:72-75). -/
def searchedLog {E : Type} (merged : Bool) (separator : Nat → E) (log : Log E) : Log E :=
  if merged then mergeAllTraces separator log else log

/-- `DiscoverActivitiesFromPatterns.execute`, analysis/patterns/patterns_parts.py:431-450, with `DiscoverRepeatsSets` (50-59) and
`DiscoverActivities` (71-92): the activities. `nameOf` is the creator of names; simplification: it does not raise. `uid` is
the value of the global counter of activity nodes. -/
def discoverActivities {E : Type} (lib : TreeLib) (source : PatternsSource) (merged : Bool) (separator : Nat → E)
    (ext : E → String) (nameOf : Log E → RepeatSet → String) (level uid : Nat) (log : Log E) :
    Except PyErr (List ActTree) := do
  let searched := searchedLog merged separator log
  let patterns ← findPatterns lib source ext searched
  buildRepeatSetTree searched (createRepeatSets searched patterns ext) (nameOf searched) level ext uid

/-- `output_merger`, analysis/patterns/patterns_parts.py:438-441: the patterns that stand in the context afterwards, beside the log that was given. -/
def leftPatterns {E : Type} (lib : TreeLib) (source : PatternsSource) (merged : Bool) (separator : Nat → E)
    (ext : E → String) (log : Log E) : Except PyErr (List (List SubArray)) :=
  findPatterns lib source ext (searchedLog merged separator log)

/-- `DiscoverActivitiesFromTandemArrays.execute`, high_level.py:48-60, and `DiscoverActivitiesInstancesFromRepeats.execute`,
83-95: the activities and their instances in the traces. `should_narrow_activity` is not passed on, so that the default
`True` of `DiscoverActivitiesInTraces` (analysis/patterns/patterns_parts.py:95-112) is used. Tandem arrays are searched with `merged := false`
(high_level.py:38). The extraction never runs out of fuel (C29), so that the `none` branch is unreachable. -/
def discoverInstances {E : Type} (lib : TreeLib) (source : PatternsSource) (merged : Bool) (separator : Nat → E)
    (ext : E → String) (nameOf : Log E → RepeatSet → String) (filter : Instance → Bool) (level uid : Nat) (log : Log E) :
    Except PyErr (List ActTree × List (List Instance)) := do
  let activities ← discoverActivities lib source merged separator ext nameOf level uid log
  match extractActivities log activities ext filter true with
  | some instances => return (activities, instances)
  | none => .error .valueError

end Ficus
