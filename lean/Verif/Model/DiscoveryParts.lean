import Verif.Model.Discovery
import Verif.Model.Console
import Verif.Model.Rounds

/-! Model of the parts that discover activities with all their options, and of what they print:
pipelines/analysis/high_level.py:6-95 and 197-220, pipelines/analysis/patterns/patterns_parts.py:39-47, 95-112,
149-162 and 453-456. -/

namespace Ficus
variable {E : Type}

/-- The fields of `DiscoverActivitiesFromTandemArrays` and `DiscoverActivitiesInstancesFromRepeats`, high_level.py:7-21, 28-46 and
64-81: the kind of patterns, the strategy, the level of activities, whether to print, the extractor of classes, the filter
of instances, the creator of names and whether to narrow activities. -/
structure DiscoverPart (E : Type) where
  source : PatternsSource
  merged : Bool
  level : Nat
  debug : Bool
  ext : E → String
  filter : Instance → Bool
  nameOf : Log E → RepeatSet → String
  narrow : Bool

/-- The values that the parts put into the context, and the text that they print. -/
structure Discovered where
  activities : List ActTree
  instances : List (List Instance)
  printed : String

/-- The loop of `PrintActivities.execute`, analysis/patterns/patterns_parts.py:158-160. -/
def printNames : List String → String
  | [] => ""
  | n :: ns => printText n ++ printText "" ++ printNames ns

/-- What `PrintActivities.execute` prints, analysis/patterns/patterns_parts.py:153-162. -/
def printActivitiesText (doPrint : Bool) (activities : List ActTree) : String :=
  if doPrint then printText "Found activities:" ++ printNames (activities.map (fun t => t.act.name)) else ""

/-- What `PrintFoundActivitiesCount.execute` prints, analysis/patterns/patterns_parts.py:454-456. -/
def printFoundText (activities : List ActTree) : String :=
  printText ("Discovered " ++ toString activities.length ++ " activities")

/-- What `DiscoverActivitiesInTraces.execute` prints, analysis/patterns/patterns_parts.py:111. -/
def printInstancesText (instances : List (List Instance)) : String :=
  printText ("Discovered " ++ toString (instances.map List.length).sum ++ " activities instances")

/-- `DiscoverActivitiesInTraces.execute`, analysis/patterns/patterns_parts.py:104-112: the instances and the printed text. The
extraction never runs out of fuel (C29), so that the `none` branch is unreachable. -/
def inTracesPart (ext : E → String) (filter : Instance → Bool) (narrow : Bool) (log : Log E) (activities : List ActTree) :
    Except PyErr (List (List Instance) × String) :=
  match extractActivities log activities ext filter narrow with
  | some instances => .ok (instances, printInstancesText instances)
  | none => .error .valueError

/-- `execute` of the two parts, high_level.py:48-60 and 83-95. The number of activities is printed at the end of
`DiscoverActivitiesFromPatterns`, analysis/patterns/patterns_parts.py:449. What is printed before an exception is left out. `should_narrow_activity` is not passed to
`DiscoverActivitiesInTraces`, whose default is `True`. -/
def DiscoverPart.execute (lib : TreeLib) (separator : Nat → E) (part : DiscoverPart E) (uid : Nat) (log : Log E) :
    Except PyErr Discovered := do
  let activities ← discoverActivities lib part.source part.merged separator part.ext part.nameOf part.level uid log
  let (instances, text) ← inTracesPart part.ext part.filter true log activities
  return { activities := activities, instances := instances,
           printed := printFoundText activities ++ (printActivitiesText part.debug activities ++ text) }

/-- `AddAllPatterns.execute`, analysis/patterns/patterns_parts.py:39-47: the extractor of classes is stored and not used; `find` is as in
`addAllPatterns`. -/
def addAllPatternsPart [HasName E] (find : List (List Int) → List Int → Bool) (_ext : Option (E → String)) (log : Log E)
    (patterns : List (List SubArray)) : List (List SubArray) :=
  addAllPatterns find (hashTraces name log) patterns

/-- The fields of `DiscoverActivitiesInstancesFromRepeatsUntilNoMore`, high_level.py:198-218, with the least number of events. -/
structure UntilPart extends RoundsConfig where
  minEvents : Nat
  initialLevel : Nat

/-- `DiscoverActivitiesInstancesFromRepeatsUntilNoMore.execute`, high_level.py:220-257. -/
def UntilPart.execute (part : UntilPart) (fuel uid : Nat) (c : DiscoveryCtx) : Option (Except PyErr DiscoveryCtx) :=
  untilNoMore part.toRoundsConfig fuel part.initialLevel uid c

end Ficus
