import Verif.Model.Rounds
import Verif.Spec.Abstraction

/-! Specification vocabulary for the repeated discovery of activities. -/

namespace Ficus.Spec

/-- What one round finds in a log: the activities `acts` built from the maximal repeats of its traces (of the merged
trace, if so configured), and their instances in the log. -/
def Finds (cfg : RoundsConfig) (level uid : Nat) (log : Log NEvent) (acts : List ActTree)
    (insts : List (List Instance)) : Prop :=
  ∃ source patterns, source = (if cfg.merged then mergeAllTraces cfg.separator log else log) ∧
    (hashTraces cfg.ext source).mapM cfg.repeats = .ok patterns ∧
    buildRepeatSetTree source (createRepeatSets source patterns cfg.ext)
      (fun r => ((activityNameFromLog source r cfg.ext).toOption).getD "") level cfg.ext uid = .ok acts ∧
    extractActivities log acts cfg.ext cfg.filter true = some insts

/-- No trace has an instance. -/
def NoInstance (insts : List (List Instance)) : Prop := ∀ is ∈ insts, is = []

/-- Every instance is a single event. -/
def OnlySingles (insts : List (List Instance)) : Prop := ∀ is ∈ insts, ∀ i ∈ is, i.length = 1

/-- `RoundRun cfg level uid log k final`: starting from `log`, the `k`-th round is the last one and the log is then
`final`. A round that finds nothing is the last and leaves the log as it is; a round that only finds single events is
the last; after any other round there is another one, on the log with all instances replaced. -/
inductive RoundRun (cfg : RoundsConfig) : Nat → Nat → Log NEvent → Nat → Log NEvent → Prop
  | nothing {level uid log acts insts} : Finds cfg level uid log acts insts → NoInstance insts →
      RoundRun cfg level uid log 1 log
  | singles {level uid log acts insts next} : Finds cfg level uid log acts insts → ¬ NoInstance insts →
      OnlySingles insts → createNewLog log insts cfg.hashesAsNames .insertAllEvents = .ok next →
      RoundRun cfg level uid log 1 next
  | more {level uid log acts insts next k final} : Finds cfg level uid log acts insts → ¬ OnlySingles insts →
      createNewLog log insts cfg.hashesAsNames .insertAllEvents = .ok next →
      RoundRun cfg (if cfg.increaseLevel then level + 1 else level) (uid + ActTree.countL acts) next k final →
      RoundRun cfg level uid log (k + 1) final

/-- The optional pipelines, when they do not raise, leave the log and the instances of the context alone. -/
def Observing (cfg : RoundsConfig) : Prop :=
  (∀ c c', cfg.before c = .ok c' → c'.log = c.log ∧ c'.instances = c.instances) ∧
    ∀ c c', cfg.after c = .ok c' → c'.log = c.log

/-- The optional pipelines do not raise. -/
def NeverRaising (cfg : RoundsConfig) : Prop := (∀ c, ∃ c', cfg.before c = .ok c') ∧ ∀ c, ∃ c', cfg.after c = .ok c'

/-- The entries of a context besides the log: all empty (with one empty list per trace for the entries per trace), or those
of a round that found some instance, as the extra pipelines leave them. -/
def LeftOver (cfg : RoundsConfig) (r : DiscoveryCtx) : Prop :=
  (r.activities = [] ∧ r.instances = r.log.traces.map (fun _ => []) ∧ r.repeatSets = [] ∧
    r.patterns = r.log.traces.map (fun _ => [])) ∨
  ∃ level uid found b next, Finds cfg level uid found.log found.activities found.instances ∧
    ¬ NoInstance found.instances ∧ cfg.before found = .ok b ∧ cfg.after { b with log := next } = .ok r

end Ficus.Spec
