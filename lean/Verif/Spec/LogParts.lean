import Verif.Model.LogParts
import Verif.Spec.Heap

/-! Specification of the parts that make or change logs, on values without identity. -/

namespace Ficus.Spec

/-- No trace object and no event object is used in two places of the log. -/
def Separate (h : Heap) (l : Nat) : Prop := (h.logObj l).traces.Nodup ∧ (h.eventRefs l).Nodup

/-- All events have a name. -/
def NamedLog (log : Log Payload) : Bool := log.traces.all (fun t => t.events.all hasName)

/-- Every event replaced, in reading order, until the replacement raises. -/
def mapEvents (g : Payload → Except PyErr Payload) (log : Log Payload) : Except PyErr (Log Payload) := do
  let traces ← log.traces.mapM (fun t => do return { t with events := ← t.events.mapM g })
  return { log with traces := traces }

/-- The new name of an event. -/
def rename (f : String → String) (p : Payload) : Except PyErr Payload :=
  if hasName p then .ok (p.set "concept:name" (.str (f (name p)))) else .error .keyError

/-- The class as the new name of the selected events. -/
def classAsName (extractor : Payload → String) (selector : Payload → Bool) (p : Payload) : Payload :=
  if selector p then p.set "concept:name" (.str (extractor p)) else p

/-- An artificial event at both ends. -/
def withEnds (t : Trace Payload) : Trace Payload :=
  { t with events := [("concept:name", .str "ARTIFICIAL_START")] :: t.events ++ [[("concept:name", .str "ARTIFICIAL_END")]] }

/-- What needs names fails without them. -/
def ifNamed (log : Log Payload) (r : Option (Except PyErr (Log Payload))) : Option (Except PyErr (Log Payload)) :=
  if NamedLog log then r else some (.error .keyError)

/-- What a part makes of a log, in terms of the functions on values of Model/Mutations, Model/Split and Model/Filters. -/
noncomputable def meaning (fuel : Nat) : LogPart → Log Payload → Option (Except PyErr (Log Payload))
  | .removeByName n, log => ifNamed log (some (.ok (removeEvent log n)))
  | .removeByNames ns, log => ifNamed log (some (.ok (removeEvents log ns)))
  | .removeByPredicate f, log => some (.ok (filterLog log f))
  | .preprocessNames f, log => some (mapEvents (rename f) log)
  | .preprocessEvents g, log => some (mapEvents g log)
  | .applyClassExtractor ex sel, log => some (mapEvents (fun p => .ok (classAsName ex sel p)) log)
  | .removeLifecycle, log => some (mapEvents (fun p => .ok (p.del "lifecycle:transition")) log)
  | .addArtificial, log => some (.ok { log with traces := log.traces.map withEnds })
  | .byCount n, log => some (.ok { traces := log.traces.filter (fun t => decide ((t.events.length : Int) > n)) })
  | .byVariants, log => ifNamed log (some (filterTracesByVariants log))
  | .posDirect th mx un, log => ifNamed log (filterPosEntropyDirect th un mx fuel log)
  | .posIndirect th mx un, log => ifNamed log (filterPosEntropyIndirect th mx un fuel log)
  | .dfgDirect th lp mx, log => ifNamed log (filterDefaultEntropyDirect lp th mx (fun _ => false) fuel log)
  | .dfgIndirect th lp mx top, log => ifNamed log (filterDefaultEntropyIndirect lp th top mx (fun _ => false) fuel log)

/-- What a pipeline makes of a log: one part after the other, until one raises or does not end. -/
noncomputable def meaningAll (fuel : Nat) : List LogPart → Log Payload → Option (Except PyErr (Log Payload))
  | [], log => some (.ok log)
  | p :: ps, log =>
    match meaning fuel p log with
    | some (.ok log') => meaningAll fuel ps log'
    | r => r

/-- The parts that change the log in place. -/
def changesInPlace : LogPart → Bool
  | .preprocessNames _ | .preprocessEvents _ | .applyClassExtractor _ _ | .removeLifecycle | .addArtificial => true
  | _ => false

/-- The outcome as it reads: the exception, or the log of the result. -/
def outcome (r : Except PyErr Nat × Heap) : Except PyErr (Log Payload) := r.1.map r.2.viewLog

/-- The event that a removing part removes. -/
def removes : LogPart → Payload → Bool
  | .removeByName n, p => decide (name p = n)
  | .removeByNames ns, p => decide (name p ∈ ns)
  | .removeByPredicate f, p => f p
  | _, _ => false

/-- The parts that remove events one by one. -/
def isRemoval : LogPart → Bool
  | .removeByName _ | .removeByNames _ | .removeByPredicate _ => true
  | _ => false

end Ficus.Spec
