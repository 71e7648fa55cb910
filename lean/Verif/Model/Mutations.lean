import Verif.Model.Log

/-! Model of `src/python/ficus/legacy/mutations/event_log_mutations.py`. -/

namespace Ficus
variable {E : Type}

/-- `_filter_events`, event_log_mutations.py:11-22. -/
def filterEvents (log : Log E) (select : E → Bool) : Log E :=
  { traces := log.traces.foldl (fun acc trace =>
      let newTrace := trace.events.foldl (fun t e => if select e then t ++ [e] else t) []
      if newTrace.length > 0 then acc ++ [{ events := newTrace }] else acc) [] }

/-- `_filter_traces`, event_log_mutations.py:25-31. -/
def filterTraces (log : Log E) (select : Trace E → Bool) : Log E :=
  { traces := log.traces.foldl (fun acc trace => if select trace then acc ++ [trace] else acc) [] }

/-- `remove_event_from_log`, event_log_mutations.py:7-8. -/
def removeEvent [HasName E] (log : Log E) (eventName : String) : Log E :=
  filterEvents log (fun e => decide (name e ≠ eventName))

/-- `remove_events_from_log`, event_log_mutations.py:34-35. The python set of names is a list here. -/
def removeEvents [HasName E] (log : Log E) (names : List String) : Log E :=
  filterEvents log (fun e => decide (name e ∉ names))

/-- `filter_log`, event_log_mutations.py:50-52: removes the events that satisfy the predicate. -/
def filterLog (log : Log E) (predicate : E → Bool) : Log E :=
  filterEvents log (fun e => !predicate e)

/-- `remove_empty_traces`, event_log_mutations.py:55-56. -/
def removeEmptyTraces (log : Log E) (minEventCount : Nat := 0) : Log E :=
  filterTraces log (fun t => decide (t.events.length > minEventCount))

end Ficus
