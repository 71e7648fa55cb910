import Verif.Model.Heap

/-! Model of the conversions between the logs of this library and the logs of pm4py: log/pm4py_converters.py.
The objects of pm4py (`Event` with its `_dict`, `Trace` with its list and its attributes, `EventLog` with its list and
its dictionaries, where `omni_present` is the counterpart of `global_values`) have the same shape as those of
log/event_log.py and live in the same heap. -/

namespace Ficus
namespace Heap

/-- `MyTrace()` followed by assigning the attributes and appending the events, pm4py_converters.py:16-20. -/
def newTraceWith (h : Heap) (es : List Nat) (attributes : Dict String Val) : Nat × Heap :=
  (h.traces.length, { h with traces := h.traces ++ [{ events := es, attributes := attributes }] })

/-- The `_dict` built by the loop of `my_event_to_pm4py_event`, pm4py_converters.py:32-34. -/
def pmPayload (p : Payload) : Payload := p.foldl (fun d kv => d.set kv.1 kv.2) []

/-- `pm4py_event_to_my_event`, pm4py_converters.py:27-28, for each event in turn (19-20). -/
def myEvents : List Nat → Heap → List Nat × Heap
  | [], h => ([], h)
  | e :: es, h =>
    let n := h.newEvent (h.event e)
    let r := myEvents es n.2
    (n.1 :: r.1, r.2)

/-- `my_event_to_pm4py_event`, pm4py_converters.py:31-36, for each event in turn (43-44). -/
def pmEvents : List Nat → Heap → List Nat × Heap
  | [], h => ([], h)
  | e :: es, h =>
    let n := h.newEvent (pmPayload (h.event e))
    let r := pmEvents es n.2
    (n.1 :: r.1, r.2)

/-- The loop over the traces of `from_pm4py_log`, pm4py_converters.py:15-22. -/
def myTraces : List Nat → Heap → List Nat × Heap
  | [], h => ([], h)
  | t :: ts, h =>
    let es := myEvents (h.traceObj t).events h
    let n := es.2.newTraceWith es.1 (h.traceObj t).attributes
    let r := myTraces ts n.2
    (n.1 :: r.1, r.2)

/-- The loop over the traces of `to_pm4py_log`, pm4py_converters.py:41-46: `Trace()` has no attributes. -/
def pmTraces : List Nat → Heap → List Nat × Heap
  | [], h => ([], h)
  | t :: ts, h =>
    let es := pmEvents (h.traceObj t).events h
    let n := es.2.newTrace es.1
    let r := pmTraces ts n.2
    (n.1 :: r.1, r.2)

/-- `from_pm4py_log`, pm4py_converters.py:7-24. Simplification: the log object is created with its final contents. -/
def fromPmLog (h : Heap) (l : Nat) : Nat × Heap :=
  let r := myTraces (h.logObj l).traces h
  r.2.newLog { traces := r.1, attributes := (h.logObj l).attributes, extensions := (h.logObj l).extensions,
               classifiers := (h.logObj l).classifiers, properties := (h.logObj l).properties,
               globals := (h.logObj l).globals }

/-- `to_pm4py_log`, pm4py_converters.py:39-48: `EventLog()` has empty dictionaries. -/
def toPmLog (h : Heap) (l : Nat) : Nat × Heap :=
  let r := pmTraces (h.logObj l).traces h
  r.2.newLog { traces := r.1 }

end Heap
end Ficus
