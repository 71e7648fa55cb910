import Verif.Model.Mutations
import Verif.Model.Xes

/-! Model of events, traces and logs as objects with identity: log/event_log.py, and the functions that change logs in
place: mutations/event_log_mutations.py:38-47 and 59-64, pipelines/mutations/mutations_parts.py:66-101. Objects are
identified by their position in the heap. -/

namespace Ficus

/-- `MyTrace`, log/event_log.py:43-85: references to events and the attributes.
Simplification: attribute dictionaries are values, so sharing of attribute dictionaries is not modelled. -/
structure TraceObj where
  events : List Nat := []
  attributes : Dict String Val := []
  deriving DecidableEq

/-- `MyEventLog`, log/event_log.py:88-101: references to traces and the dictionaries. -/
structure LogObj where
  traces : List Nat := []
  attributes : Dict String String := []
  extensions : Dict String (Dict String String) := []
  classifiers : Dict String (List String) := []
  properties : Dict String Val := []
  globals : Dict String (Dict String Val) := []
  deriving DecidableEq

/-- All event, trace and log objects. An event (`MyEvent`, log/event_log.py:6-8) is given by its payload; payload values
are immutable here. -/
structure Heap where
  events : List Payload := []
  traces : List TraceObj := []
  logs : List LogObj := []
  deriving DecidableEq

namespace Heap

/-- `event.payload`. -/
def event (h : Heap) (e : Nat) : Payload := h.events[e]?.getD []
/-- A trace object. -/
def traceObj (h : Heap) (t : Nat) : TraceObj := h.traces[t]?.getD {}
/-- A log object. -/
def logObj (h : Heap) (l : Nat) : LogObj := h.logs[l]?.getD {}

/-- What is seen when a trace is read. -/
def viewTrace (h : Heap) (t : Nat) : Trace Payload :=
  { events := (h.traceObj t).events.map h.event, attributes := (h.traceObj t).attributes }

/-- What is seen when a log is read. -/
def viewLog (h : Heap) (l : Nat) : Log Payload :=
  { traces := (h.logObj l).traces.map h.viewTrace, attributes := (h.logObj l).attributes,
    extensions := (h.logObj l).extensions, classifiers := (h.logObj l).classifiers,
    properties := (h.logObj l).properties, globals := (h.logObj l).globals }

/-- `MyEvent(payload)`. -/
def newEvent (h : Heap) (p : Payload) : Nat × Heap := (h.events.length, { h with events := h.events ++ [p] })
/-- `MyTrace(events)`, log/event_log.py:77-79. -/
def newTrace (h : Heap) (es : List Nat) : Nat × Heap :=
  (h.traces.length, { h with traces := h.traces ++ [{ events := es }] })
/-- `MyEventLog(..)`, log/event_log.py:89-101. -/
def newLog (h : Heap) (o : LogObj) : Nat × Heap := (h.logs.length, { h with logs := h.logs ++ [o] })

/-- Replaces the payload of an event object. -/
def setEvent (h : Heap) (e : Nat) (p : Payload) : Heap := { h with events := h.events.set e p }
/-- Replaces a trace object. -/
def setTrace (h : Heap) (t : Nat) (o : TraceObj) : Heap := { h with traces := h.traces.set t o }
/-- Replaces a log object. -/
def setLog (h : Heap) (l : Nat) (o : LogObj) : Heap := { h with logs := h.logs.set l o }

/-- `MyTrace.__copy__`, log/event_log.py:81-82. -/
def copyTrace (h : Heap) (t : Nat) : Nat × Heap := h.newTrace (h.traceObj t).events

/-- `MyEventLog.__copy__`, log/event_log.py:129-134. -/
def copyLog (h : Heap) (l : Nat) : Nat × Heap :=
  h.newLog { traces := (h.logObj l).traces, attributes := (h.logObj l).attributes,
             extensions := (h.logObj l).extensions, classifiers := (h.logObj l).classifiers,
             properties := (h.logObj l).properties }

/-- `copy.deepcopy(self.raw_events)`, log/event_log.py:85, with `MyEvent.__deepcopy__`, 39-40: `copy.deepcopy` of a list
keeps a memo, so that an event object that occurs twice in the list is copied once. -/
def deepcopyEvents : List Nat → Dict Nat Nat → Heap → List Nat × Heap
  | [], _, h => ([], h)
  | e :: es, memo, h =>
    match memo.get? e with
    | some c =>
      let r := deepcopyEvents es memo h
      (c :: r.1, r.2)
    | none =>
      let n := h.newEvent (h.event e)
      let r := deepcopyEvents es (memo.set e n.1) n.2
      (n.1 :: r.1, r.2)

/-- `MyTrace.__deepcopy__`, log/event_log.py:84-85. -/
def deepcopyTrace (h : Heap) (t : Nat) : Nat × Heap :=
  let r := deepcopyEvents (h.traceObj t).events [] h
  r.2.newTrace r.1

/-- `[copy.deepcopy(trace) for trace in self.traces]`, log/event_log.py:137. Each call starts with an empty memo. -/
def deepcopyTraces : List Nat → Heap → List Nat × Heap
  | [], h => ([], h)
  | t :: ts, h =>
    let n := h.deepcopyTrace t
    let r := deepcopyTraces ts n.2
    (n.1 :: r.1, r.2)

/-- `MyEventLog.__deepcopy__`, log/event_log.py:136-141. -/
def deepcopyLog (h : Heap) (l : Nat) : Nat × Heap :=
  let r := deepcopyTraces (h.logObj l).traces h
  r.2.newLog { traces := r.1, attributes := (h.logObj l).attributes, extensions := (h.logObj l).extensions,
               classifiers := (h.logObj l).classifiers, properties := (h.logObj l).properties }

/-- The event references of a log in reading order. -/
def eventRefs (h : Heap) (l : Nat) : List Nat := (h.logObj l).traces.flatMap (fun t => (h.traceObj t).events)

/-- `for event in ..: mutate(event)` over the given references, where the mutation replaces the payload or raises. -/
def mutateEvents (g : Payload → Except PyErr Payload) : List Nat → Heap → Except PyErr Unit × Heap
  | [], h => (.ok (), h)
  | e :: es, h =>
    match g (h.event e) with
    | .error x => (.error x, h)
    | .ok p => mutateEvents g es (h.setEvent e p)

/-- `preprocess_events`, event_log_mutations.py:44-47. Simplification: the mutator touches nothing but its event. -/
def preprocessEvents (h : Heap) (l : Nat) (g : Payload → Except PyErr Payload) : Except PyErr Unit × Heap :=
  mutateEvents g (h.eventRefs l) h

/-- `event[concept_name] = name_mutator(event[concept_name])`, event_log_mutations.py:41. Simplification: a name that is
not a string is treated like a missing one. -/
def renamePayload (f : String → String) (p : Payload) : Except PyErr Payload :=
  match p.get? "concept:name" with
  | some (.str s) => .ok (p.set "concept:name" (.str (f s)))
  | _ => .error .keyError

/-- `preprocess_event_names_inplace`, event_log_mutations.py:38-41. -/
def preprocessNames (h : Heap) (l : Nat) (f : String → String) : Except PyErr Unit × Heap :=
  mutateEvents (renamePayload f) (h.eventRefs l) h

/-- `process_event` of `remove_lifecycle_attribute`, event_log_mutations.py:60-62. -/
def dropLifecycle (p : Payload) : Except PyErr Payload :=
  if p.contains "lifecycle:transition" then .ok (p.del "lifecycle:transition") else .ok p

/-- `remove_lifecycle_attribute`, event_log_mutations.py:59-64. -/
def removeLifecycle (h : Heap) (l : Nat) : Except PyErr Unit × Heap := h.preprocessEvents l dropLifecycle

/-- The loop body of `ApplyClassExtractor.execute`, mutations_parts.py:77-79. -/
def applyExtractor (selector : Payload → Bool) (extractor : Payload → String) (p : Payload) : Except PyErr Payload :=
  if selector p then .ok (p.set "concept:name" (.str (extractor p))) else .ok p

/-- The loop body of `AddArtificialStartEndEvents.execute`, mutations_parts.py:92-99. -/
def addArtificialToTrace (h : Heap) (t : Nat) : Heap :=
  let e := h.newEvent [("concept:name", .str "ARTIFICIAL_END")]
  let h := e.2.setTrace t { (e.2.traceObj t) with events := (e.2.traceObj t).events ++ [e.1] }
  let s := h.newEvent [("concept:name", .str "ARTIFICIAL_START")]
  s.2.setTrace t { (s.2.traceObj t) with events := s.1 :: (s.2.traceObj t).events }

/-- `AddArtificialStartEndEvents.execute`, mutations_parts.py:90-101. -/
def addArtificial (h : Heap) (l : Nat) : Heap := (h.logObj l).traces.foldl addArtificialToTrace h

/-- The loop of `_filter_events`, event_log_mutations.py:13-20, over the given traces: the new traces. -/
def filterEventsLoop (select : Payload → Bool) : List Nat → Heap → List Nat × Heap
  | [], h => ([], h)
  | t :: ts, h =>
    let kept := (h.traceObj t).events.filter (fun e => select (h.event e))
    let n := h.newTrace kept
    let r := filterEventsLoop select ts n.2
    (if kept.length > 0 then n.1 :: r.1 else r.1, r.2)

/-- `_filter_events`, event_log_mutations.py:11-22: new log and trace objects that share the kept event objects. -/
def filterEventsInto (h : Heap) (l : Nat) (select : Payload → Bool) : Nat × Heap :=
  let r := filterEventsLoop select (h.logObj l).traces h
  r.2.newLog { traces := r.1 }

end Heap
end Ficus
