import Verif.Model.Py

/-! Model of `src/python/ficus/legacy/log/event_log.py`: traces and logs as values. -/

namespace Ficus

/-- Attribute values. The python code distinguishes `str`, `int`, `float`, `datetime`, `bool` and everything else
(log/functions.py:145-151).
Simplification: a float or a date is represented by the text `str(value)`, so that two such values are equal iff their
texts are; `other` stands for any value of a further type. -/
inductive Val
  | str (s : String)
  | int (i : Int)
  | float (text : String)
  | date (text : String)
  | bool (b : Bool)
  | other (text : String)
  deriving DecidableEq, Repr

/-- `MyTrace`, log/event_log.py:76-85: a list of events with attributes. -/
structure Trace (E : Type) where
  events : List E := []
  attributes : Dict String Val := []
  deriving DecidableEq, Repr

/-- `MyEventLog`, log/event_log.py:88-101. -/
structure Log (E : Type) where
  traces : List (Trace E) := []
  attributes : Dict String String := []
  extensions : Dict String (Dict String String) := []
  classifiers : Dict String (List String) := []
  properties : Dict String Val := []
  globals : Dict String (Dict String Val) := []
  deriving DecidableEq, Repr

/-- The event lists of a log, what iterating `for trace in log: for event in trace` sees
(`MyEventLog.__getitem__` 117-118, `MyEventsSequence.__iter__` 51-52). -/
def Log.evs {E : Type} (log : Log E) : List (List E) := log.traces.map Trace.events

/-- The sequences of event names of a log. -/
def Log.names {E : Type} [HasName E] (log : Log E) : List (List String) := log.evs.map (·.map name)

/-- A log with the given event lists and no attributes (`MyEventLog()` plus `append`). -/
def Log.ofEvs {E : Type} (l : List (List E)) : Log E := { traces := l.map (fun t => { events := t }) }

/-- `MyTrace.__copy__`, log/event_log.py:81-82: the list is copied, the attributes are not passed on. -/
def Trace.copy {E : Type} (t : Trace E) : Trace E := { events := t.events }

/-- `MyEventLog.__copy__`, log/event_log.py:129-134: the global values are not passed on. -/
def Log.copy {E : Type} (log : Log E) : Log E :=
  { traces := log.traces, attributes := log.attributes, extensions := log.extensions,
    classifiers := log.classifiers, properties := log.properties }

/-- `MyEventLog.__deepcopy__`, log/event_log.py:136-141 with `MyTrace.__deepcopy__` 84-85, as far as values are
concerned (object identity is the subject of `Verif/Model/Heap.lean`). -/
def Log.deepcopy {E : Type} (log : Log E) : Log E :=
  { traces := log.traces.map (fun t => { events := t.events }), attributes := log.attributes,
    extensions := log.extensions, classifiers := log.classifiers, properties := log.properties }

end Ficus
