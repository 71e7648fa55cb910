import Verif.Model.Heap

/-! Specification vocabulary for object identity: cells, ownership and histories of operations. -/

namespace Ficus.Spec

/-- An object of the heap. -/
inductive Cell
  | event (e : Nat)
  | trace (t : Nat)
  | log (l : Nat)
  deriving DecidableEq

/-- The object exists. -/
def InHeap (h : Heap) : Cell → Prop
  | .event e => e < h.events.length
  | .trace t => t < h.traces.length
  | .log l => l < h.logs.length

/-- The objects a log consists of: itself, its traces and their events. -/
def Owns (h : Heap) (l : Nat) (c : Cell) : Prop :=
  c = .log l ∨ (∃ t ∈ (h.logObj l).traces, c = .trace t) ∨
    ∃ t ∈ (h.logObj l).traces, ∃ e ∈ (h.traceObj t).events, c = .event e

/-- All objects of the log exist. -/
def Sound (h : Heap) (l : Nat) : Prop := ∀ c, Owns h l c → InHeap h c

/-- An operation on one object, as offered by log/event_log.py:16-26, 54-74, 80 and 103-127, or the creation of a new
object. -/
inductive HeapOp
  | setAttr (e : Nat) (key : String) (v : Val)
  | delAttr (e : Nat) (key : String)
  | traceSetEvents (t : Nat) (events : List Nat)
  | traceSetAttr (t : Nat) (key : String) (v : Val)
  | logSet (l : Nat) (o : LogObj)
  | newEvent (p : Payload)
  | newTrace (events : List Nat)
  | newLog (o : LogObj)

/-- The heap after the operation. `traceSetEvents` and `logSet` stand for all changes of the list of events (append,
insert, replace, delete) and of the log object. -/
def HeapOp.run : HeapOp → Heap → Heap
  | .setAttr e k v, h => h.setEvent e ((h.event e).set k v)
  | .delAttr e k, h => h.setEvent e ((h.event e).del k)
  | .traceSetEvents t es, h => h.setTrace t { (h.traceObj t) with events := es }
  | .traceSetAttr t k v, h => h.setTrace t { (h.traceObj t) with attributes := (h.traceObj t).attributes.set k v }
  | .logSet l o, h => h.setLog l o
  | .newEvent p, h => (h.newEvent p).2
  | .newTrace es, h => (h.newTrace es).2
  | .newLog o, h => (h.newLog o).2

/-- The object an operation changes. -/
def HeapOp.target : HeapOp → Option Cell
  | .setAttr e _ _ => some (.event e)
  | .delAttr e _ => some (.event e)
  | .traceSetEvents t _ => some (.trace t)
  | .traceSetAttr t _ _ => some (.trace t)
  | .logSet l _ => some (.log l)
  | _ => none

/-- The heap after a history of operations. -/
def heapHistory (ops : List HeapOp) (h : Heap) : Heap := ops.foldl (fun h op => op.run h) h

end Ficus.Spec
