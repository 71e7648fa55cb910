import Verif.Model.Pipeline
import Verif.Model.Heap

/-! Model of the pipeline parts of pipelines/mutations/mutations_parts.py, acting on contexts and on the heap of logs.
A value of a context is a reference to a log object; the parts here read and write the key `log` only. -/

namespace Ficus

/-- Contexts over a heap of logs. -/
abbrev LogPy (A : Type) := Py Nat Heap A

/-- `log(current_input)`, contexts/accessors.py:7-8 with part_results.py:102-103. An input without a context is `None`,
which has no attribute `__log__`. -/
def inputLog : Input → LogPy Nat
  | none => Py.fail .attributeError
  | some r => getOrThrow r "log"

/-- A computation on the heap of logs. -/
def onHeap {A : Type} (f : Heap → Except PyErr A × Heap) : LogPy A := fun w => ((f w.rest).1, { w with rest := (f w.rest).2 })

/-- `PipelinePartResult().with_log(log)`, part_results.py:35-40. -/
def freshWithLog (l : Nat) : LogPy Input :=
  Py.bind newContext (fun c => Py.bind (withValue c "log" l) (fun c => Py.ret (some c)))

/-- `current_input.with_log(log)`. The input has been read by `log` before, so it is a context. -/
def inputWithLog (v : Input) (l : Nat) : LogPy Input :=
  match v with
  | none => Py.fail .attributeError
  | some r => Py.bind (withValue r "log" l) (fun c => Py.ret (some c))

/-- `RemoveEventFromLogByName` and `RemoveEventsFromLogByNames`, mutations_parts.py:11-24: a new context with a filtered
log. Simplification: the selection is total (every event has a name). -/
def removeByNamesPart (select : Payload → Bool) : Part Nat Heap := .prim (fun v =>
  Py.bind (inputLog v) (fun l =>
    Py.bind (onHeap (fun h => (.ok (h.filterEventsInto l select).1, (h.filterEventsInto l select).2)))
      (fun n => freshWithLog n)))

/-- `RemoveEventsFromLogPredicate`, mutations_parts.py:27-32: the same context with a filtered log. -/
def removeByPredicatePart (predicate : Payload → Bool) : Part Nat Heap := .prim (fun v =>
  Py.bind (inputLog v) (fun l =>
    Py.bind (onHeap (fun h => (.ok (h.filterEventsInto l (fun e => !predicate e)).1,
        (h.filterEventsInto l (fun e => !predicate e)).2)))
      (fun n => inputWithLog v n)))

/-- `PreprocessEventsNames`, mutations_parts.py:35-42. -/
def preprocessNamesPart (f : String → String) : Part Nat Heap := .prim (fun v =>
  Py.bind (inputLog v) (fun l => Py.bind (onHeap (fun h => h.preprocessNames l f)) (fun _ => freshWithLog l)))

/-- `PreprocessEvents`, mutations_parts.py:45-51. -/
def preprocessEventsPart (g : Payload → Except PyErr Payload) : Part Nat Heap := .prim (fun v =>
  Py.bind (inputLog v) (fun l => Py.bind (onHeap (fun h => h.preprocessEvents l g)) (fun _ => Py.ret v)))

/-- `ApplyClassExtractor`, mutations_parts.py:66-81. -/
def applyExtractorPart (selector : Payload → Bool) (extractor : Payload → String) : Part Nat Heap := .prim (fun v =>
  Py.bind (inputLog v) (fun l =>
    Py.bind (onHeap (fun h => h.preprocessEvents l (Heap.applyExtractor selector extractor))) (fun _ => Py.ret v)))

/-- `RemoveLifecycleTransitionsAttributes`, mutations_parts.py:84-87. -/
def removeLifecyclePart : Part Nat Heap := .prim (fun v =>
  Py.bind (inputLog v) (fun l => Py.bind (onHeap (fun h => h.removeLifecycle l)) (fun _ => Py.ret v)))

/-- `AddArtificialStartEndEvents`, mutations_parts.py:90-101. -/
def addArtificialPart : Part Nat Heap := .prim (fun v =>
  Py.bind (inputLog v) (fun l => Py.bind (onHeap (fun h => (.ok (), h.addArtificial l))) (fun _ => Py.ret v)))

end Ficus
