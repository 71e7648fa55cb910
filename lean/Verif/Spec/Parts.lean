import Verif.Model.Parts
import Verif.Spec.Pipeline
import Verif.Spec.Heap

/-! Specification vocabulary for parts over heaps of logs. -/

namespace Ficus.Spec

/-- The computation only creates objects: all objects that existed before are as they were. -/
def OnlyCreates (f : Input → LogPy Input) : Prop := ∀ v w c, InHeap w.rest c →
  InHeap (f v w).2.rest c ∧ match c with
    | .event e => (f v w).2.rest.event e = w.rest.event e
    | .trace t => (f v w).2.rest.traceObj t = w.rest.traceObj t
    | .log l => (f v w).2.rest.logObj l = w.rest.logObj l

mutual
/-- Every function inside the part only creates objects. -/
def Creating : Part Nat Heap → Prop
  | .prim f => OnlyCreates f
  | .parallel ps => CreatingLL ps
  | .withTemp t m p => OnlyCreates t ∧ (∀ v, OnlyCreates (m v)) ∧ CreatingL p
  | .withCopy p => CreatingL p
  | .cond c p => (∀ v w, (c v w).2.rest = w.rest) ∧ CreatingL p
/-- All parts of a pipeline. -/
def CreatingL : List (Part Nat Heap) → Prop
  | [] => True
  | p :: ps => Creating p ∧ CreatingL ps
/-- All parts of several pipelines. -/
def CreatingLL : List (List (Part Nat Heap)) → Prop
  | [] => True
  | p :: ps => CreatingL p ∧ CreatingLL ps
end

end Ficus.Spec
