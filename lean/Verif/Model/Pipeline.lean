import Verif.Model.Py

/-! Model of the local pipelines, src/python/ficus/legacy/pipelines/pipelines.py, and of the contexts they pass along,
pipelines/contexts/part_results.py. -/

namespace Ficus

/-- The objects that pipelines share. `ctxs` are the `PipelinePartResult` objects (part_results.py:34-36), an object
being identified by its position and given by its dictionary `values`; `used` are the colours marked as used in the
global `random_unique_color_provider_instance` (util.py:82-101); `rest` is everything else (logs, graphs, files).
Values of type `V` stand for references to other objects. -/
structure World (V S : Type) where
  ctxs : List (Dict String V)
  used : List String
  rest : S

/-- A python computation: it changes the world and returns a value or raises; changes made before raising stay. -/
abbrev Py (V S A : Type) := World V S → Except PyErr A × World V S

namespace Py
variable {V S A B : Type}

/-- `return a`. -/
def ret (a : A) : Py V S A := fun w => (.ok a, w)

/-- `raise`. -/
def fail (e : PyErr) : Py V S A := fun w => (.error e, w)

/-- One statement after another. -/
def bind (x : Py V S A) (f : A → Py V S B) : Py V S B := fun w =>
  match x w with
  | (.error e, w') => (.error e, w')
  | (.ok a, w') => f a w'

end Py

variable {V S : Type}

/-- What flows through a pipeline: `None` or a reference to a context. Simplification: other inputs are not modelled. -/
abbrev Input := Option Nat

/-- `self.values` of the context with reference `r`; the references that flow through pipelines always exist, an absent
one is read as empty. -/
def World.ctx (w : World V S) (r : Nat) : Dict String V := w.ctxs[r]?.getD []

/-- Replaces `values` of the context `r`. -/
def World.setCtx (w : World V S) (r : Nat) (d : Dict String V) : World V S := { w with ctxs := w.ctxs.set r d }

/-- `PipelinePartResult()`, part_results.py:34-36. -/
def newContext : Py V S Nat := fun w => (.ok w.ctxs.length, { w with ctxs := w.ctxs ++ [[]] })

/-- `with_log` and the other setters, part_results.py:38-84, and `with_custom_data`, 86-88: they differ in the key only
and return the context itself. -/
def withValue (r : Nat) (key : String) (v : V) : Py V S Nat := fun w =>
  (.ok r, w.setCtx r ((w.ctx r).set key v))

/-- `has_value`, part_results.py:90-91. -/
def hasValue (r : Nat) (key : String) : Py V S Bool := fun w => (.ok ((w.ctx r).contains key), w)

/-- `get_value_or_throw`, part_results.py:93-97, and the getters 102-133 that call it with a fixed key. -/
def getOrThrow (r : Nat) (key : String) : Py V S V := fun w =>
  match (w.ctx r).get? key with
  | none => (.error .valueError, w)
  | some v => (.ok v, w)

/-- `remove`, part_results.py:99-100. -/
def removeValue (r : Nat) (key : String) : Py V S Unit := fun w =>
  match (w.ctx r).get? key with
  | none => (.error .keyError, w)
  | some _ => (.ok (), w.setCtx r ((w.ctx r).del key))

/-- `__cached_colors__`, part_results.py:135-139; `fresh` is the new empty dictionary. -/
def cachedColors (fresh : V) (r : Nat) : Py V S V :=
  Py.bind (hasValue r "cached_colors") (fun b =>
    Py.bind (if b then Py.ret r else withValue r "cached_colors" fresh) (fun _ => getOrThrow r "cached_colors"))

/-- `__copy__`, part_results.py:141-144: a new context with a copy of the dictionary. -/
def copyContext (r : Nat) : Py V S Nat := fun w =>
  (.ok w.ctxs.length, { w with ctxs := w.ctxs ++ [w.ctx r] })

/-- `copy.copy(current_input)`, pipelines.py:74 and 99. -/
def copyInput : Input → Py V S Input
  | none => Py.ret none
  | some r => Py.bind (copyContext r) (fun c => Py.ret (some c))

/-- `random_unique_color_provider_instance.reset()`, pipelines.py:23 and util.py:97-98. -/
def resetColors : Py V S Unit := fun w => (.ok (), { w with used := [] })

/-- Pipeline parts, pipelines.py:33-48 and 65-116. `prim` is any part that does not run pipelines itself. -/
inductive Part (V S : Type)
  | prim (run : Input → Py V S Input)
  | parallel (pipelines : List (List (Part V S)))
  | withTemp (transform : Input → Py V S Input) (merge : Input → Input → Py V S Input) (pipeline : List (Part V S))
  | withCopy (pipeline : List (Part V S))
  | cond (condition : Input → Py V S Bool) (pipeline : List (Part V S))

mutual
/-- `execute` of a part: ParallelPipeline pipelines.py:71-76, WithTempInput 88-91, WithInputCopy 98-101, IfPipeline
112-116. Running a nested pipeline resets the colours first (pipelines.py:21-23). -/
def Part.exec : Part V S → Input → Py V S Input
  | .prim run, v => run v
  | .parallel ps, v => execParallel ps v none
  | .withTemp transform merge p, v =>
    Py.bind (transform v) (fun t => Py.bind resetColors (fun _ => Py.bind (execParts p t) (fun r => merge v r)))
  | .withCopy p, v =>
    Py.bind (copyInput v) (fun c => Py.bind resetColors (fun _ => Py.bind (execParts p c) (fun _ => Py.ret v)))
  | .cond c p, v =>
    Py.bind (c v) (fun b => if b then Py.bind resetColors (fun _ => execParts p v) else Py.ret v)
/-- The loop of `Pipeline.execute`, pipelines.py:24-27. -/
def execParts : List (Part V S) → Input → Py V S Input
  | [], v => Py.ret v
  | p :: ps, v => Py.bind (p.exec v) (fun v' => execParts ps v')
/-- The loop of `ParallelPipeline.execute`, pipelines.py:72-76; `last` is `last_output`. -/
def execParallel : List (List (Part V S)) → Input → Input → Py V S Input
  | [], _, last => Py.ret last
  | p :: ps, v, _ =>
    Py.bind (copyInput v) (fun c => Py.bind resetColors (fun _ => Py.bind (execParts p c) (fun r => execParallel ps v r)))
end

/-- `Pipeline.execute`, pipelines.py:21-27, and `__call__` with one argument, 29-30. -/
def runPipeline (ps : List (Part V S)) (v : Input) : Py V S Input :=
  Py.bind resetColors (fun _ => execParts ps v)

/-- An argument of the constructor of `Pipeline`: `None`, a part, or any other object. A `Pipeline` is such an other
object, as the class does not derive from `PipelinePart` (pipelines.py:8). -/
inductive PartArg (V S : Type)
  | none
  | part (p : Part V S)
  | other

/-- `_create_pipelines_list`, pipelines.py:51-62. -/
def createPipelinesList : List (PartArg V S) → Except PyErr (List (Part V S))
  | [] => .ok []
  | .none :: rest => createPipelinesList rest
  | .part p :: rest => (createPipelinesList rest).map (p :: ·)
  | .other :: _ => .error .typeError

/-- `append`, pipelines.py:12-13. -/
def appendPart (ps : List (Part V S)) (p : Part V S) : List (Part V S) := ps ++ [p]

/-- `insert`, pipelines.py:15-16, for a non-negative index; python's `list.insert` clamps the index. -/
def insertPart (ps : List (Part V S)) (i : Nat) (p : Part V S) : List (Part V S) := ps.take i ++ p :: ps.drop i

/-- `remove`, pipelines.py:18-19, for a non-negative index. -/
def removePart (ps : List (Part V S)) (i : Nat) : Except PyErr (List (Part V S)) :=
  if i < ps.length then .ok (ps.eraseIdx i) else .error .indexError

end Ficus
