import Verif.Model.Pipeline

/-! Specification vocabulary for pipelines and contexts. -/

namespace Ficus.Spec
variable {V S : Type}

/-- The parts among the arguments of a pipeline. -/
def partsOf (args : List (PartArg V S)) : List (Part V S) :=
  args.filterMap (fun a => match a with
    | .part p => some p
    | _ => none)

/-- Nothing but `None` and parts. -/
def OnlyParts (args : List (PartArg V S)) : Prop := ∀ a ∈ args, a ≠ .other

/-- An operation on a context. -/
inductive CtxOp (V : Type)
  | put (r : Nat) (key : String) (v : V)
  | remove (r : Nat) (key : String)
  | colors (r : Nat) (fresh : V)
  | copy (r : Nat)
  | create

/-- The world after an operation, whether it raised or not. -/
def CtxOp.run : CtxOp V → World V S → World V S
  | .put r k v, w => (withValue r k v w).2
  | .remove r k, w => (removeValue r k w).2
  | .colors r f, w => (cachedColors f r w).2
  | .copy r, w => (copyContext r w).2
  | .create, w => (newContext w).2

/-- The world after a history of operations. -/
def history (ops : List (CtxOp V)) (w : World V S) : World V S := ops.foldl (fun w op => op.run w) w

/-- The operation puts or removes the given key of the given context. -/
def CtxOp.Writes : CtxOp V → Nat → String → Prop
  | .put r k _, r', k' => r = r' ∧ k = k'
  | .remove r k, r', k' => r = r' ∧ k = k'
  | _, _, _ => False

/-- The operation puts the given key of the given context. -/
def CtxOp.Puts : CtxOp V → Nat → String → Prop
  | .put r k _, r', k' => r = r' ∧ k = k'
  | .colors r _, r', k' => r = r' ∧ "cached_colors" = k'
  | _, _, _ => False

/-- The context that the operation may change. -/
def CtxOp.target : CtxOp V → Option Nat
  | .put r _ _ => some r
  | .remove r _ => some r
  | .colors r _ => some r
  | .copy _ => none
  | .create => none

/-- The reference exists. -/
def Valid (v : Input) (w : World V S) : Prop := ∀ r, v = some r → r < w.ctxs.length

/-- Contexts are never lost, and those that are not allowed to change keep their keys and values. -/
def Keeps (allowed : Nat → Prop) (w w' : World V S) : Prop :=
  w.ctxs.length ≤ w'.ctxs.length ∧ ∀ q, q < w.ctxs.length → ¬ allowed q → w'.ctxs[q]? = w.ctxs[q]?

/-- A reference to a context that exists in the second world but not in the first. -/
def Fresh (v : Input) (w w' : World V S) : Prop := ∃ q, v = some q ∧ w.ctxs.length ≤ q ∧ q < w'.ctxs.length

/-- The computation changes no context but its input, and returns its input, a new context or `None`. -/
def Confined (f : Input → Py V S Input) : Prop := ∀ v w, Valid v w →
  Keeps (fun q => v = some q) w (f v w).2 ∧
    ∀ v', (f v w).1 = .ok v' → v' = v ∨ v' = none ∨ Fresh v' w (f v w).2

/-- The condition changes no context but its input. -/
def ConfinedCond (c : Input → Py V S Bool) : Prop := ∀ v w, Valid v w → Keeps (fun q => v = some q) w (c v w).2

/-- The merger changes no context but its two inputs, and returns one of them, a new context or `None`. -/
def ConfinedMerge (m : Input → Input → Py V S Input) : Prop := ∀ v r w, Valid v w → Valid r w →
  Keeps (fun q => v = some q ∨ r = some q) w (m v r w).2 ∧
    ∀ v', (m v r w).1 = .ok v' → v' = v ∨ v' = r ∨ v' = none ∨ Fresh v' w (m v r w).2

mutual
/-- All functions inside the part are confined. -/
def Disciplined : Part V S → Prop
  | .prim f => Confined f
  | .parallel ps => DisciplinedLL ps
  | .withTemp t m p => Confined t ∧ ConfinedMerge m ∧ DisciplinedL p
  | .withCopy p => DisciplinedL p
  | .cond c p => ConfinedCond c ∧ DisciplinedL p
/-- All parts of a pipeline. -/
def DisciplinedL : List (Part V S) → Prop
  | [] => True
  | p :: ps => Disciplined p ∧ DisciplinedL ps
/-- All parts of several pipelines. -/
def DisciplinedLL : List (List (Part V S)) → Prop
  | [] => True
  | p :: ps => DisciplinedL p ∧ DisciplinedLL ps
end

end Ficus.Spec
