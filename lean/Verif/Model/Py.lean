/-
Python values used throughout the model: exceptions as values and insertion-ordered dictionaries.
These definitions model the python language, not a file of the repository; they are part of the trusted base.
-/

namespace Ficus

/-- Python exceptions that the modelled code can raise. -/
inductive PyErr
  | keyError
  | valueError
  | typeError
  | indexError
  | overflowError
  | attributeError
  | zeroDivision
  | assertionError
  deriving DecidableEq, Repr

/-- A python `dict`: association list in insertion order. `Dict.WF` states that keys are unique. -/
abbrev Dict (K V : Type) := List (K × V)

namespace Dict
variable {K V : Type} [DecidableEq K]

/-- `d.get(k)`: the value bound to `k`, `none` standing for python's `None` / missing key. -/
def get? (d : Dict K V) (k : K) : Option V :=
  match d with
  | [] => none
  | (k', v) :: r => if k' = k then some v else get? r k

/-- `d[k] = v`: an existing key keeps its position, a new key goes to the end. -/
def set (d : Dict K V) (k : K) (v : V) : Dict K V :=
  match d with
  | [] => [(k, v)]
  | (k', v') :: r => if k' = k then (k, v) :: r else (k', v') :: set r k v

/-- `del d[k]` for a present key (no-op for an absent one). -/
def del (d : Dict K V) (k : K) : Dict K V := d.filter (fun p => decide (p.1 ≠ k))

/-- `for k, v in l.items(): d[k] = v`. -/
def update (d l : Dict K V) : Dict K V := l.foldl (fun acc kv => set acc kv.1 kv.2) d

/-- `list(d.keys())`. -/
def keys (d : Dict K V) : List K := d.map Prod.fst

/-- `k in d`. -/
def contains (d : Dict K V) (k : K) : Bool := (d.get? k).isSome

/-- Keys are unique, the invariant of every python dictionary. -/
def WF (d : Dict K V) : Prop := (keys d).Nodup

instance (d : Dict K V) : Decidable (WF d) := inferInstanceAs (Decidable (keys d).Nodup)

/-- `d[k]`, raising `KeyError` for a missing key. -/
def getE (d : Dict K V) (k : K) : Except PyErr V :=
  match d.get? k with
  | some v => .ok v
  | none => .error .keyError

end Dict

/-- An object that has an event name (`event[concept_name]`).
Simplification: in python the name is the payload entry `'concept:name'` and reading it can raise `KeyError`;
events without a name are outside the model wherever this class is used. -/
class HasName (E : Type) where
  name : E → String

export HasName (name)

/-- The simplest named event: a bare name, for examples. -/
instance : HasName String := ⟨fun s => s⟩

end Ficus
