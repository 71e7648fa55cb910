import Verif.Model.RsMutations

/-! Specifications for the parts of the backend that filter and change logs. -/

namespace Ficus.Spec

/-- The log without the events that satisfy `p` and without the traces that are empty then. -/
def without {E : Type} (p : E → Bool) (log : List (List E)) : List (List E) :=
  (log.map (fun t => t.filter (fun e => !p e))).filter (fun t => decide (t ≠ []))

/-- The names of the trace at an index. -/
def namesAt {E : Type} [HasName E] (log : List (List E)) (i : Nat) : Option (List String) :=
  (log[i]?).map (fun t => t.map name)

/-- No earlier trace of the log has the names of the trace at the index. -/
def FirstOfVariant {E : Type} [HasName E] (log : List (List E)) (i : Nat) : Prop :=
  ∀ j < i, namesAt log j ≠ namesAt log i

instance {E : Type} [HasName E] (log : List (List E)) (i : Nat) : Decidable (FirstOfVariant log i) := by
  unfold FirstOfVariant; infer_instance

/-- The classes of equal names, by indices, in the order of their first traces. -/
def variantClasses {E : Type} [HasName E] (log : List (List E)) : List (List Nat) :=
  ((List.range log.length).filter (fun i => decide (FirstOfVariant log i))).map
    (fun i => (List.range log.length).filter (fun j => decide (namesAt log j = namesAt log i)))

/-- The first trace of every class, in the order of the log. -/
def firstTraces {E : Type} [HasName E] (log : List (List E)) : List (List E) :=
  ((List.range log.length).filter (fun i => decide (FirstOfVariant log i))).filterMap (fun i => log[i]?)

/-- A hash tells the names of a log apart. -/
def HashTells {E : Type} [HasName E] (hash : String → Nat) (log : List (List E)) : Prop :=
  ∀ t ∈ log, ∀ e ∈ t, ∀ t' ∈ log, ∀ e' ∈ t', hash (name e) = hash (name e') → name e = name e'

/-- The class of a name: what an expression matches at its start, else the whole name. -/
def classOf (find : String → Option (Option (Nat × Nat))) (s : String) : String :=
  match find s with
  | some (some (0, stop)) => String.ofList (s.toList.take stop)
  | _ => s

/-- The events without underlying events below an event, from left to right. -/
inductive Atoms {E : Type} : List (Rs.Nested E) → List E → Prop
  | nil : Atoms [] []
  | atom {e : E} {l : List (Rs.Nested E)} {r : List E} : Atoms l r → Atoms (.atom e :: l) (e :: r)
  | over {e : E} {u l : List (Rs.Nested E)} {s r : List E} : Atoms u s → Atoms l r → Atoms (.over e u :: l) (s ++ r)

end Ficus.Spec
