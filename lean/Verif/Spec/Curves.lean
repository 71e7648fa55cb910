import Verif.Spec.TillEnd

/-! Specification for the curves of removing all events. -/

namespace Ficus.Spec
variable {E : Type} [HasName E]

/-- The log after the removal of the given event classes. -/
def afterRemovals (log : Log E) (ns : List String) : Log E := ns.foldl removeEvent log

/-- The number of traces with events. -/
def tracesLeft (log : Log E) : Nat := (log.evs.filter (fun t => decide (t ≠ []))).length

/-- The number of traces in which an event of the class occurs. -/
def tracesWith (log : Log E) (n : String) : Nat := (log.evs.filter (fun t => decide (n ∈ t.map name))).length

/-- The list contains every event class of the log once. -/
def Lists (log : Log E) (ns : List String) : Prop := ns.Nodup ∧ ∀ n, n ∈ ns ↔ occurrences log n ≠ 0

/-- The value that belongs to a removal: the total position entropy before it, or how much it lowers the total. -/
noncomputable def curvePoint (kind : TillEndKind) (before after : Log E) : Option ℝ :=
  match kind with
  | .beforeOnly => posTotal before
  | .afterBeforeDelta => subNan (posTotal before) (posTotal after)

/-- The points are the values of the removals of the classes in the given order. -/
def IsCurve (kind : TillEndKind) (log : Log E) (ns : List String) (points : List (Option ℝ)) : Prop :=
  points.length = ns.length ∧ ∀ i, i < ns.length →
    points[i]? = some (curvePoint kind (afterRemovals log (ns.take i)) (afterRemovals log (ns.take (i + 1))))

end Ficus.Spec
