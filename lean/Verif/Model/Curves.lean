import Verif.Model.Filters
import Verif.Model.LogParts

/-! Model of the parts that draw what removing all events does: `DrawPosEntropyDirectTillEndFilteringDiagram` and
`DrawPosEntropyIndirectTillEndFilteringDiagram`, pipelines/filtering/filter_parts.py:107-134; and of the functions that tell which event a direct filter removes next,
filtering/event_log_filters.py:117-124, 148-149. -/

namespace Ficus
variable {E : Type} [HasName E]

/-- What such a part hands to pyplot and what it returns, filter_parts.py:116-119, 131-134. -/
structure Plotted (I : Type) where
  points : List (Option ℝ)
  yLabel : String
  xLabel : String
  result : I

/-- The end of both parts, filter_parts.py:116-119 and 131-134: the second components of the removals are plotted. -/
noncomputable def plotRemovals {A I : Type} (input : I) (removals : List (A × Option ℝ)) : Plotted I :=
  { points := removals.map (fun x => x.2), yLabel := "Metric value", xLabel := "Iteration number", result := input }

/-- The outcome of a loop handed on: still running, raised, or ended with removals. -/
noncomputable def plotOutcome {A I : Type} (input : I) (r : Option (Except PyErr (List (A × Option ℝ)))) :
    Option (Except PyErr (Plotted I)) :=
  r.map (fun r => r.map (plotRemovals input))

/-- `DrawPosEntropyDirectTillEndFilteringDiagram.execute`, filter_parts.py:111-119. The parameter `readLog` is `log(...)`,
contexts/accessors.py:7-8. -/
noncomputable def drawDirectCurve {I : Type} (readLog : I → Except PyErr (Log E)) (kind : TillEndKind) (fuel : Nat) (input : I) :
    Option (Except PyErr (Plotted I)) :=
  match readLog input with
  | .error e => some (.error e)
  | .ok log => plotOutcome input (filterPosEntropyDirectTillEnd kind LogPart.noneUntouchable fuel log)

/-- `DrawPosEntropyIndirectTillEndFilteringDiagram.execute`, filter_parts.py:126-134. -/
noncomputable def drawIndirectCurve {I : Type} (readLog : I → Except PyErr (Log E)) (kind : TillEndKind) (fuel : Nat) (input : I) :
    Option (Except PyErr (Plotted I)) :=
  match readLog input with
  | .error e => some (.error e)
  | .ok log => plotOutcome input (filterPosEntropyIndirectTillEnd kind LogPart.noneUntouchable fuel log)

/-- `next_event_to_remove_default_entropy_direct`, event_log_filters.py:117-124. -/
noncomputable def nextDefaultDirect (laplace : Bool) (untouchable : String → Bool) (log : Log E) : Except PyErr (String × ℝ) :=
  nextDirect gtReal (touchableMetric (fun l => calculateEntropies laplace l) untouchable) log

/-- `next_event_remove_pos_entropy_direct`, event_log_filters.py:148-149. It uses the slow implementation. -/
noncomputable def nextPosDirect (log : Log E) : Except PyErr (String × Option ℝ) :=
  nextDirect gtNan (fun l => calculatePositionEntropies l) log

end Ficus
