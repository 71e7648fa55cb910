import Verif.Model.Log

/-! Specifications about logs that do not use the modelled functions. -/

namespace Ficus.Spec

/-- Number of occurrences of the name `n` in a log. -/
def occurrences {E : Type} [HasName E] (log : Log E) (n : String) : Nat := (log.evs.flatten.map name).count n

/-- The list of directly adjacent pairs of a sequence. -/
def adjacent {α : Type} (l : List α) : List (α × α) := l.zip l.tail

/-- A trace framed by the artificial start and end names; an empty trace stays empty. -/
def framed (startName endName : String) (t : List String) : List String :=
  if t = [] then [] else startName :: t ++ [endName]

/-- The names of a trace without the ignored ones. -/
def kept {E : Type} [HasName E] (ignored : List String) (t : List E) : List String :=
  (t.map name).filter (fun n => decide (n ∉ ignored))

end Ficus.Spec
