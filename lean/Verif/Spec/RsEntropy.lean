import Verif.Model.RsEntropy
import Verif.Spec.Entropy

/-! Specification for the entropies of the backend: the names that stay, and the logs whose kept values match their events. -/

namespace Ficus.Rs
open Ficus.Spec
variable {E : Type} [HasName E]

/-- The names of the traces without the ignored ones. -/
def keptLog (ignored : Option (List String)) (log : List (List E)) : List (List String) :=
  log.map (kept (ignored.getD []))

/-- The values that a trace keeps, if any, are those of its events. -/
def InStep (h : EventsHolder E) : Prop :=
  (h.info = none ∨ h.info = some (sequenceInfo h.events)) ∧
  (h.positions = none ∨ h.positions = some (eventsPositions h.events))

/-- The events of the traces of a log. -/
def eventsOf (log : List (EventsHolder E)) : List (List E) := log.map (·.events)

/-- A new log with these events. -/
def freshLog (log : List (List E)) : List (EventsHolder E) := log.map EventsHolder.new

end Ficus.Rs
