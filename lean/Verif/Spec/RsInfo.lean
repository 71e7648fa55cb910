import Verif.Spec.Log

/-! What is counted in a log, without the modelled functions. -/

namespace Ficus.Spec
variable {E : Type} [HasName E]

/-- The names of all events that are not ignored. -/
def keptNamesOf (ignored : List String) (log : List (List E)) : List String := log.flatMap (kept ignored)

/-- All pairs of neighbours in the traces without the ignored events, framed by artificial events if `fake`. -/
def neighbours (ignored : List String) (fake : Bool) (log : List (List E)) : List (String × String) :=
  log.flatMap (fun t => adjacent (if fake then framed "FAKE_START" "FAKE_END" (kept ignored t) else kept ignored t))

/-- How often the second name comes directly after the first one in the traces of a log. -/
def followPlaces (log : List (List E)) (a b : String) : Nat := (log.flatMap (fun t => adjacent (t.map name))).count (a, b)

end Ficus.Spec
