import Verif.Model.Labels
import Verif.Spec.Reports

/-! Specification vocabulary for labels and texts of activities. -/

namespace Ficus.Spec

mutual
/-- Two trees of activities with the same sets of events at the same places. -/
def SameTree : ActTree → ActTree → Prop
  | .node a cs, .node b ds => SameSet a.events b.events ∧ SameTrees cs ds
/-- The same for forests. -/
def SameTrees : List ActTree → List ActTree → Prop
  | [], [] => True
  | t :: ts, u :: us => SameTree t u ∧ SameTrees ts us
  | _, _ => False
end

/-- A text without parentheses. -/
def NoParentheses (s : String) : Prop := '(' ∉ s.toList ∧ ')' ∉ s.toList

/-- Sets of events are kept without duplicates. -/
def ProperSets (t : ActTree) : Prop := ∀ a ∈ acts t, a.events.Nodup

end Ficus.Spec
