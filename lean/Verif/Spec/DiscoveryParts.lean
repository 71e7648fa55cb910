import Verif.Model.DiscoveryParts
import Verif.Spec.Discovery

/-! Specification vocabulary for the options of the parts that discover activities. -/

namespace Ficus.Spec

/-- An activity with another name and another level. -/
def relabelled (f : String → String) (level : Nat) (a : Activity) : Activity := { a with name := f a.name, level := level }

mutual
/-- A tree whose activities are changed one by one. -/
def mapTree (f : Activity → Activity) : ActTree → ActTree
  | .node a cs => .node (f a) (mapTrees f cs)
/-- A list of such trees. -/
def mapTrees (f : Activity → Activity) : List ActTree → List ActTree
  | [] => []
  | t :: ts => mapTree f t :: mapTrees f ts
end

/-- An instance whose activities are changed one by one. -/
def mapInstance (f : Activity → Activity) (i : Instance) : Instance := { i with node := mapTree f i.node }

end Ficus.Spec
