import Verif.Model.ClassGraph
import Verif.Spec.Nets
import Verif.Spec.Classes

/-! Specification vocabulary for drawn event classes. -/

namespace Ficus.Spec
variable {E : Type}

/-- The class of an event name at a level: what the extractors of the first levels make of it, one after the other. At
level zero it is the name itself. -/
def classAt (extractors : List (String → String)) (level : Nat) (x : String) : String :=
  (extractors.take level).foldl (fun y f => f y) x

/-- The text is an event name of the log or a class of one at some level. -/
def IsClass [HasName E] (log : Log E) (extractors : List (String → String)) (n : String) : Prop :=
  ∃ x ∈ log.names.flatten, ∃ k ≤ extractors.length, n = classAt extractors k x

/-- The first text is the class of an event name of the log at some level, the second one its class at the next. -/
def IsSubclass [HasName E] (log : Log E) (extractors : List (String → String)) (c p : String) : Prop :=
  ∃ x ∈ log.names.flatten, ∃ k < extractors.length, c = classAt extractors k x ∧ p = classAt extractors (k + 1) x

/-- No text is a class at two different levels. -/
def LevelsApart [HasName E] (log : Log E) (extractors : List (String → String)) : Prop :=
  ∀ x ∈ log.names.flatten, ∀ y ∈ log.names.flatten, ∀ j k, j < k → k ≤ extractors.length →
    classAt extractors j x ≠ classAt extractors k y

/-- The text is a class of the highest level. -/
def IsTopClass [HasName E] (log : Log E) (extractors : List (String → String)) (n : String) : Prop :=
  ∃ x ∈ log.names.flatten, n = classAt extractors extractors.length x

end Ficus.Spec
