import Mathlib.Order.Bounds.Basic
import Mathlib.Algebra.BigOperators.Group.List.Basic
import Mathlib.Data.Real.Basic

/-! What distances are, independent of the code. -/

namespace Ficus.Rs.Cl

/-- The second list can be made of the first one with so many single edits: replacements, deletions and insertions. -/
inductive Edits {A : Type} : Nat → List A → List A → Prop
  | done : Edits 0 [] []
  | keep {n : Nat} {a b : List A} (x : A) : Edits n a b → Edits n (x :: a) (x :: b)
  | replace {n : Nat} {a b : List A} (x y : A) : Edits n a b → Edits (n + 1) (x :: a) (y :: b)
  | delete {n : Nat} {a b : List A} (x : A) : Edits n a b → Edits (n + 1) (x :: a) b
  | insert {n : Nat} {a b : List A} (y : A) : Edits n a b → Edits (n + 1) a (y :: b)

/-- The edit distance: the least number of single edits. -/
def IsEditDistance {A : Type} (n : Nat) (a b : List A) : Prop := IsLeast {m | Edits m a b} n

end Ficus.Rs.Cl
