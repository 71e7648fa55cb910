import Mathlib.Algebra.BigOperators.Group.List.Basic

/-! Specification of polynomial hashes, independent of the loops. -/

namespace Ficus.Spec

/-- The polynomial `x₀ + x₁·31 + x₂·31² + ...`. -/
def poly31 : List Int → Int
  | [] => 0
  | x :: xs => x + 31 * poly31 xs

end Ficus.Spec
