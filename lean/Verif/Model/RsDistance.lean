import Mathlib.Analysis.Real.Sqrt

/-! Model of the distances of rows of data sets in the backend: utils/distance/distance.rs (below
/repo/src/rust/ficus_backend/src). The distances `L1Dist` and `L2Dist` are those of linfa-nn (external) and not modelled. Floating-point
numbers are exact here. -/

namespace Ficus.Rs.Cl

/-! ### The distance by edits -/

/-- A row of the matrix from its second cell on, distance.rs:109-119, for the entries of `a` that are left: `above` is the row
above from the cell to the left on (`matrix[j - 1][i - 1]`, `matrix[j - 1][i]`, ..), `left` is `matrix[j][i - 1]`. The row above is
always longer than the entries that are left, hence the indices of the code are in range and the last case is that of no entries. -/
def cells {A : Type} [DecidableEq A] (y : A) : List A → List Nat → Nat → List Nat
  | x :: xs, corner :: top :: above, left =>
    let number := if x = y then corner else min (min top left) corner + 1
    number :: cells y xs (top :: above) number
  | _, _, _ => []

/-- The rows of the matrix from `above` on, distance.rs:109-119: row `j` begins with `j`, distance.rs:102-104. -/
def matrixFrom {A : Type} [DecidableEq A] (a : List A) : List A → Nat → List Nat → List (List Nat)
  | [], _, above => [above]
  | y :: ys, j, above => above :: matrixFrom a ys (j + 1) (j :: cells y a above j)

/-- `LevenshteinDistance::distance`, distance.rs:93-122. The first row is the vector with a zero to which `0`, `1`, .., `a.len()` are
pushed, distance.rs:97-100. The result is `matrix[a_len - 1][b_len - 1]`, distance.rs:121; `none` is a panic of an index. -/
def editDistance {A : Type} [DecidableEq A] (a b : List A) : Option Nat := do
  let row ← (matrixFrom a b 1 (0 :: List.range (a.length + 1)))[a.length]?
  row[b.length]?

/-! ### The distance by angles -/

/-- The loop of `CosineDistance::distance`, distance.rs:79-83, for one of the three sums: `zip` ends with the shorter row. -/
noncomputable def sumOfProducts (pairs : List (ℝ × ℝ)) : ℝ := pairs.foldl (fun sum p => sum + p.1 * p.2) 0

/-- `CosineDistance::distance`, distance.rs:74-86. `none` is that the result is not a number, as zero is divided by zero: the sum is
zero if one of the roots is. -/
noncomputable def cosineDistance (a b : List ℝ) : Option ℝ :=
  let pairs := a.zip b
  let sum := sumOfProducts pairs
  let aSquare := sumOfProducts (pairs.map (fun p => (p.1, p.1)))
  let bSquare := sumOfProducts (pairs.map (fun p => (p.2, p.2)))
  if √aSquare * √bSquare = 0 then none else some (1 - sum / (√aSquare * √bSquare))

end Ficus.Rs.Cl
