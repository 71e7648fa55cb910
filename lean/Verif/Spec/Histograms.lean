import Verif.Model.Histograms

/-! What the histograms are expected to show (property C86). -/

namespace Ficus.Spec
open Ficus

/-- What a histogram shows: for every two neighbouring edges the number of values between them. The left edge belongs to a
bar, the right one only to the last bar. This is how matplotlib and numpy define the bars. -/
def barHeights (values : List Nat) : List Nat → List Nat
  | [] => []
  | [_] => []
  | [a, b] => [values.countP (fun v => a ≤ v ∧ v ≤ b)]
  | a :: b :: c :: rest => values.countP (fun v => a ≤ v ∧ v < b) :: barHeights values (b :: c :: rest)

/-- What happens with the finished picture. -/
def histFinish (savePath title : Option String) : List HistCall :=
  match savePath with
  | some p => [.suptitle title, .save p, .close]
  | none => [.suptitle title, .show]

end Ficus.Spec
