import Verif.Model.RsLogIter

/-! What the iterators over a log should give. -/

namespace Ficus.Spec.LogIter
open Rs.LogIter

/-- The position after some calls, at most the number of events and at least 0. -/
def position (n : Nat) : Nat → List Call → Nat
  | i, [] => i
  | i, .next :: cs => position n (min n (i + 1)) cs
  | i, .back :: cs => position n (i - 1) cs

end Ficus.Spec.LogIter
