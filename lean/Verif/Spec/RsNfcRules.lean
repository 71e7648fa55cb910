import Verif.Spec.RsNfcArrows
import Verif.Model.RsNfcRules

/-! What the relations of implicit dependencies of Alpha++ NFC should be. `far` tells which classes are distant, `added` which causal
relations were added. -/

namespace Ficus.Spec.Nfc
open Rs.Nfc

variable (p : Provider) (net : NetView) (far : String → String → Prop) (added : String → String → Prop)

/-- `a` causes `b`, directly or at a distance, or they come in either order. -/
def Near (a b : String) : Prop := Causes p added a b ∨ far a b ∨
  (p.direct a b = true ∧ p.direct b a = true ∧ p.triangle a b = false ∧ p.triangle b a = false)

/-- The first kind: some task waits for a place filled by `a` and for another one that `b` empties, filled by nothing near `a`. -/
def Implicit1 (a b : String) : Prop := p.direct a b = false ∧
  ∃ c ∈ p.classes, ∃ ins outs, net.find c = some (ins, outs) ∧ ∃ x ∈ ins, ∃ y ∈ ins, x ≠ y ∧ a ∈ net.pre x ∧ a ∉ net.pre y ∧
    b ∈ net.post y ∧ ∀ t ∈ net.pre y, ¬ Near p far added t a

/-- The second kind, forwards: `a` fills several places, one of which leads to an alternative of `b` with a common cause but not to `b`. -/
def Implicit21 (a b : String) : Prop := far a b ∧
  ∃ ins outs, net.find a = some (ins, outs) ∧ 2 ≤ outs.length ∧ ∃ c ∈ p.classes,
    (p.unrelated b c = true ∧ ∃ d ∈ p.classes, Causes p added d b ∧ Causes p added d c) ∧
    ∃ x ∈ outs, (∀ t ∈ net.post x, ¬ Near p far added t b) ∧ ∃ t ∈ net.post x, Near p far added t c

/-- The second kind, backwards: `b` waits for several places, one of which comes from an alternative of `a` with a common effect but not
from `a`. -/
def Implicit22 (a b : String) : Prop := far a b ∧
  ∃ ins outs, net.find b = some (ins, outs) ∧ 2 ≤ ins.length ∧ ∃ c ∈ p.classes,
    (p.unrelated a c = true ∧ ∃ d ∈ p.classes, Causes p added a d ∧ Causes p added c d) ∧
    ∃ x ∈ ins, (∀ t ∈ net.pre x, ¬ Near p far added a t) ∧ ∃ t ∈ net.pre x, Near p far added c t

/-- Two lists have an element in common. -/
def Meet (x y : List Nat) : Prop := ∃ n ∈ x, n ∈ y

/-- The third kind: `a` and `c` fill a common place, `b` and `d` empty a common place; `b` is distant from `a` only and `d` from `c` only;
and every place before `b` is before `d` or before a task near `d` that is distant from `c` only. -/
def Implicit3 (a b : String) : Prop := far a b ∧
  ∃ insA outsA insB outsB, net.find a = some (insA, outsA) ∧ net.find b = some (insB, outsB) ∧
  ∃ c ∈ p.classes, ∃ d ∈ p.classes, c ≠ d ∧ ∃ insC outsC insD outsD, net.find c = some (insC, outsC) ∧ net.find d = some (insD, outsD) ∧
    Meet outsA outsC ∧ Meet insB insD ∧ ¬ far a d ∧ ¬ far c b ∧ far c d ∧
    ∀ x ∈ insB, x ∈ insD ∨ ∃ t ∈ p.classes, ¬ far a t ∧ far c t ∧ Near p far added d t ∧
      ∃ insT outsT, net.find t = some (insT, outsT) ∧ Meet insB insT ∧ x ∈ insT

/-- The relation of a rule. -/
def Implicit : Rule → String → String → Prop
  | .w1 => Implicit1 p net far added
  | .w21 => Implicit21 p net far added
  | .w22 => Implicit22 p net far added
  | .w3 => Implicit3 p net far added

/-- The relations that some calls add. -/
def AddedBy (calls : List AnyCall) (a b : String) : Prop := AnyCall.add a b ∈ calls

end Ficus.Spec.Nfc
