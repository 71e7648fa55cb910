import Verif.Spec.RsNfcRules
import Verif.Model.RsNfcStages

/-! What the searches for implicit dependencies in the discovery of Alpha++ NFC should find. -/

namespace Ficus.Spec.Nfc
open Rs.Nfc

/-- Exactly the pairs of classes in a relation. -/
def ExactlyPairs (p : Provider) (found : List (String × String)) (R : String → String → Prop) : Prop :=
  ∀ a b, (a, b) ∈ found ↔ a ∈ p.classes ∧ b ∈ p.classes ∧ R a b

/-- Nothing was added. -/
def Nothing (_ _ : String) : Prop := False

/-- The pairs of a list as a relation. -/
def Listed (l : List (String × String)) (a b : String) : Prop := (a, b) ∈ l

/-- A dependency of the second kind, forwards or backwards. -/
def Implicit2 (p : Provider) (net : NetView) (far added : String → String → Prop) (a b : String) : Prop :=
  Implicit21 p net far added a b ∨ Implicit22 p net far added a b

/-- A class between `a` and `c` that explains a dependency of the second kind between them. -/
def Explained (p : Provider) (net : NetView) (far added : String → String → Prop) (a c : String) : Prop :=
  ∃ b ∈ p.classes, (Implicit2 p net far added a b ∧ (Causes p added b c ∨ far b c)) ∨
    (Implicit2 p net far added b c ∧ (Causes p added a b ∨ far a b))

/-- Each answer of `new` is one of `old` or as by `fresh`. -/
def Mixed (new old fresh : String → String → Prop) : Prop := ∀ x y, (new x y ↔ old x y) ∨ (new x y ↔ fresh x y)

end Ficus.Spec.Nfc
