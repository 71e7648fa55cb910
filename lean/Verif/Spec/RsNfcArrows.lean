import Verif.Model.RsNfcArrows

/-! What the relation between distant classes of Alpha++ NFC should be. -/

namespace Ficus.Spec.Nfc
open Rs.Nfc

/-- `a` causes `b`: so it was added, or `b` comes directly after `a`, and not the other way round unless in a loop of length two. -/
def Causes (p : Provider) (added : String → String → Prop) (a b : String) : Prop :=
  added a b ∨ (p.direct a b = true ∧ (p.direct b a = false ∨ p.triangle a b = true ∨ p.triangle b a = true))

/-- Two classes that are not related and have a common cause or a common effect. -/
def Alternatives (p : Provider) (added : String → String → Prop) (a b : String) : Prop :=
  p.unrelated a b = true ∧ ((∃ c ∈ p.classes, Causes p added c a ∧ Causes p added c b) ∨
    ∃ c ∈ p.classes, Causes p added a c ∧ Causes p added b c)

/-- `b` comes after `a` somewhere in the log, but never directly: with something known in between, neither `a` nor `b`, nor an
alternative to `a`. -/
def Distant (p : Provider) (added : String → String → Prop) (a b : String) : Prop :=
  p.direct a b = false ∧ a ≠ b ∧ ∃ t ∈ p.log, ∃ before between after, t = before ++ a :: between ++ b :: after ∧
    a ∉ between ∧ b ∉ between ∧ (∃ c ∈ between, p.known c = true) ∧
    ∀ c ∈ between, p.known c = true → ¬ Alternatives p added c a

/-- The relations that some calls add. -/
def Added (calls : List ProviderCall) (a b : String) : Prop := ProviderCall.add a b ∈ calls

end Ficus.Spec.Nfc
