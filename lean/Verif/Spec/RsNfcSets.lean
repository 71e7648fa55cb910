import Verif.Spec.RsAlpha

/-! What the extended sets of Alpha++ NFC should be. -/

namespace Ficus.Spec.Nfc

/-- Two sets of classes that extend the two sides of `base`: they are not in the side they extend; all classes of the first side imply
those of the second, except inside of `base`; and the new classes of a side are apart from the old ones. -/
structure IsExtension (classes : List String) (implied apart : String → String → Prop) (base x : Finset String × Finset String) : Prop where
  left : ∀ a ∈ x.1, a ∈ classes ∧ a ∉ base.1
  right : ∀ b ∈ x.2, b ∈ classes ∧ b ∉ base.2
  oldNew : ∀ a ∈ base.1, ∀ b ∈ x.2, implied a b
  newOld : ∀ a ∈ x.1, ∀ b ∈ base.2, implied a b
  newNew : ∀ a ∈ x.1, ∀ b ∈ x.2, implied a b
  apartLeft : ∀ a ∈ x.1, ∀ c ∈ base.1, apart a c
  apartRight : ∀ c ∈ base.2, ∀ b ∈ x.2, apart c b

/-- An extension that no other contains. -/
def MaximalExtension (classes : List String) (implied apart : String → String → Prop) (base x : Finset String × Finset String) : Prop :=
  IsExtension classes implied apart base x ∧ ∀ y, IsExtension classes implied apart base y → x.1 ⊆ y.1 → x.2 ⊆ y.2 → y = x

/-- The texts of the names of two sets one after the other. -/
def together (x : List String × List String) : String := (x.1 ++ x.2).foldl (· ++ ·) ""

end Ficus.Spec.Nfc
