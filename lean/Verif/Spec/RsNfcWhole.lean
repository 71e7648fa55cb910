import Verif.Spec.RsNfcNets
import Verif.Spec.RsNfc
import Verif.Model.RsNfcWhole

/-! What the net of Alpha++ NFC should be. -/

namespace Ficus.Spec.Nfc
open Rs Rs.Nfc

/-- The net is well formed, has exactly one transition for each class of the log, none of them silent, and neither an initial nor a final
marking; each place stands for one of `sets`, has its text as name and one arc from each transition of its first side and one to each of
its second. -/
structure NfcNet (log : List (List String)) (sets : ASet → Prop) (s : Building) : Prop where
  wellFormed : WellFormed s.net
  initial : s.net.initial = none
  final : s.net.final = none
  names : (s.net.transitions.map Trans.name).Perm log.flatten.dedup
  visible : ∀ t ∈ s.net.transitions, t.silent = false
  places : ∀ p ∈ s.net.places, ∃ x, sets x ∧ p.name = x.text ∧ ∀ t ∈ s.net.transitions,
    arcsInto p t = (if t.name ∈ x.right then 1 else 0) ∧ arcsOutOf t p = (if t.name ∈ x.left then 1 else 0)

/-- The closure of the relations can be computed: every class from which a cycle can be reached has a way to all classes. -/
def ClosureEnds (rels : List (String × String)) : Prop :=
  ∀ a b, Related rels a → Related rels b → ReachesCycle rels a → Reaches rels a b

/-- Three sets of classes for Alpha++ NFC: each of the third comes between each of the first and each of the second. -/
def NfcTriple (log : List (List String)) (t : Triple) : Prop := ∀ a ∈ t.a, ∀ b ∈ t.b, ∀ c ∈ t.c,
  Between (Directly log) (Triangle log) (fun a b => Directly log a b ∧ Directly log b a ∧ ¬ (Triangle log a b ∨ Triangle log b a))
    (Unrelated log) a b c

/-- The set is a valid pair of sets, or, if hashes collide, several of them put together. -/
def MadeOf (causal unrelated : String → String → Prop) (x : ASet) : Prop :=
  ∃ bs : List ASet, bs ≠ [] ∧ (∀ b ∈ bs, IsPair causal unrelated (sides b)) ∧ (∀ a, a ∈ x.left ↔ ∃ b ∈ bs, a ∈ b.left) ∧
    ∀ a, a ∈ x.right ↔ ∃ b ∈ bs, a ∈ b.right

/-- There is a dependency of the first or one of the second kind that was kept. -/
def Depends (r : Stages) (a b : String) : Prop := (a, b) ∈ r.w1 ∨ (a, b) ∈ r.kept

/-- A set with new classes on its sides: these depend on the other side, and are apart from those that were there. -/
structure NfcExtension (r : Stages) (apart : String → String → Prop) (x : ESet) : Prop where
  newLeft : ∀ a ∈ x.left, a ∉ x.base.left
  newRight : ∀ b ∈ x.right, b ∉ x.base.right
  right : ∀ a ∈ x.base.left, ∀ b ∈ x.right, Depends r a b
  left : ∀ a ∈ x.left, ∀ b ∈ x.base.right ++ x.right, Depends r a b
  apartLeft : ∀ a ∈ x.left, ∀ c ∈ x.base.left, apart a c
  apartRight : ∀ c ∈ x.base.right, ∀ b ∈ x.right, apart c b

end Ficus.Spec.Nfc
