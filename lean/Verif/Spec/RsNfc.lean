import Verif.Spec.RsAlpha
import Verif.Spec.RsNet
import Verif.Model.RsNfc
import Mathlib.Logic.Relation

/-! What the last steps of Alpha++ NFC should do. -/

namespace Ficus.Spec.Nfc

/-- There is a way of one or more relations from `a` to `b`. -/
def Reaches (rels : List (String × String)) (a b : String) : Prop := Relation.TransGen (fun x y => (x, y) ∈ rels) a b

/-- The class takes part in a relation. -/
def Related (rels : List (String × String)) (a : String) : Prop := ∃ b, (a, b) ∈ rels ∨ (b, a) ∈ rels

/-- From the class a cycle of relations can be reached. -/
def ReachesCycle (rels : List (String × String)) (a : String) : Prop := ∃ c, (c = a ∨ Reaches rels a c) ∧ Reaches rels c c

/-- A relation follows from others: there is a way of two or more relations between its classes. -/
def Implied (rels : List (String × String)) (r : String × String) : Prop := ∃ c, Reaches rels r.1 c ∧ Reaches rels c r.2

/-- No relation follows from two others. -/
def NoTriangle (rels : List (String × String)) : Prop := ∀ a b c, (a, b) ∈ rels → (b, c) ∈ rels → (a, c) ∉ rels

/-- Three sets of names all of whose members stand in a relation. -/
structure IsTriple (ok : String → String → String → Prop) (t : Finset String × Finset String × Finset String) : Prop where
  first : t.1.Nonempty
  second : t.2.1.Nonempty
  third : t.2.2.Nonempty
  ok : ∀ a ∈ t.1, ∀ b ∈ t.2.1, ∀ c ∈ t.2.2, ok a b c

/-- Three such sets that no others contain. -/
def MaximalTriple (ok : String → String → String → Prop) (t : Finset String × Finset String × Finset String) : Prop :=
  IsTriple ok t ∧ ∀ u, IsTriple ok u → t.1 ⊆ u.1 → t.2.1 ⊆ u.2.1 → t.2.2 ⊆ u.2.2 → u = t

/-- The third class comes between the first and the second without a loop of two classes, the first two are not parallel, and neither
follows itself. -/
def Between (direct triangle parallel unrelated : String → String → Prop) (a b c : String) : Prop :=
  direct a c ∧ ¬ triangle c a ∧ direct c b ∧ ¬ triangle c b ∧ ¬ parallel a b ∧ unrelated a a ∧ unrelated b b

/-- The names of three sets one after the other, in their order. -/
def joined (x : List String × List String × List String) : String := (x.1 ++ x.2.1 ++ x.2.2).foldl (· ++ ·) ""

/-- The hash tells apart the triples of sorted names, all of whose members stand in a relation. -/
def TriplesApart (hash : String → Nat) (ok : String → String → String → Prop) : Prop :=
  ∀ x y : List String × List String × List String,
    x.1.Pairwise (· < ·) → x.2.1.Pairwise (· < ·) → x.2.2.Pairwise (· < ·) →
    y.1.Pairwise (· < ·) → y.2.1.Pairwise (· < ·) → y.2.2.Pairwise (· < ·) →
    IsTriple ok (x.1.toFinset, x.2.1.toFinset, x.2.2.toFinset) → IsTriple ok (y.1.toFinset, y.2.1.toFinset, y.2.2.toFinset) →
    hash (joined x) = hash (joined y) → x = y

/-- The sets from which places are to be made: pairs and extended sets that are not the outer sets of a triple, and triples, whose
third set is on both sides. -/
def PlaceSource (lw : List Rs.Nfc.Triple) (zw yw : List Rs.ASet) (x : Rs.ASet) : Prop :=
  ((x ∈ zw ∨ x ∈ yw) ∧ ∀ t ∈ lw, ¬ (t.a = x.left ∧ t.b = x.right)) ∨
  (x.left.Pairwise (· < ·) ∧ x.right.Pairwise (· < ·) ∧
    ∃ t ∈ lw, (∀ n, n ∈ x.left ↔ n ∈ t.a ∨ n ∈ t.c) ∧ ∀ n, n ∈ x.right ↔ n ∈ t.b ∨ n ∈ t.c)

end Ficus.Spec.Nfc
