import Verif.Spec.RsAlpha
import Verif.Model.RsNet

/-! What the nets of the alpha algorithms should be. -/

namespace Ficus.Spec
open Rs

/-- The class of the first event of some trace. -/
def IsFirst (log : List (List String)) (a : String) : Prop := ∃ t ∈ log, t.head? = some a

/-- The class of the last event of some trace. -/
def IsLast (log : List (List String)) (a : String) : Prop := ∃ t ∈ log, t.getLast? = some a

/-- The number of arcs from a place to a transition. -/
def arcsInto (p : Place) (t : Trans) : Nat := (t.incoming.map Arc.place).count p.id

/-- The number of arcs from a transition to a place. -/
def arcsOutOf (t : Trans) (p : Place) : Nat := (t.outgoing.map Arc.place).count p.id

/-- Identifiers of places, transitions and arcs are all different, and arcs begin or end at places of the net. -/
structure WellFormed (net : Net) : Prop where
  distinct : (net.places.map Place.id ++ net.transitions.map Trans.id ++
    net.transitions.flatMap (fun t => (t.incoming ++ t.outgoing).map Arc.id)).Nodup
  closed : ∀ t ∈ net.transitions, ∀ a ∈ t.incoming ++ t.outgoing, ∃ p ∈ net.places, p.id = a.place

/-- All identifiers of the net were drawn from the counter, which is beyond them. -/
def Drawn (s : Building) : Prop :=
  (∀ p ∈ s.net.places, p.id < s.next) ∧ ∀ t ∈ s.net.transitions, t.id < s.next ∧ ∀ a ∈ t.incoming ++ t.outgoing, a.id < s.next

/-- A place is made from a set, or is the start or the end place: whether a class is a follower of it. -/
def ComesAfter (first : String → Prop) (p : Place) (c : String) : Prop :=
  (∃ x, p.set = some x ∧ c ∈ x.right) ∨ (p.set = none ∧ p.name = "StartPlace" ∧ first c)

/-- Whether a class is a predecessor of a place. -/
def ComesBefore (last : String → Prop) (p : Place) (c : String) : Prop :=
  (∃ x, p.set = some x ∧ c ∈ x.left) ∨ (p.set = none ∧ p.name = "EndPlace" ∧ last c)

/-- The transition of a class has exactly one arc from each place it comes after and one to each place it comes before. -/
def Connected (first last : String → Prop) (net : Net) (t : Trans) : Prop :=
  t.silent = false ∧
  ∀ p ∈ net.places, (ComesAfter first p t.name → arcsInto p t = 1) ∧ (¬ ComesAfter first p t.name → arcsInto p t = 0) ∧
    (ComesBefore last p t.name → arcsOutOf t p = 1) ∧ (¬ ComesBefore last p t.name → arcsOutOf t p = 0)

/-- The place that Alpha+ looks for by its name when it puts back a class that comes directly after itself: the classes that come
directly before and after it. -/
def LoopName (log : List (List String)) (c n : String) : Prop :=
  ∃ x : ASet, x.left.Pairwise (· < ·) ∧ x.right.Pairwise (· < ·) ∧ (∀ a, a ∈ x.left ↔ Directly log a c ∧ a ≠ c) ∧
    (∀ a, a ∈ x.right ↔ Directly log c a ∧ a ≠ c) ∧ n = x.text

/-- The relation that Alpha+ takes for causality, on the log without some classes. -/
def PlusCausal (log : List (List String)) (loops : List String) (a b : String) : Prop :=
  Directly (withoutLoops log loops) a b ∧ (¬ Directly (withoutLoops log loops) b a ∨ (Triangle log a b ∧ Triangle log b a))

/-- The two sides of a set as sets. -/
def sides (x : ASet) : Finset String × Finset String := (x.left.toFinset, x.right.toFinset)

end Ficus.Spec
