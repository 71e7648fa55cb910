import Verif.Spec.Log
import Verif.Spec.RsReplay
import Verif.Spec.RsNet
import Verif.Model.RsHeuristic
import Mathlib.Data.Finset.Card
import Mathlib.Order.Bounds.Basic
import Mathlib.Algebra.Order.Ring.Rat
import Mathlib.Algebra.BigOperators.Group.Finset.Basic

/-! The relations of the heuristic miner, counted in the log. -/

namespace Ficus.Spec
open Rs

/-- How often `b` comes directly after `a`. -/
def directCount (log : List (List String)) (a b : String) : Nat := (log.flatMap adjacent).count (a, b)

/-- How often `a`, `b`, `a` come one after the other. -/
def triangleCount (log : List (List String)) (a b : String) : Nat := (log.flatMap (fun t => t.zip (t.tail.zip t.tail.tail))).count (a, b, a)

/-- How much `b` depends on `a`. -/
def strength (log : List (List String)) (a b : String) : ℚ :=
  if a = b then directCount log a a / (directCount log a a + 1)
  else ((directCount log a b : ℚ) - directCount log b a) / (directCount log a b + directCount log b a + 1)

/-- A class that comes often enough after another one and depends on it strongly enough. -/
def Candidate (th : Thresholds) (log : List (List String)) (a b : String) : Prop :=
  a ∈ log.flatten ∧ b ∈ log.flatten ∧ th.observations ≤ directCount log a b ∧ th.dependency < strength log a b

/-- A candidate that is not too far from the best one. -/
def Depends (th : Thresholds) (log : List (List String)) (a b : String) : Prop :=
  Candidate th log a b ∧ ∃ best, IsGreatest {m | ∃ c, Candidate th log a c ∧ m = strength log a c} best ∧
    best * (1 - th.relative) ≤ strength log a b

/-- Two classes that come after each other so often that they are taken for parallel after `a`. -/
def ParallelAfter (th : Thresholds) (log : List (List String)) (a b c : String) : Prop :=
  th.parallel < ((directCount log b c : ℚ) + directCount log c b) / (directCount log a b + directCount log a c + 1)

/-- Two classes in a loop of length two. -/
def TwoLoop (th : Thresholds) (log : List (List String)) (a b : String) : Prop :=
  th.loops < ((triangleCount log a b : ℚ) + triangleCount log b a) / (triangleCount log a b + triangleCount log b a + 1)

/-- A set of at least two names from `from_` any two of which are related. -/
structure Group (from_ : String → Prop) (rel : String → String → Prop) (s : Finset String) : Prop where
  two : 2 ≤ s.card
  among : ∀ b ∈ s, from_ b
  related : ∀ b ∈ s, ∀ c ∈ s, b ≠ c → rel b c

/-- A group that no other group contains. -/
def MaximalGroup (from_ : String → Prop) (rel : String → String → Prop) (s : Finset String) : Prop :=
  Group from_ rel s ∧ ∀ t, Group from_ rel t → s ⊆ t → t = s

/-- 1 if it holds, otherwise 0. -/
noncomputable def ind (p : Prop) : Nat := open Classical in if p then 1 else 0

/-- The places from which a class takes tokens: the places made for it in groups, and the places after the classes it depends on
where it is not parallel to another class. -/
def TakesFrom (th : Thresholds) (log : List (List String)) (p : Place) (c : String) : Prop :=
  p.name = "pre_" ++ c ∨ ∃ a, p.name = "post_" ++ a ∧ Depends th log a c ∧
    ∀ b, Depends th log a b → b ≠ c → ¬ ParallelAfter th log a b c

/-- The classes that are in a loop of length two with a class. -/
noncomputable def loopPartners (th : Thresholds) (log : List (List String)) (c : String) : Finset String :=
  open Classical in log.flatten.toFinset.filter (fun b => b ≠ c ∧ TwoLoop th log c b)

/-- The transition of a class takes and gives tokens as the relations say, and for each loop of length two also where the other class
gives and takes them. -/
structure ClassArcs (th : Thresholds) (log : List (List String)) (net : Net) (t : Trans) : Prop where
  into : ∀ p ∈ net.places, arcsInto p t = ind (TakesFrom th log p t.name) + ∑ b ∈ loopPartners th log t.name, ind (p.name = "post_" ++ b)
  outOf : ∀ p ∈ net.places, arcsOutOf t p = ind (p.name = "post_" ++ t.name) + ∑ b ∈ loopPartners th log t.name, ind (TakesFrom th log p b)

/-- The silent transition of a group of parallel classes after `a`: it takes a token from the place after `a` and gives one to a place
of its own for each class of the group. -/
structure SilentArcs (net : Net) (t : Trans) (a : String) (s : Finset String) : Prop where
  name : t.name = "silent_start_" ++ a
  into : ∀ p ∈ net.places, arcsInto p t = ind (p.name = "post_" ++ a)
  number : t.outgoing.length = s.card
  each : ∀ c ∈ s, ∃ p ∈ net.places, p.name = "pre_" ++ c ∧ arcsOutOf t p = 1
  only : ∀ p ∈ net.places, arcsOutOf t p ≠ 0 → ∃ c ∈ s, p.name = "pre_" ++ c
  own : ∀ p ∈ net.places, arcsOutOf t p ≠ 0 → ∀ u ∈ net.transitions, u.silent = true → arcsOutOf u p ≠ 0 → u = t

/-- The places: one after each class with followers, and otherwise those of silent transitions. -/
structure PlacesOf (th : Thresholds) (log : List (List String)) (net : Net) : Prop where
  posts : ∀ a, (net.places.map Place.name).count ("post_" ++ a) = ind (∃ b, Depends th log a b)
  rest : ∀ p ∈ net.places, (∃ a, p.name = "post_" ++ a) ∨
    ((∃ c, p.name = "pre_" ++ c) ∧ ∃ t ∈ net.transitions, t.silent = true ∧ arcsOutOf t p = 1)

end Ficus.Spec
