import Verif.Spec.RsInfo
import Verif.Model.RsFuzzy
import Mathlib.Order.Bounds.Basic
import Mathlib.Data.List.Dedup
import Mathlib.Logic.Relation

/-! What a fuzzy graph has to contain, without the modelled functions. -/

namespace Ficus.Spec
open Ficus.Rs
variable {E : Type} [HasName E]

/-- The data of the edge between two nodes. -/
def FuzzyEdge (g : FuzzyGraph) (x y : Nat) : Option ℚ := (g.conns.get? x).bind (fun c => c.get? y)

/-- How often a name occurs in a log. -/
def namePlaces (log : List (List E)) (c : String) : Nat := (log.flatMap (fun t => t.map name)).count c

/-- The names that occur more often than the threshold, each once. -/
def frequentNames (p : FuzzyArgs) (log : List (List E)) : List String :=
  (log.flatMap (fun t => t.map name)).dedup.filter (fun c => decide (p.unary < (namePlaces log c : ℚ)))

/-- Half of the share of the pair among the pairs starting with `a` plus half of its share among those that end with `b`;
`none` if one of these is the quotient of zeros. -/
def relativeShare (p : FuzzyArgs) (log : List (List E)) (a b : String) : Option ℚ :=
  let first := ((frequentNames p log).map (fun c => (followPlaces log a c : ℚ))).sum
  let second := ((frequentNames p log).map (fun c => (followPlaces log c b : ℚ))).sum
  if first = 0 ∨ second = 0 then none
  else some (1 / 2 * (followPlaces log a b : ℚ) / first + 1 / 2 * (followPlaces log a b : ℚ) / second)

/-- The pair occurs more often than the threshold. -/
def Frequent (p : FuzzyArgs) (log : List (List E)) (a b : String) : Prop := p.binary < (followPlaces log a b : ℚ)

/-- The two directions are in conflict: both are frequent and the share of one of them is too small. -/
def InConflict (p : FuzzyArgs) (log : List (List E)) (a b : String) : Prop :=
  Frequent p log a b ∧ Frequent p log b a ∧
    ((∃ s, relativeShare p log a b = some s ∧ s < p.preserve) ∨ (∃ s, relativeShare p log b a = some s ∧ s < p.preserve))

/-- An edge after the resolution of conflicts: in a conflict a direction only wins if its share is larger by more than the
ratio. -/
def Resolved (p : FuzzyArgs) (log : List (List E)) (a b : String) : Prop :=
  Frequent p log a b ∧
    (InConflict p log a b →
      ∃ s t, relativeShare p log a b = some s ∧ relativeShare p log b a = some t ∧ p.ratio < s - t)

/-- The delays between `a` and the next `b` of a trace: for each `b` the time since the last event named `a` or `b` before it,
if that is an `a`. -/
def delaysOf (millis : E → E → Int) (a b : String) (events : List E) : List ℚ :=
  (List.range events.length).filterMap (fun j =>
    match events[j]?, ((events.take j).filter (fun e => decide (name e = a ∨ name e = b))).getLast? with
    | some second, some first =>
      if name second = b ∧ name second ≠ a ∧ name first = a then some (millis second first : ℚ) else none
    | _, _ => none)

/-- The mean delay between `a` and the next `b`, zero if there is none. -/
def meanDelay (millis : E → E → Int) (log : List (List E)) (a b : String) : ℚ :=
  (log.flatMap (delaysOf millis a b)).sum / ((log.flatMap (delaysOf millis a b)).length : ℚ)

/-- The measure of the usefulness of an edge. -/
def usefulness (millis : E → E → Int) (p : FuzzyArgs) (log : List (List E)) (a b : String) : ℚ :=
  p.rate * (followPlaces log a b : ℚ) + (1 - p.rate) * meanDelay millis log a b

/-- The measures of all edges to `b`. -/
def measuresTo (millis : E → E → Int) (p : FuzzyArgs) (log : List (List E)) (b : String) : Set ℚ :=
  {m | ∃ c ∈ frequentNames p log, Resolved p log c b ∧ m = usefulness millis p log c b}

/-- An edge after the filter: its measure, scaled to the interval from zero to one by the measures of all edges with the same
end, is not below the cutoff. -/
def Useful (millis : E → E → Int) (p : FuzzyArgs) (log : List (List E)) (a b : String) : Prop :=
  Resolved p log a b ∧ ∃ low high, IsLeast (measuresTo millis p log b) low ∧ IsGreatest (measuresTo millis p log b) high ∧
    p.edgeCutoff ≤ if low = high then 1 else (usefulness millis p log a b - low) / (high - low)

/-- The nodes that end up in a cluster: those of an activity that occurs less often than the cutoff, with an edge to another
node or with another node that has an edge to itself. (Edges from other nodes do not count: the loop of `all_connected_nodes`
that should add them adds the nodes that have an edge to themselves.) -/
def InCluster (p : FuzzyArgs) (log : List (List E)) (g : FuzzyGraph) (x : Nat) : Prop :=
  ∃ n, (x, n) ∈ g.nodes ∧ (namePlaces log n : ℚ) < p.nodeCutoff ∧
    ∃ y, y ≠ x ∧ ((FuzzyEdge g x y).isSome ∨ (FuzzyEdge g y y).isSome)

/-- A set of nodes that cannot be merged with another cluster: an edge leads to a node that is in no cluster, or no edge leads
out of the set; and the same for the edges into the set. -/
def Settled (p : FuzzyArgs) (log : List (List E)) (g : FuzzyGraph) (s : List Nat) : Prop :=
  ((∃ a ∈ s, ∃ b, (FuzzyEdge g a b).isSome ∧ b ∉ s ∧ ¬ InCluster p log g b) ∨
    ∀ a ∈ s, ∀ b, (FuzzyEdge g a b).isSome → b ∈ s) ∧
  ((∃ a ∈ s, ∃ b, (FuzzyEdge g b a).isSome ∧ b ∉ s ∧ ¬ InCluster p log g b) ∨
    ∀ a ∈ s, ∀ b, (FuzzyEdge g b a).isSome → b ∈ s)

/-- Two nodes with an edge between them or of which one has an edge to itself. -/
def Linked (g : FuzzyGraph) (a b : Nat) : Prop :=
  (FuzzyEdge g a b).isSome ∨ (FuzzyEdge g b a).isSome ∨ (FuzzyEdge g a a).isSome ∨ (FuzzyEdge g b b).isSome

/-- From each node of the set there is a way to each other one by links inside of the set. -/
def Joined (g : FuzzyGraph) (s : List Nat) : Prop :=
  ∀ a ∈ s, ∀ b ∈ s, Relation.ReflTransGen (fun u v => u ∈ s ∧ v ∈ s ∧ Linked g u v) a b

/-- `y` is a node to which `x` can be put into a cluster, and none has a larger mean delay from `x`. -/
def BestPartner (millis : E → E → Int) (log : List (List E)) (g : FuzzyGraph) (x : Nat) (n : String) (y : Nat) : Prop :=
  ∃ m, (y, m) ∈ g.nodes ∧ y ≠ x ∧ ((FuzzyEdge g x y).isSome ∨ (FuzzyEdge g y y).isSome) ∧
    ∀ z k, (z, k) ∈ g.nodes → z ≠ x → ((FuzzyEdge g x z).isSome ∨ (FuzzyEdge g z z).isSome) →
      meanDelay millis log n k ≤ meanDelay millis log n m

/-- `members` shows how the nodes of `g` are put together from those of `g₀`: each node of `g₀` belongs to exactly one node of
`g`, and a node is a node of `g₀` that belongs to no cluster or a cluster of nodes of activities that occur less often than the
cutoff. -/
structure Grouping (p : FuzzyArgs) (log : List (List E)) (g₀ g : FuzzyGraph) (members : Nat → List Nat) : Prop where
  distinct : (g.nodes.map Prod.fst).Nodup
  partition : ((g.nodes.map Prod.fst).flatMap members).Perm (g₀.nodes.map Prod.fst)
  kept : ∀ x ∈ g₀.nodes.map Prod.fst, x ∈ g.nodes.map Prod.fst ↔ ¬ InCluster p log g₀ x
  node : ∀ x n, (x, n) ∈ g.nodes →
    ((x, n) ∈ g₀.nodes ∧ members x = [x]) ∨
      (x ∉ g₀.nodes.map Prod.fst ∧ members x ≠ [] ∧ ∃ names : List String,
        List.Forall₂ (fun y c => (y, c) ∈ g₀.nodes ∧ InCluster p log g₀ y) (members x) names ∧
        n = "Cluster[" ++ ",".intercalate names ++ "]")

/-- The edges between different nodes carry the sums of the edges between their members; the edges inside of a cluster are
gone. -/
structure Summed (g₀ g : FuzzyGraph) (members : Nat → List Nat) : Prop where
  exist : ∀ x ∈ g.nodes.map Prod.fst, ∀ y ∈ g.nodes.map Prod.fst, x ≠ y →
    ((FuzzyEdge g x y).isSome ↔ ∃ a ∈ members x, ∃ b ∈ members y, (FuzzyEdge g₀ a b).isSome)
  weight : ∀ x ∈ g.nodes.map Prod.fst, ∀ y ∈ g.nodes.map Prod.fst, x ≠ y →
    (FuzzyEdge g x y).getD 0 =
      ((members x).map (fun a => ((members y).map (fun b => (FuzzyEdge g₀ a b).getD 0)).sum)).sum
  ends : ∀ x y, (FuzzyEdge g x y).isSome → x ∈ g.nodes.map Prod.fst ∧ y ∈ g.nodes.map Prod.fst
  loops : ∀ x ∈ g.nodes.map Prod.fst, FuzzyEdge g x x = if x ∈ g₀.nodes.map Prod.fst then FuzzyEdge g₀ x x else none

end Ficus.Spec
