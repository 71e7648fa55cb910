import Verif.Model.Hash
import Verif.Model.Log

/-! Specification for trace variants. -/

namespace Ficus.Spec

/-- `groups` is the partition of the list `l` into the classes of equal key: every class of `l` (with its multiplicities
and in the order of `l`) is a group, every group is such a class, and different groups have different keys. -/
structure GroupedBy {A K : Type} [DecidableEq K] (key : A → K) (l : List A) (groups : List (List A)) : Prop where
  isClass : ∀ g ∈ groups, ∃ x ∈ l, g = l.filter (fun y => decide (key y = key x))
  covers : ∀ x ∈ l, l.filter (fun y => decide (key y = key x)) ∈ groups
  distinct : groups.Pairwise (fun g g' => ∀ a ∈ g, ∀ b ∈ g', key a ≠ key b)

/-- The sequence of event names of a trace. -/
def variant {E : Type} [HasName E] (t : Trace E) : List String := t.events.map name

/-- The sequence of hashes of event names of a trace. -/
def hashVariant {E : Type} [HasName E] (t : Trace E) : List Int := t.events.map (fun e => stringHash (name e))

end Ficus.Spec
