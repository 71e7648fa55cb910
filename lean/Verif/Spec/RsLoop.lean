import Verif.Model.RsLoop
import Verif.Spec.RsInstances
import Verif.Spec.RsTandem

/-! Specification of the discovery of activities for several levels. -/

namespace Ficus.Spec
open Ficus

/-- The children of nodes are in the list, and strictly inside their parents. -/
structure GoodGraph (ns : List Rs.RNode) : Prop where
  nested : NestedIn (Rs.heapOf ns)
  closed : ∀ n ∈ ns, ∀ c ∈ n.children, c < ns.length

/-- Instances of a log: one list per trace, ordered, disjoint and inside the trace. -/
structure InstancesOf {A : Type} (log : List (List A)) (instances : List (List Rs.RInstance)) : Prop where
  length : instances.length = log.length
  placed : ∀ p ∈ instances.zip log, WellPlaced p.2.length (p.1.map spanOf)

/-- Where patterns are looked for: in all of the log, or in the events that are in no instance at the start. -/
noncomputable def searched {A : Type} (fromUnattached : Bool) (log : List (List A)) (instances : Option (List (List Rs.RInstance))) :
    List (List A) :=
  if fromUnattached then (log.zip (instances.getD [])).map (fun p => outsideAll p.1 (p.2.map spanOf)) else log

/-- What is added for some levels, each an expression with a number: the nodes and activities that are new come after the others, the
classes of a new node are those of events of `source` by the expression of its level, and in each trace the instances there were stay. -/
structure Extends {P : Type} (log source : List (List (Rs.Nested (Rs.REvent P)))) (hash : String → Nat) (base : Nat)
    (levels : List ((String → Option (Option Rs.Match)) × Nat)) (st st' : Rs.LevelState) : Prop where
  nodes : ∃ new, st'.nodes = st.nodes ++ new ∧ ∀ n ∈ new, ∃ l ∈ levels, n.level = base + l.2 ∧
    ∀ x ∈ n.classes, ∃ t ∈ classLog (some l.1) (source.map (fun t => t.map Rs.Nested.top)), ∃ c ∈ t, x = hash c
  activities : ∃ new, st'.activities = st.activities ++ new ∧ ∀ p ∈ new, st.nodes.length ≤ p ∧ p < st'.nodes.length
  instances : ∃ is, st'.instances = some is ∧ InstancesOf log is ∧
    ∀ old, st.instances = some old → List.Forall₂ (fun a b => List.Sublist a b) old is

end Ficus.Spec
