import Verif.Model.Reports
import Verif.Spec.Abstraction
import Verif.Spec.Heap
import Verif.Proofs.Extract

/-! Specification vocabulary for the reports about activities and instances. -/

namespace Ficus.Spec

/-- The nodes of a forest layer by layer: the roots, then their children from left to right, and so on for `n` layers. -/
def layers : Nat → List ActTree → List ActTree
  | 0, _ => []
  | n + 1, f => f ++ layers n (f.flatMap ActTree.children)

/-- A section of the file of names: a heading with the level, a line, the names, a line. -/
def section_ (level : Nat) (names : List String) : List String :=
  ["ACTIVITIES LEVEL " ++ toString level ++ "\n\n", String.ofList (List.replicate 196 '='), "\n"] ++
    names.map (· ++ "\n") ++ [String.ofList (List.replicate 196 '='), "\n\n"]

/-- Nodes of the forest with the same name have children with the same names. -/
def NamesDetermineChildren (f : List ActTree) : Prop :=
  ∀ t ∈ subtreesL f, ∀ s ∈ subtreesL f, t.act.name = s.act.name →
    ∀ c ∈ t.children, ∃ d ∈ s.children, d.act.name = c.act.name

/-- Instances whose nodes are the same object agree on the node. -/
def IdentityOfNodes (insts : List Instance) : Prop :=
  ∀ i ∈ insts, ∀ j ∈ insts, i.node.act.uid = j.node.act.uid → i.node.act = j.node.act

/-- What the file of indices says about an instance: identity of the node, start and length. -/
def triple (i : Instance) : Nat × Nat × Nat := (i.node.act.uid, i.startPos, i.length)

/-- Number of events in no instance. -/
def uncoveredCount {E : Type} (log : Log E) (insts : List (List Instance)) : Nat :=
  (List.zipWith (fun is (t : Trace E) => (uncovered t.events.length (is.map span)).length) insts log.traces).sum

/-- Number of events. -/
def eventCount {E : Type} (log : Log E) : Nat := (log.traces.map (fun t => t.events.length)).sum

/-- The last of the instances that contains the position. -/
def lastCovering (is : List Instance) (i : Nat) : Option Instance :=
  (is.filter (fun j => decide (j.startPos ≤ i) && decide (i < j.startPos + j.length))).getLast?

/-- The payload of the event at a position after tagging. -/
def tagged (is : List Instance) (i : Nat) (p : Payload) : Payload :=
  match lastCovering is i with
  | none => p
  | some j => p.set "activity" (.str j.node.act.uniqueName)

/-- Every instance, except empty ones, ends inside its trace. Lists without a trace do not matter. -/
def InstancesInRange (h : Heap) (l : Nat) (insts : List (List Instance)) : Prop :=
  ∀ p ∈ insts.zip (h.logObj l).traces, ∀ j ∈ p.1, j.length = 0 ∨ j.startPos + j.length ≤ (h.traceObj p.2).events.length

end Ficus.Spec
