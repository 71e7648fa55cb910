import Verif.Model.RsClusters

/-! What clusters of traces and of activities are, independent of how the code makes them. -/

namespace Ficus.Rs.Cl

/-- The traces with a label, in their order. -/
def tracesWith {T : Type} (traces : List T) (labels : List Nat) (k : Nat) : List T :=
  ((traces.zip labels).filter (fun p => decide (p.2 = k))).map Prod.fst

/-- The activities of a cluster, in their order. -/
def membersOf (processed : List RNode) (labels : List (Option Nat)) (k : Nat) : List RNode :=
  ((processed.zip labels).filter (fun p => decide (p.2 = some k))).map Prod.fst

/-- What an instance of an activity becomes: one of the activity of its cluster if there is another activity in the cluster, else it
stays. -/
def Renamed (processed : List RNode) (labels : List (Option Nat)) (a b : Held) : Prop :=
  (∃ k first rest, membersOf processed labels k = first :: rest ∧ rest ≠ [] ∧
    (∃ m ∈ first :: rest, m.name = a.node.name) ∧
    b.startPos = a.startPos ∧ b.length = a.length ∧ b.node.name = "CLUSTER_" ++ Nat.repr k ∧ b.node.level = first.level ∧
    b.node.repeatSet = none ∧ b.node.children = [] ∧ ∀ c, c ∈ b.node.classes ↔ ∃ m ∈ first :: rest, c ∈ m.classes) ∨
  (∀ k, (∃ m ∈ membersOf processed labels k, m.name = a.node.name) → (membersOf processed labels k).length = 1) ∧ b = a

/-- The second instance has the name of the first one and begins where that ends. -/
def Continues (a b : Held) : Prop := a.node.name = b.node.name ∧ a.startPos + a.length = b.startPos

/-- One instance for a run of instances. -/
def IsUnion (run : List Held) (b : Held) : Prop :=
  ∃ first rest, run = first :: rest ∧ run.IsChain Continues ∧
    b = { node := first.node, startPos := first.startPos, length := (run.map (fun a => a.length)).sum }

/-- The maximal runs of instances that continue each other are replaced by one instance each. -/
def Coalesced (before after : List Held) : Prop :=
  ∃ runs : List (List Held), before = runs.flatten ∧ List.Forall₂ IsUnion runs after ∧ after.IsChain (fun a b => ¬Continues a b)

/-- A position is inside of an instance. -/
def Covers (a : Held) (pos : Nat) : Prop := a.startPos ≤ pos ∧ pos < a.startPos + a.length

/-- Different names have different colours, and these are used. -/
def Distinct (h : Colors) : Prop :=
  (∀ n m c, h.names.get? n = some c → h.names.get? m = some c → n = m) ∧ ∀ n c, h.names.get? n = some c → c ∈ h.used

end Ficus.Rs.Cl
