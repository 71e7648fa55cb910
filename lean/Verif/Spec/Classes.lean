import Verif.Model.Classes
import Verif.Spec.Activity
import Verif.Spec.Abstraction

/-! Specification vocabulary for class trees and logs per activity. -/

namespace Ficus.Spec
variable {E : Type}

/-- The tree mirrors the extractors, listed from the top: a node of the lowest layer has no children; a node of a higher
layer has at least one child, and the extractor of its layer maps every child to it. -/
def Mirrors : List (String → String) → ClassNode → Prop
  | [], n => n.children = []
  | f :: fs, n => n.children ≠ [] ∧ ∀ c ∈ n.children, f c.name = n.name ∧ Mirrors fs c

mutual
/-- The names of the nodes without children. -/
def classLeaves : ClassNode → List String
  | .node n [] => [n]
  | .node _ (c :: cs) => classLeaves c ++ classLeavesL cs
/-- The names of the nodes without children of a forest. -/
def classLeavesL : List ClassNode → List String
  | [] => []
  | t :: ts => classLeaves t ++ classLeavesL ts
end

/-- All instances of a log with the events of their trace, in the order of the log. -/
def located (log : Log E) (insts : List (List Instance)) : List (List E × Instance) :=
  (insts.zip log.traces).flatMap (fun p => p.1.map (fun i => (p.2.events, i)))

/-- The events of an instance. -/
def eventsOf (p : List E × Instance) : List E := (p.1.drop p.2.startPos).take p.2.length

/-- Reading a name that was written gives it back, only the last name written counts, and writing the own name changes
nothing. -/
class LawfulRename (E : Type) [Renamable E] : Prop where
  name_rename : ∀ (e : E) (n : String), name (rename e n) = n
  rename_rename : ∀ (e : E) (a b : String), rename (rename e a) b = rename e b
  rename_name : ∀ (e : E), rename e (name e) = e

instance : LawfulRename String := ⟨fun _ _ => rfl, fun _ _ _ => rfl, fun _ => rfl⟩

/-- The extractors form a hierarchy: naming an event after its class at some level does not change its classes at that
and the higher levels. -/
def Hierarchical [Renamable E] (exts : List (E → String)) : Prop :=
  exts.Pairwise (fun f g => ∀ e, g (rename e (f e)) = g e)

/-- The events of the repeat set of an activity. -/
def repeatEvents (log : Log E) (a : Activity) : List E :=
  (((log.traces.map Trace.events)[a.repeatSet.traceIndex]?).getD []).drop a.repeatSet.firstPos |>.take a.repeatSet.length

/-- The two sequences of events have the same set of classes. -/
def SameClasses (f : E → String) (a b : List E) : Prop :=
  (∀ x ∈ a.map f, x ∈ b.map f) ∧ ∀ x ∈ b.map f, x ∈ a.map f

instance (f : E → String) (a b : List E) : Decidable (SameClasses f a b) := by unfold SameClasses; infer_instance

/-- An instance counts for the desired level: it is of that level, or it is of a lower level and at the top level its
events have the same classes as the events of the repeat set of its activity. -/
def Promoted (log : Log E) (desired : Nat) (top : E → String) (p : List E × Instance) : Prop :=
  p.2.node.act.level = desired ∨
    (p.2.node.act.level < desired ∧ SameClasses top (eventsOf p) (repeatEvents log p.2.node.act))

instance (log : Log E) (desired : Nat) (top : E → String) (p : List E × Instance) :
    Decidable (Promoted log desired top p) := by unfold Promoted; infer_instance

/-- A class name in which the separator of activity names can be recognised: it does not contain "::" and does not end
with ":". -/
def PlainClass (c : String) : Prop := ¬ [':', ':'] <:+: (c.toList ++ [':'])

end Ficus.Spec
