import Verif.Spec.Extract
import Verif.Model.RsActivities
import Mathlib.Data.Finset.Sort

/-! Specification of repeat sets, graphs of activities and instances of the backend. -/

namespace Ficus.Spec

/-- The classes covered by a sub-array of a log. -/
def wordAt (log : List (List Nat)) (r : RepeatSet) : List Nat :=
  (((log[r.traceIndex]?).getD []).drop r.firstPos).take r.length

/-- The sub-array ends inside its trace. -/
def InsideLog (log : List (List Nat)) (r : RepeatSet) : Prop :=
  ∃ t, log[r.traceIndex]? = some t ∧ r.firstPos + r.length ≤ t.length

/-- The classes of a word in ascending order, each once. -/
def ascending (w : List Nat) : List Nat := w.toFinset.sort (fun a b => a ≤ b)

/-- A hash of words is defined on the sets of classes of the sub-arrays and tells them apart. -/
def TellsSets (hash : List Nat → Option Nat) (log : List (List Nat)) (rs : List RepeatSet) : Prop :=
  (∀ r ∈ rs, hash (ascending (wordAt log r)) ≠ none) ∧
  ∀ r ∈ rs, ∀ s ∈ rs, hash (ascending (wordAt log r)) = hash (ascending (wordAt log s)) →
    SameSet (wordAt log r) (wordAt log s)

/-- The sub-array is the first in the list with its set of classes. -/
def FirstOfSet (log : List (List Nat)) (rs : List RepeatSet) (r : RepeatSet) : Prop :=
  ∃ k : Nat, rs[k]? = some r ∧ ∀ j < k, ∀ x, rs[j]? = some x → ¬ SameSet (wordAt log x) (wordAt log r)

/-- By trace, then by start, then by length. -/
def PlacedBefore (a b : RepeatSet) : Prop :=
  a.traceIndex < b.traceIndex ∨ (a.traceIndex = b.traceIndex ∧
    (a.firstPos < b.firstPos ∨ (a.firstPos = b.firstPos ∧ a.length < b.length)))

/-- The set of classes of a node strictly contains that of another one. -/
def StrictlyAbove (a b : Rs.RNode) : Prop := (∀ c ∈ b.classes, c ∈ a.classes) ∧ ∃ c ∈ a.classes, c ∉ b.classes

/-- No node of the list has more classes. -/
def OfGreatestSize (ns : List Rs.RNode) (a : Rs.RNode) : Prop := ∀ b ∈ ns, b.classes.length ≤ a.classes.length

/-- The parents a node gets: the nodes strictly above it that are not of the greatest size, and if there are none those of the
greatest size. -/
def ParentOf (ns : List Rs.RNode) (a b : Rs.RNode) : Prop :=
  StrictlyAbove a b ∧ (OfGreatestSize ns a → ∀ d ∈ ns, StrictlyAbove d b → OfGreatestSize ns d)

/-- A node made for a repeat set: its classes are those of the repeat set, each once. -/
structure NodeFor (log : List (List Nat)) (level : Nat) (nameOf : RepeatSet → String) (r : RepeatSet) (n : Rs.RNode) : Prop where
  repeatSet : n.repeatSet = some r
  level : n.level = level
  name : n.name = nameOf r
  nodup : n.classes.Nodup
  classes : SameSet n.classes (wordAt log r)

/-- The number of classes of a repeat set. -/
def classCount (log : List (List Nat)) (r : RepeatSet) : Nat := (wordAt log r).toFinset.card

/-- A pointer can be reached from another one along children. -/
inductive Reaches (ns : List Rs.RNode) : Nat → Nat → Prop
  | refl (p : Nat) : Reaches ns p p
  | step {p q c : Nat} {n : Rs.RNode} : Reaches ns p q → ns[q]? = some n → c ∈ n.children → Reaches ns p c

/-- Every class is once in its node, and the classes of children are strictly inside those of their parents. -/
structure NestedIn (h : Rs.Heap) : Prop where
  nodup : ∀ p, (h p).classes.Nodup
  inside : ∀ p, ∀ c ∈ (h p).children, StrictlyAbove (h p) (h c)

/-- A pointer is reached from another one along one or more children. -/
inductive BelowIn (h : Rs.Heap) : Nat → Nat → Prop
  | child {p c : Nat} : c ∈ (h p).children → BelowIn h p c
  | step {p c x : Nat} : c ∈ (h p).children → BelowIn h c x → BelowIn h p x

/-- The node has all classes of the word. -/
def HasAll (h : Rs.Heap) (p : Nat) (w : List Nat) : Prop := ∀ e ∈ w, e ∈ (h p).classes

/-- What narrowing makes of a node for the classes of a word: the node itself or one below it, with all these classes, and if it is
asked to narrow, with as few classes as possible. -/
structure NarrowedTo (h : Rs.Heap) (kind : Rs.Narrowing) (w : List Nat) (p q : Nat) : Prop where
  below : q = p ∨ BelowIn h p q
  hasAll : HasAll h q w
  same : kind = .dontNarrow ∨ kind = .stayTheSame → q = p
  least : kind = .narrowUp ∨ kind = .narrowDown → ∀ x, BelowIn h p x → HasAll h x w → (h q).classes.length ≤ (h x).classes.length

/-- The interval of an instance. -/
def spanOf (i : Rs.RInstance) : Nat × Nat := (i.startPos, i.length)

/-- The default filter keeps instances of nodes with enough classes that have more than half as many events as the node has classes. -/
def KeptByDefault (h : Rs.Heap) (minEvents : Nat) (i : Rs.RInstance) : Prop :=
  minEvents ≤ (h i.node).classes.length ∧ (h i.node).classes.length < 2 * i.length

instance (h : Rs.Heap) (minEvents : Nat) (i : Rs.RInstance) : Decidable (KeptByDefault h minEvents i) := by
  unfold KeptByDefault; infer_instance

end Ficus.Spec
