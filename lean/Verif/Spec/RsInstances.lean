import Verif.Model.RsInstances
import Verif.Spec.RsActivities
import Verif.Spec.Extract
import Verif.Spec.RsMutations

/-! Specifications for what the backend makes of activity instances. -/

namespace Ficus.Spec
open Ficus

/-- The parts of `[0, n)` before, between and after intervals, given by their first position and the one after the last. -/
def gapBounds (n : Nat) (l : List (Nat × Nat)) : List (Nat × Nat) :=
  (0 :: l.map (fun p => p.1 + p.2)).zip (l.map Prod.fst ++ [n])

/-- The elements of a list from one position on before another one. -/
def between {A : Type} (t : List A) (b : Nat × Nat) : List A := (t.drop b.1).take (b.2 - b.1)

/-- The words at intervals. -/
def blocks {A : Type} (t : List A) (l : List (Nat × Nat)) : List (List A) := l.map (fun p => (t.drop p.1).take p.2)

/-- A gap, a block, the next gap, the next block and so on. -/
def weave {A : Type} : List (List A) → List (List A) → List A
  | [], bs => bs.flatten
  | g :: gs, [] => g ++ gs.flatten
  | g :: gs, b :: bs => g ++ (b ++ weave gs bs)

/-- What a strategy leaves of a gap. -/
def remainsOf {E : Type} (s : Rs.Strategy E) (gap : List (Rs.Nested E)) : List (Rs.Nested E) :=
  match s with
  | .dontInsert => []
  | .insertAsSingleEvent e => if gap = [] then [] else [.atom e]
  | .insertAllEvents => gap

/-- An instance further to the right. -/
def movedBy (k : Nat) (i : Rs.RInstance) : Rs.RInstance := ⟨i.node, k + i.startPos, i.length⟩

/-- The elements at the positions that are in none of the intervals. -/
noncomputable def outsideAll {A : Type} (t : List A) (l : List (Nat × Nat)) : List A :=
  open scoped Classical in (t.zipIdx.filter (fun x => decide (¬ Covered l x.2))).map Prod.fst

/-- The words of the instances of a level with a name, in their order. -/
def wordsNamed {A : Type} (h : Rs.Heap) (level : Nat) (n : String) (ps : List (List Rs.RInstance × List A)) : List (List A) :=
  ps.flatMap (fun p => (p.1.filter (fun i => (h i.node).level = level ∧ (h i.node).name = n)).map
    (fun i => (p.2.drop i.startPos).take i.length))

/-- The underlying events of the events with a name that have some, in their order. -/
def underlyingNamed {E : Type} [HasName E] (n : String) : List (Rs.Nested E) → List (List (Rs.Nested E))
  | [] => []
  | .atom _ :: l => underlyingNamed n l
  | .over e u :: l => if name e = n then u :: underlyingNamed n l else underlyingNamed n l

/-- A log if there is a trace. -/
def logOf {A : Type} (ts : List (List A)) : Option (List (List A)) := if ts.isEmpty then none else some ts

end Ficus.Spec
