import Verif.Model.RsInfo
import Mathlib.Data.List.Sort
import Mathlib.Order.Defs.LinearOrder

/-! Model of the tree of intervals, /repo/src/rust/ficus_backend/src/utils/interval_tree: interval_tree.rs (called tree.rs here),
interval.rs and node.rs. Elements are of any linearly ordered type, data of any type with equality. -/

namespace Ficus.Rs.Itv

/-- `Interval`, interval.rs:3-12. -/
structure Interval (α δ : Type) where
  left : α
  right : α
  data : Option δ
  deriving DecidableEq

/-- `Node`, node.rs:5-14. -/
structure Node (α δ : Type) where
  leftChild : Option Nat
  rightChild : Option Nat
  center : α
  intervals : List (Interval α δ)
  deriving DecidableEq

/-- `ChildOrientation`, tree.rs:19-22. -/
inductive Side
  | left
  | right
  deriving DecidableEq

/-- `IntervalTree`, tree.rs:7-17; the creator of ranges is a parameter where it is used. -/
structure Tree (α δ : Type) where
  nodes : List (Node α δ)
  boundaries : List α
  deriving DecidableEq

/-- What comes of the loop of `new`: a tree, a panic, or the loop goes on. -/
inductive Outcome (α δ : Type)
  | tree (t : Tree α δ)
  | panic
  | more
  deriving DecidableEq

variable {α δ : Type} [LinearOrder α] [DecidableEq δ]

/-- `contains`, interval.rs:44-46. -/
def Interval.contains (x : Interval α δ) (point : α) : Bool := decide (x.left ≤ point) && decide (point ≤ x.right)

/-- `sort_by` with the left ends, tree.rs:49 and 139; it is stable. -/
def sortLeft (l : List (Interval α δ)) : List (Interval α δ) := l.insertionSort (fun x y => x.left ≤ y.left)

/-- `nodes[parent].left_child = Some(node_index)` or the same for the right child, tree.rs:72-77. -/
def setChild (nodes : List (Node α δ)) (parent : Option (Nat × Side)) (index : Nat) : List (Node α δ) :=
  match parent with
  | none => nodes
  | some (i, .left) => nodes.modify i (fun n => { n with leftChild := some index })
  | some (i, .right) => nodes.modify i (fun n => { n with rightChild := some index })

/-- An entry of the queue, if there are intervals for it, tree.rs:80-86. -/
def pending (index : Nat) (side : Side) (l : List (Interval α δ)) : List (Option (Nat × Side) × List (Interval α δ)) :=
  if 0 < l.length then [(some (index, side), l)] else []

/-- The loop of `new`, tree.rs:47-94: `fuel` bounds the rounds. -/
def build : Nat → List (Node α δ) → List α → List (Option (Nat × Side) × List (Interval α δ)) → Outcome α δ
  | _, nodes, boundaries, [] => .tree ⟨nodes, boundaries⟩
  | 0, _, _, _ :: _ => .more
  | fuel + 1, nodes, boundaries, (parent, l) :: queue =>
    let l := sortLeft l
    match l[l.length / 2]? with
    | none => .panic
    | some median =>
      let center := median.left
      let lefts := l.filter (fun x => decide (x.right < center))
      let rights := l.filter (fun x => !decide (x.right < center) && decide (center < x.left))
      let mids := l.filter (fun x => !decide (x.right < center) && !decide (center < x.left))
      build fuel (setChild nodes parent nodes.length ++ [⟨none, none, center, mids⟩])
        (boundaries ++ l.flatMap (fun x => [x.left, x.right]))
        (queue ++ (pending nodes.length .left lefts ++ pending nodes.length .right rights))

/-- `new`, tree.rs:31-94. -/
def new (fuel : Nat) (intervals : List (Interval α δ)) : Outcome α δ := build fuel [] [] [(none, intervals)]

/-- `insert` of a set. -/
def addTo (result : List (Interval α δ)) (x : Interval α δ) : List (Interval α δ) := if x ∈ result then result else result ++ [x]

/-- `search_internal`, tree.rs:153-172: `none` is a panic. The children are searched once for each interval of a node. `fuel` bounds the
depth. -/
def search (nodes : List (Node α δ)) (point : α) : Nat → Nat → List (Interval α δ) → Option (List (Interval α δ))
  | 0, _, _ => none
  | fuel + 1, i, result =>
    match nodes[i]? with
    | none => none
    | some node => node.intervals.foldlM (fun result x => do
        let result := if x.contains point then addTo result x else result
        let result ← match node.leftChild with
          | some c => if point < node.center then search nodes point fuel c result else some result
          | none => some result
        match node.rightChild with
          | some c => if node.center < point then search nodes point fuel c result else some result
          | none => some result) result

/-- The depth is less than the number of nodes. -/
def Tree.search (t : Tree α δ) (point : α) (result : List (Interval α δ)) : Option (List (Interval α δ)) :=
  Itv.search t.nodes point t.nodes.length 0 result

/-- `to_ordered_vec`, tree.rs:134-142. -/
def ordered (it : Iter) (set : List (Interval α δ)) : List (Interval α δ) := sortLeft (it.order "to_ordered_vec" 0 set)

/-- `search_overlaps_for_point`, tree.rs:96-101. -/
def Tree.forPoint (it : Iter) (t : Tree α δ) (point : α) : Option (List (Interval α δ)) := (t.search point []).map (ordered it)

/-- `search_envelopes`, tree.rs:103-132. `binarySearch` of rust may give any position of an element.
The boundaries stay sorted in the tree; sorting them again changes nothing, so the tree is left as it is here. -/
def Tree.envelopes (it : Iter) (binarySearch : List α → α → Nat) (t : Tree α δ) (left right : α) : Option (List (Interval α δ)) :=
  if right ≤ left then some [] else do
    let result ← t.search left []
    let boundaries := t.boundaries.insertionSort (· ≤ ·)
    let first := binarySearch boundaries left
    let last := binarySearch boundaries right
    if first ≤ last ∧ last ≤ boundaries.length then
      let result ← ((boundaries.take last).drop first).foldlM (fun result x => t.search x result) result
      return ordered it (result.filter (fun x => decide (left ≤ x.left) && decide (x.right ≤ right)))
    else none

/-- `search_overlaps_for_interval`, tree.rs:144-151; `range` is what the creator of ranges gives. -/
def Tree.forRange (it : Iter) (t : Tree α δ) (range : List α) : Option (List (Interval α δ)) :=
  (range.foldlM (fun result x => t.search x result) []).map (ordered it)

end Ficus.Rs.Itv
