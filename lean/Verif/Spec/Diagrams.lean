import Verif.Model.Diagrams
import Verif.Spec.Abstraction
import Mathlib.Algebra.Order.Ring.Defs

/-! Specification vocabulary for diagrams: which colour is seen at a point. -/

namespace Ficus.Spec
variable {K : Type} [LE K] [LT K] [Add K] [DecidableLE K] [DecidableLT K]

/-- The point is in the rectangle; the left and the lower border belong to it, the other two do not. -/
def Has (px py : K) (r : Rect K) : Bool :=
  decide (r.x ≤ px) && decide (px < r.x + r.w) && decide (r.y ≤ py) && decide (py < r.y + r.h)

/-- The rectangles that contain the point, in the order of drawing. -/
def hits (rs : List (Rect K)) (px py : K) : List (Rect K) := rs.filter (Has px py)

/-- The colour seen at a point: that of the last drawn rectangle that contains it. -/
def colorAt (rs : List (Rect K)) (px py : K) : Option String := (hits rs px py).getLast?.map (·.color)

/-- The filled rectangles of a canvas. -/
def fills (ops : List CanvasOp) : List (Rect ℚ) := ops.filterMap (fun
  | .fillRect r => some r
  | _ => none)

/-- The texts on a canvas. -/
def texts (ops : List CanvasOp) : List String := ops.filterMap (fun
  | .fillText s _ _ => some s
  | _ => none)

/-- The number of events that the rectangles stand for. -/
def total (t : List CRect) : Nat := (t.map (·.length)).sum

/-- The rectangle lies inside an area given by its corners. -/
def Inside (r : Rect K) (x0 y0 x1 y1 : K) : Prop := x0 ≤ r.x ∧ r.x + r.w ≤ x1 ∧ y0 ≤ r.y ∧ r.y + r.h ≤ y1

/-- The height above the rows of a canvas. -/
def topSpace (title : Option String) : ℚ := if title.isSome then 20 else 10

/-- The names of the rectangles, in the order of their first occurrence. -/
def rectNames (log : List (List CRect)) : List String := (log.flatten.map (·.name)).eraseDups

/-- One piece of a row of a diagram. A piece without label is not in the legend. -/
structure Piece where
  width : Nat
  color : String
  label : Option String
  deriving DecidableEq

/-- Where piece `j` of a row begins. -/
def leftOf (row : List Piece) (j : Nat) : Nat := ((row.take j).map (·.width)).sum

/-- The rectangles show the rows, one above the other and each of height `hs`, and nothing else: a colour is seen at a
point exactly if the point is in a piece of this colour. -/
def Shows (rects : List (Rect Nat)) (hs : Nat) (cells : List (List Piece)) : Prop :=
  ∀ px py c, colorAt rects px py = some c ↔ ∃ (k : Nat) (row : List Piece) (j : Nat) (cell : Piece),
    cells[k]? = some row ∧ row[j]? = some cell ∧ cell.color = c ∧ leftOf row j ≤ px ∧ px < leftOf row j + cell.width ∧
    k * hs ≤ py ∧ py < (k + 1) * hs

/-- The legend has the labels in the order of their first occurrence, each with the colour of its last piece. -/
def Explains (legend : Dict String (Rect Nat)) (cells : List (List Piece)) : Prop :=
  legend.keys = (cells.flatten.filterMap (·.label)).eraseDups ∧
  ∀ n, (legend.get? n).map (·.color) = ((cells.flatten.filter (fun c => c.label == some n)).getLast?).map (·.color)

/-- The labels of an axis: `0` at the start, the number at the given place, which is the last, and nothing between. -/
def Axis (labels : List String) (place number : Nat) : Prop :=
  ∀ i : Nat, labels[i]? = if i = place then some (toString number) else if i < place then some (if i = 0 then "0" else "")
    else none

/-- A part of a trace: a sub trace or a gap. -/
structure TracePart where
  start : Nat
  length : Nat
  sub : Option SubTrace

/-- The interval of a sub trace. -/
def subSpanOf (d : SubTrace) : Nat × Nat := (d.start, d.length)

/-- The parts of a trace of length `n`: the given sub traces, in their order, and the maximal gaps between them; every
position is in exactly one part. -/
structure Segments (n : Nat) (ds : List SubTrace) (segs : List TracePart) : Prop where
  tiles : segs.flatMap (fun s => List.range' s.start s.length) = List.range n
  subs : segs.filterMap (·.sub) = ds
  places : ∀ s ∈ segs, ∀ d, s.sub = some d → s.start = d.start ∧ s.length = d.length
  gaps : ∀ s ∈ segs, s.sub = none → 0 < s.length ∧
    (∀ i, s.start ≤ i → i < s.start + s.length → ¬ Covered (ds.map subSpanOf) i) ∧
    (s.start = 0 ∨ Covered (ds.map subSpanOf) (s.start - 1)) ∧
    (s.start + s.length = n ∨ Covered (ds.map subSpanOf) (s.start + s.length))

/-- The piece for a part of a trace of length `n`, given the colours of sub traces and of gaps. In the short diagram all
pieces have the same width. A gap at the end of a trace that has sub traces is not in the legend. -/
def segCell (short : Bool) (ws n : Nat) (col : SubTrace → String) (gap : String) (anySub : Bool) (s : TracePart) : Piece :=
  { width := if short then ws else ws * s.length
    color := match s.sub with
      | some d => col d
      | none => gap
    label := match s.sub with
      | some d => some d.name
      | none => if anySub && s.start + s.length == n then none else some "UndefinedActivity" }

/-- The row of a trace of length `n` with the given sub traces; an empty trace has one piece, which has a width only in
the short diagram. -/
def IsRow (short : Bool) (ws : Nat) (col : SubTrace → String) (gap : String) (n : Nat) (ds : List SubTrace)
    (row : List Piece) : Prop :=
  (n = 0 → row = [{ width := if short then ws else 0, color := gap, label := some "UndefinedActivity" }]) ∧
  (0 < n → ∃ segs, Segments n ds segs ∧ row = segs.map (segCell short ws n col gap (!ds.isEmpty)))

end Ficus.Spec
