import Verif.Model.DrawParts
import Verif.Spec.Diagrams

/-! Specification vocabulary for the options of drawing parts. -/

namespace Ficus.Spec

/-- What the options on the legend and the scales mean for a diagram of traces of the given lengths: there is a legend exactly if
it is wanted; all rectangles lie in rows of the given height, one for each trace; their widths are multiples of the width
of an event; and the axes end with the number of traces and the greatest length, at the ends of the rows. -/
structure Scaled (d : Diagram) (lengths : List Nat) (legend : Bool) (hs ws : Nat) : Prop where
  legend : d.legend.isSome = legend
  rows : ∀ r ∈ d.rects, r.h = hs ∧ ∃ k < lengths.length, r.y = k * hs
  widths : ∀ r ∈ d.rects, ws ∣ r.w
  bottom : Axis d.yLabels (lengths.length * hs) lengths.length
  right : ∃ m ∈ lengths, (∀ n ∈ lengths, n ≤ m) ∧ Axis d.xLabels (m * ws) m

/-- The part shows every event, or in a short diagram every activity or pattern, in the same width. -/
def SameWidths {E : Type} : DrawPart E → Bool
  | .diversity | .shortActivities | .placement _ | .concrete _ => true
  | .activities short | .patterns short => short
  | .fullActivities | .single _ _ => false

/-- The parts that have the option of a width and do not use it. -/
def IgnoresWidth {E : Type} : DrawPart E → Bool
  | .placement _ | .single _ _ => true
  | _ => false

/-- `EventsPlacement` has no option of a width. -/
def HasWidth {E : Type} : DrawPart E → Bool
  | .concrete _ => false
  | _ => true

/-- The part takes the save path that is given: `EventsPlacement` takes only texts. -/
def TakesPath {E : Type} (part : DrawPart E) (o : DrawOptions (DrawContext E)) : Prop :=
  ∀ events, part = .concrete events → ∀ f, o.savePath ≠ some (.creator f)

end Ficus.Spec
