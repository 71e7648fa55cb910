import Verif.Model.Datasets
import Verif.Spec.Nets

/-! What the pictures of datasets are expected to show (property C85). -/

namespace Ficus.Spec
open Ficus

variable {F P : Type}

/-- A table: every row has one number per column, every row has one name. -/
def IsTable (d : GrpcData F) : Prop :=
  (∀ r ∈ d.rows, r.length = d.columns.length) ∧ d.rowNames.length = d.rows.length

instance (d : GrpcData F) : Decidable (IsTable d) := inferInstanceAs (Decidable (_ ∧ _))

/-- The longest row has `n` numbers. -/
def IsWidth (rows : List (List F)) (n : Nat) : Prop := (∀ r ∈ rows, r.length ≤ n) ∧ ∃ r ∈ rows, r.length = n

/-- The numbers of a dataset, row by row. -/
def numbers (d : GrpcData F) : List (List (Cell F)) := d.rows.map (List.map Cell.num)

/-- The numbers of a dataset without those of the columns called `name`. -/
def numbersWithout (d : GrpcData F) (name : String) : List (List (Cell F)) :=
  d.rows.map (fun r => ((d.columns.zip r).filter (fun c => c.1 ≠ name)).map (fun c => Cell.num c.2))

/-- The result of a projection: one point for every row, with `n` coordinates. -/
def IsProjection (n rows : Nat) (coords : List (List P)) : Prop :=
  coords.length = rows ∧ ∀ c ∈ coords, c.length = n

/-- A point as it is drawn: a single coordinate gets a second one, 0. -/
def drawn [Zero P] : List P → List P
  | [x] => [x, 0]
  | c => c

/-- The points of a call of `scatter`, which is given one list per axis. -/
def points : List (List P) → List (List P)
  | [] => []
  | c :: cs => (List.range c.length).map (fun i => (c :: cs).filterMap (fun axis => axis[i]?))

/-- A call of `scatter` as its points and its colour and text in the legend. -/
def cloud? : Stroke P → Option (List (List P) × Option (String × String))
  | .scatter cs s => some (points cs, s)
  | _ => none

/-- All calls of `scatter`. -/
def clouds (l : List (Stroke P)) : List (List (List P) × Option (String × String)) := l.filterMap cloud?

/-- Everything else that is drawn. -/
def furniture (l : List (Stroke P)) : List (Stroke P) := l.filter (fun s => (cloud? s).isNone)

/-- The colour sent last for a label; white when there is none. -/
def colorFor (labels : List Int) (colors : List Rgb) (l : Int) : String :=
  match lastWith Prod.fst (labels.zip colors) l with
  | some c => toHex c.2
  | none => "#FFFFFF"

/-- The points of the rows that have the label, in the order of the rows. -/
def pointsWith [Zero P] (labels : List Int) (coords : List (List P)) (l : Int) : List (List P) :=
  ((labels.zip coords).filter (fun p => p.1 = l)).map (fun p => drawn p.2)

/-- The names of the axes. -/
def axisNames (n : NComponents) (fontSize : Nat) : List (Stroke P) :=
  match n with
  | .three => [.axis 0 "Component 1" fontSize, .axis 1 "Component 2" fontSize, .axis 2 "Component 3" fontSize]
  | _ => [.axis 0 "Component 1" fontSize, .axis 1 "Component 2" fontSize]

/-- The position of the viewer, for three dimensions only. -/
def viewer (cfg : VisConfig) : List (Stroke P) :=
  match cfg.components with
  | .three => [.view cfg.view.1 cfg.view.2]
  | _ => []

/-- What happens with the finished picture. -/
def finish (cfg : VisConfig) : List (Stroke P) :=
  match cfg.savePath with
  | none => [.show]
  | some path => [.save path, .close]

/-- The figure that is opened. -/
def opened (cfg : VisConfig) : Stroke P := .figure (cfg.components = .three) cfg.figSize

end Ficus.Spec
