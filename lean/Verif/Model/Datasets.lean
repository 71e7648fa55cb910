import Verif.Model.Py
import Verif.Model.Colors
import Verif.Model.Activity

/-! Model of the datasets received from the backend and of their pictures: src/python/ficus/grpc_pipelines/
context_values.py:218-245, grpc_pipelines/activities_parts.py:283-312 and 510-516, legacy/analysis/
event_log_analysis.py:370-539.

Numbers of the matrix have an arbitrary type `F`, coordinates an arbitrary type `P`. The projections of sklearn (PCA,
Isomap, MDS, TSNE) are one parameter `embed`. pandas frames are modelled by `Frame`; what is assumed of pandas is written
at `Frame.ofRows`, `Frame.setColumn`, `Frame.valuesWithout`. -/

namespace Ficus

/-- `GrpcDataset`, protos/pm_models.proto:106-110, with the matrix as the list of its rows. -/
structure GrpcData (F : Type) where
  rows : List (List F)
  columns : List String
  rowNames : List String
  deriving DecidableEq

/-- `GrpcLabeledDataset`, protos/pm_models.proto:112-116. -/
structure GrpcLabeled (F : Type) where
  dataset : GrpcData F
  labels : List Int
  colors : List Rgb
  deriving DecidableEq

/-- A cell of a frame: a number of the matrix, a label, or a missing value (`NaN` or `None`). -/
inductive Cell (F : Type)
  | num (x : F)
  | label (l : Int)
  | missing
  deriving DecidableEq

/-- `pd.DataFrame`: the names of the rows and the columns, every column with one cell per row. -/
structure Frame (F : Type) where
  index : List String
  columns : List (String × List (Cell F))
  deriving DecidableEq

namespace Frame
variable {F : Type}

/-- `pd.DataFrame(data, columns=columns, index=index)` for a list of rows, context_values.py:235. Assumed of pandas: no rows
give a frame full of missing values; otherwise the width of the longest row must be the number of columns and the number
of rows must be the length of the index, else ValueError; a shorter row is filled with missing values. -/
def ofRows (data : List (List F)) (columns index : List String) : Except PyErr (Frame F) :=
  if data = [] then .ok { index := index, columns := columns.map (fun c => (c, index.map (fun _ => Cell.missing))) }
  else if (data.map List.length).foldl max 0 ≠ columns.length then .error .valueError
  else if data.length ≠ index.length then .error .valueError
  else .ok { index := index
             columns := columns.zipIdx.map (fun c =>
               (c.1, data.map (fun r => (r[c.2]?).elim Cell.missing Cell.num))) }

/-- `df[name] = values`, context_values.py:244. Assumed of pandas: a frame without rows first gets as many rows, named
0, 1, ..., as there are values; otherwise a different length raises ValueError; a column of that name is replaced, a new one
is added at the end. -/
def setColumn (f : Frame F) (name : String) (values : List (Cell F)) : Except PyErr (Frame F) :=
  let f : Frame F :=
    if f.index = [] then
      { index := (List.range values.length).map toString
        columns := f.columns.map (fun c => (c.1, values.map (fun _ => Cell.missing))) }
    else f
  if values.length ≠ f.index.length then .error .valueError
  else if name ∈ f.columns.map Prod.fst then
    .ok { f with columns := f.columns.map (fun c => if c.1 = name then (c.1, values) else c) }
  else .ok { f with columns := f.columns ++ [(name, values)] }

/-- The cells of row `i`. -/
def row (cols : List (String × List (Cell F))) (i : Nat) : List (Cell F) :=
  cols.map (fun c => (c.2[i]?).getD .missing)

/-- `get_values_to_visualize`, event_log_analysis.py:418-422: the matrix of the frame without the columns named
`label_column`. -/
def valuesWithout (f : Frame F) : Option String → List (List (Cell F))
  | some l => (List.range f.index.length).map (row (f.columns.filter (fun c => c.1 ≠ l)))
  | none => (List.range f.index.length).map (row f.columns)

/-- `df[name].to_numpy()` for a column of labels, event_log_analysis.py:459; KeyError for an unknown name. A frame with two
columns of that name is not modelled (the first one is taken), nor are cells other than labels in that column (read as 0).
Neither occurs after `setColumn` on a frame with different column names. -/
def labelsOf (f : Frame F) (name : String) : Except PyErr (List Int) :=
  match f.columns.find? (fun c => c.1 = name) with
  | some c => .ok (c.2.map (fun x => match x with | .label l => l | _ => 0))
  | none => .error .keyError

end Frame

/-- `from_grpc_ficus_dataset`, context_values.py:218-235. -/
def fromGrpcDataset {F : Type} (d : GrpcData F) : Except PyErr (Frame F) :=
  Frame.ofRows d.rows d.columns d.rowNames

/-- `const_cluster_labels`, constants.py:119. -/
def clusterLabels : String := "cluster_labels"

/-- `from_grpc_labeled_dataset`, context_values.py:238-245. -/
def fromGrpcLabeled {F : Type} (d : GrpcLabeled F) : Except PyErr (Frame F) := do
  let df ← fromGrpcDataset d.dataset
  df.setColumn clusterLabels (d.labels.map Cell.label)

/-- `NComponents`, event_log_analysis.py:370-373. -/
inductive NComponents
  | one
  | two
  | three
  deriving DecidableEq

/-- The values of `NComponents`, event_log_analysis.py:370-373. -/
def NComponents.value : NComponents → Nat
  | .one => 1
  | .two => 2
  | .three => 3

/-- `DatasetVisualizationMethod`, event_log_analysis.py:376-380, and `other` for any other object. -/
inductive VisMethod
  | pca
  | isomap
  | mds
  | tsne
  | other
  deriving DecidableEq

/-- One call of matplotlib made while a dataset is drawn. -/
inductive Stroke (P : Type)
  | figure (threeD : Bool) (size : Nat × Nat)
  | scatter (coordinates : List (List P)) (style : Option (String × String))
  | legend (columns : Nat)
  | axis (i : Nat) (text : String) (fontSize : Nat)
  | view (a b : Int)
  | show
  | save (path : String)
  | close
  deriving DecidableEq

/-- The calls made so far and the exception that ended them, if any. -/
abbrev Plot (P : Type) := List (Stroke P) × Option PyErr

/-- One statement after another: an exception ends both. This models the python language. -/
def Plot.andThen {P : Type} (p q : Plot P) : Plot P :=
  match p.2 with
  | some _ => p
  | none => (p.1 ++ q.1, q.2)

/-- A computation without drawing followed by drawing. This models the python language. -/
def Plot.withValue {P A : Type} (r : Except PyErr A) (k : A → Plot P) : Plot P :=
  match r with
  | .error e => ([], some e)
  | .ok a => k a

/-- How a dataset is to be drawn: the settings of the parts, activities_parts.py:260-281. -/
structure VisConfig where
  components : NComponents
  method : VisMethod
  figSize : Nat × Nat
  view : Int × Int
  fontSize : Nat
  legendCols : Nat
  savePath : Option String
  deriving DecidableEq

section draw
variable {F P : Type} [Zero P]

/-- `[result[:, i] for i in range(n)]`, event_log_analysis.py:437 and 508: the columns of the projected matrix; IndexError when
it has fewer. -/
def columnsOf (n : Nat) (result : List (List P)) : Except PyErr (List (List P)) :=
  (List.range n).mapM (fun i => result.mapM (fun r =>
    match r[i]? with
    | some x => .ok x
    | none => .error .indexError))

/-- `len(components) == 1`: a second coordinate 0 is added, event_log_analysis.py:453-454. -/
def padComponents (components : List (List P)) : List (List P) :=
  match components with
  | [c] => [c, (List.range c.length).map (fun _ => 0)]
  | cs => cs

/-- `np.where(y == label)`, event_log_analysis.py:462: the positions of the label. -/
def positionsOf (y : List Int) (label : Int) : List Nat :=
  (List.range y.length).filter (fun i => y[i]? = some label)

/-- `components[i][ix]`, event_log_analysis.py:465: the entries at the given positions; IndexError outside the array. -/
def takePositions (c : List P) (ix : List Nat) : Except PyErr (List P) :=
  ix.mapM (fun i =>
    match c[i]? with
    | some x => .ok x
    | none => .error .indexError)

/-- `colors[label].to_hex() if label in colors else '#FFFFFF'`, event_log_analysis.py:463. -/
def labelColor (colors : Dict Int Rgb) (label : Int) : String :=
  match colors.get? label with
  | some c => toHex c
  | none => "#FFFFFF"

/-- One round of the loop over the labels, event_log_analysis.py:461-466. -/
def scatterLabel (components : List (List P)) (colors : Dict Int Rgb) (y : List Int) (label : Int) : Plot P :=
  Plot.withValue (components.mapM (fun c => takePositions c (positionsOf y label))) (fun selected =>
    ([.scatter selected (some (labelColor colors label, "CLUSTER_" ++ toString label))], none))

/-- The loop over `np.unique(y)` (the different labels in increasing order), event_log_analysis.py:461-466. -/
def scatterLabels (components : List (List P)) (colors : Dict Int Rgb) (y : List Int) : List Int → Plot P
  | [] => ([], none)
  | l :: ls => (scatterLabel components colors y l).andThen (scatterLabels components colors y ls)

/-- The names of the axes, event_log_analysis.py:471-477. Only the first three components get one. -/
def axisStrokes (n fontSize : Nat) : List (Stroke P) :=
  (List.range n).filterMap (fun i =>
    if i = 0 then some (.axis 0 "Component 1" fontSize)
    else if i = 1 then some (.axis 1 "Component 2" fontSize)
    else if i = 2 then some (.axis 2 "Component 3" fontSize)
    else none)

/-- `draw_scatter_plot_for_dataset_visualization`, event_log_analysis.py:445-480. -/
def drawScatter (cfg : VisConfig) (df : Frame F) (components : List (List P)) (labelColumn : Option String)
    (colors : Dict Int Rgb) : Plot P :=
  let components := padComponents components
  let clouds : Plot P :=
    match labelColumn with
    | none => ([.scatter components none], none)
    | some l => Plot.withValue (df.labelsOf l) (fun y =>
        (scatterLabels components colors y (sortedSet y)).andThen ([.legend cfg.legendCols], none))
  clouds.andThen
    (axisStrokes components.length cfg.fontSize ++
      (if components.length = 3 then [.view cfg.view.1 cfg.view.2] else []), none)

/-- `visualize_dataset`, event_log_analysis.py:383-399: the figure, the drawing, and at the end the picture is shown, or saved
and closed. -/
def visualizeDataset (cfg : VisConfig) (draw : Plot P) : Plot P :=
  Plot.andThen ([.figure (cfg.components = .three) cfg.figSize], none)
    (draw.andThen
      (match cfg.savePath with
       | none => ([.show], none)
       | some path => ([.save path, .close], none)))

/-- `visualize_dataset_pca` with `draw_pca_results`, event_log_analysis.py:402-442: the projection is computed before the figure
is opened. -/
def visualizePca (cfg : VisConfig) (embed : Nat → List (List (Cell F)) → Except PyErr (List (List P))) (df : Frame F)
    (colors : Dict Int Rgb) (labelColumn : Option String) : Plot P :=
  Plot.withValue (embed cfg.components.value (df.valuesWithout labelColumn)) (fun result =>
    visualizeDataset cfg
      (Plot.withValue (columnsOf cfg.components.value result) (fun components =>
        drawScatter cfg df components labelColumn colors)))

/-- `visualize_dataset_internal`, event_log_analysis.py:496-513, used for Isomap, TSNE and MDS (483-493 and 516-539): the projection
is computed after the figure is opened. -/
def visualizeInternal (cfg : VisConfig) (embed : Nat → List (List (Cell F)) → Except PyErr (List (List P)))
    (df : Frame F) (colors : Dict Int Rgb) (labelColumn : Option String) : Plot P :=
  visualizeDataset cfg
    (Plot.withValue (embed cfg.components.value (df.valuesWithout labelColumn)) (fun result =>
      Plot.withValue (columnsOf cfg.components.value result) (fun components =>
        drawScatter cfg df components labelColumn colors)))

/-- The projections of sklearn: `PCA`, `Isomap`, `MDS`, `TSNE` with the number of components, then `fit_transform`. -/
abbrev Embed (F P : Type) := VisMethod → Nat → List (List (Cell F)) → Except PyErr (List (List P))

/-- `get_visualization_function`, activities_parts.py:299-312, and the call of its result; KeyError for an unknown method. -/
def visualize (embed : Embed F P) (cfg : VisConfig) (df : Frame F) (colors : Dict Int Rgb)
    (labelColumn : Option String) : Plot P :=
  match cfg.method with
  | .pca => visualizePca cfg (embed .pca) df colors labelColumn
  | .isomap => visualizeInternal cfg (embed .isomap) df colors labelColumn
  | .mds => visualizeInternal cfg (embed .mds) df colors labelColumn
  | .tsne => visualizeInternal cfg (embed .tsne) df colors labelColumn
  | .other => ([], some .keyError)

/-- `ClusterizationPartWithVisualization2.execute_callback`, activities_parts.py:283-296. -/
def clusteringCallback (embed : Embed F P) (cfg : VisConfig) (showIt : Bool) (key : String)
    (values : Dict String (GrpcLabeled F)) : Plot P :=
  if !showIt then ([], none)
  else Plot.withValue (values.getE key) (fun dataset =>
    Plot.withValue (fromGrpcLabeled dataset) (fun df =>
      let colors := (dataset.labels.zip dataset.colors).foldl (fun d lc => Dict.set d lc.1 lc.2) ([] : Dict Int Rgb)
      visualize embed cfg df colors (some clusterLabels)))

/-- `VisualizeTracesActivities2.execute_callback`, activities_parts.py:510-516. -/
def tracesCallback (embed : Embed F P) (cfg : VisConfig) (key : String) (values : Dict String (GrpcData F)) : Plot P :=
  Plot.withValue (values.getE key) (fun dataset =>
    Plot.withValue (fromGrpcDataset dataset) (fun df => visualize embed cfg df [] none))

end draw

end Ficus
