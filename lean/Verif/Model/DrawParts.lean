import Verif.Model.Diagrams
import Verif.Model.Labels

/-! Model of the parts that draw diagrams and of their options: pipelines/common.py:9-32,
pipelines/analysis/analysis_parts.py:10-108 and pipelines/analysis/patterns/patterns_parts.py:191-268, 294-368,
patterns_graph_parts.py:61-91. -/

namespace Ficus

/-- A save path given to a part, pipelines/common.py:15: a text or a `SavePathCreator` (serialization/pipeline_parts.py:8). Simplification:
a creator does not raise. -/
inductive SavePath (C : Type)
  | text (path : String)
  | creator (f : C → String)

/-- The fields of `InternalDrawingPipelinePart`, pipelines/common.py:10-20, with their defaults. -/
structure DrawOptions (C : Type) where
  title : Option String := none
  plotLegend : Bool := false
  heightScale : Nat := 1
  widthScale : Nat := 1
  savePath : Option (SavePath C) := none

/-- `_get_save_path`, pipelines/common.py:25-32, and the same in analysis_parts.py:24-26. -/
def getSavePath {C : Type} (o : DrawOptions C) (c : C) : Option String :=
  match o.savePath with
  | none => none
  | some (.text p) => some p
  | some (.creator f) => some (f c)

/-- The values of a context that the drawing parts read, contexts/accessors.py:7-48. Missing values are treated in
Model/Library. The cached colours are in the palette. -/
structure DrawContext (E : Type) where
  log : List (List E)
  activities : List ActTree
  instances : List (List Instance)
  patterns : List (List SubArray)

/-- A diagram that is shown (without a path) or saved, with its title, event_log_analysis.py:177-186. What saving does to the disk
is `saveDiagram` in Model/Files. -/
structure Shown where
  diagram : Diagram
  title : Option String
  path : Option String
  deriving DecidableEq

/-- The end of `_draw_traces_diversity_like_diagram_internal`, event_log_analysis.py:177-186, after the labels. -/
def showDiagram (title path : Option String) (r : Draw (Except PyErr Diagram × Palette)) : Draw (Except PyErr Shown × Palette) :=
  match r with
  | .overflow => .overflow
  | .running => .running
  | .done (.error e, q) => .done (.error e, q)
  | .done (.ok d, q) => .done (.ok { diagram := d, title := title, path := path }, q)

/-- `EventsPlacement.execute`, analysis_parts.py:61-69, hands its `save_path` on as it is. A function in place of a text raises
TypeError in `os.path.dirname`, event_log_analysis.py:183, after the drawing. -/
def showPlain {C : Type} (o : DrawOptions C) (r : Draw (Except PyErr Diagram × Palette)) : Draw (Except PyErr Shown × Palette) :=
  match o.savePath with
  | none => showDiagram o.title none r
  | some (.text p) => showDiagram o.title (some p) r
  | some (.creator _) =>
    match r with
    | .overflow => .overflow
    | .running => .running
    | .done (.error e, q) => .done (.error e, q)
    | .done (.ok _, q) => .done (.error .typeError, q)

/-- The parts: `TracesDiversityDiagram` (analysis_parts.py:10-35), `DrawActivitiesDiagram`, `DrawPatterns`,
`DrawShortActivitiesDiagram` and `DrawFullActivitiesDiagram` (analysis/patterns/patterns_parts.py:191-268), `DrawPlacementOfEvents` and
`EventsPlacement` (analysis_parts.py:48-69, 88-108), `DrawSingleActivityPlacement` (analysis/patterns/patterns_parts.py:345-368). -/
inductive DrawPart (E : Type)
  | diversity
  | activities (short : Bool)
  | patterns (short : Bool)
  | shortActivities
  | fullActivities
  | placement (predicate : String → Bool)
  | concrete (events : List String)
  | single (select : List ActTree → ActTree) (different : Bool)

variable {E : Type} [HasName E]

/-- The names of the events of a log, event_log_analysis.py:213. -/
def logNames (log : List (List E)) : List (List String) := log.map (List.map name)

/-- `DrawActivitiesDiagram.execute`, analysis/patterns/patterns_parts.py:202-213, with patterns_graphs.py:20-41. -/
def drawActivitiesPart (short : Bool) (o : DrawOptions (DrawContext E)) (c : DrawContext E) (p : Palette) :
    Draw (Except PyErr Shown × Palette) :=
  showDiagram o.title (getSavePath o c)
    (activityDiagram p (c.log.map List.length) c.instances short o.plotLegend o.heightScale o.widthScale)

/-- `execute` of the parts: analysis_parts.py:23-35 (`diversity`), analysis/patterns/patterns_parts.py:202-213, 227-238 and 241-268 (activities and
patterns), analysis_parts.py:99-108 (`placement`, without `width_scale`), 61-69 with event_log_analysis.py:286-296 (`concrete`,
which has no `width_scale`), analysis/patterns/patterns_parts.py:358-368 (`single`, without `width_scale`). `hash` is the hash of an event. -/
def DrawPart.execute (hash : E → Int) (part : DrawPart E) (o : DrawOptions (DrawContext E)) (c : DrawContext E) (p : Palette) :
    Draw (Except PyErr Shown × Palette) :=
  match part with
  | .diversity => showDiagram o.title (getSavePath o c)
      (diversityDiagram p (logNames c.log) o.plotLegend o.heightScale o.widthScale)
  | .activities short => drawActivitiesPart short o c p
  | .shortActivities => drawActivitiesPart true o c p
  | .fullActivities => drawActivitiesPart false o c p
  | .patterns short => showDiagram o.title (getSavePath o c)
      (patternsDiagram hash p c.log c.patterns short o.plotLegend o.heightScale o.widthScale)
  | .placement predicate => showDiagram o.title (getSavePath o c)
      (placementsDiagram p (logNames c.log) predicate o.plotLegend o.heightScale)
  | .concrete events => showPlain o
      (placementsDiagram p (logNames c.log) (fun n => decide (n ∈ events)) o.plotLegend o.heightScale)
  | .single select different => showDiagram o.title (getSavePath o c)
      (placementDiagram p (c.log.map List.length) (select c.activities).act.name c.instances different o.plotLegend o.heightScale)

/-- The fields of `DrawActivitiesGraphByEventClassLevels`, patterns_graph_parts.py:62-74, without the setter of attributes and
with the default mutator of paths. -/
structure LevelsPart where
  savePath : Option String := none
  useHashes : Bool := true
  addRoot : Bool := true
  creator : Activity → String := fun a => a.name

/-- `DrawActivitiesGraphByEventClassLevels.execute`, patterns_graph_parts.py:76-91. -/
def LevelsPart.execute (viz : Viz) (part : LevelsPart) (acts : List ActTree) : FileOp (List (List DotStmt)) :=
  drawLevels viz part.creator part.addRoot part.savePath acts

end Ficus
