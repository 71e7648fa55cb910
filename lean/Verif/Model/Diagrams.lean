import Verif.Model.Colors
import Verif.Model.Extract
import Mathlib.Algebra.Order.Field.Rat

/-! Model of the diagrams of logs: analysis/event_log_analysis.py:105-327, analysis/event_log_analysis_canvas.py,
analysis/patterns/patterns_graphs.py:20-157, 240-291 and 305-333, and of the logs of colours that arrive from the backend,
grpc_pipelines/context_values.py:128-146 with the callbacks of grpc_pipelines/grpc_pipelines.py:139-184.
What `matplotlib` and `ipycanvas` do with the rectangles, labels and texts is not modelled. -/

namespace Ficus

/-- `plt.Rectangle((x, y), w, h, fc=color)`, or a filled rectangle of a canvas; `K` is the type of coordinates. -/
structure Rect (K : Type) where
  x : K
  y : K
  w : K
  h : K
  color : String
  deriving DecidableEq

/-- What a `draw_func` adds to its context, event_log_analysis.py:108-122: the rectangles, in the order of drawing, and
`names_to_rects`. -/
structure Picture where
  rects : List (Rect Nat)
  legend : Dict String (Rect Nat)
  deriving DecidableEq

/-- `ColoredRectangle`, event_log_analysis.py:31-36, with `Color`, 21-28; `GrpcColoredRectangle` and `GrpcColor`,
pipelines_and_context.proto:80-85, util.proto:9-13, have the same fields. Simplification: the bounds of `uint32` are left
out. -/
structure CRect where
  color : Rgb
  start : Nat
  length : Nat
  name : String
  deriving DecidableEq

/-- `from_grpc_colored_rectangle` and `from_grpc_color`, context_values.py:140-146. -/
def fromGrpcCRect (r : CRect) : CRect :=
  { color := (r.color.1, r.color.2.1, r.color.2.2), start := r.start, length := r.length, name := r.name }

/-- `from_grpc_colors_log`, context_values.py:128-137. -/
def fromGrpcColorsLog (traces : List (List CRect)) : List (List CRect) :=
  traces.foldl (fun acc t => acc ++ [t.foldl (fun tr r => tr ++ [fromGrpcCRect r]) []]) []

/-! ### Labels of the axes -/

/-- The labels of one axis, event_log_analysis.py:148-151 and 168-170: `count` labels, of which the first and the last are
set. `int((count - 1) / scale)` is computed exactly (python goes through a float). -/
def tickLabels (count scale : Nat) : Except PyErr (List String) :=
  if count = 0 then .error .indexError
  else if scale = 0 then .error .zeroDivision
  else .ok (((List.replicate count "").set 0 "0").set (count - 1) (toString ((count - 1) / scale)))

/-- `max` of a list, which raises ValueError if it is empty. -/
def pyMax : List Nat → Except PyErr Nat
  | [] => .error .valueError
  | x :: xs => .ok (xs.foldl max x)

/-- `x_ticks_count` for a `MyEventLog`, event_log_analysis.py:155-156, given the lengths of the traces. -/
def logTicks (lengths : List Nat) (widthScale : Nat) : Except PyErr Nat := do
  let m ← pyMax lengths
  return m * widthScale + 1

/-- `x_ticks_count` for a list of rectangles, event_log_analysis.py:158-164. -/
def rectTicks (log : List (List CRect)) (widthScale : Nat) : Nat :=
  log.foldl (fun acc t => max acc (t.foldl (fun l r => l + r.length * widthScale) widthScale)) 0

/-- A finished diagram: the picture and the labels of the axes. The legend is `none` if it is not plotted. -/
structure Diagram where
  rects : List (Rect Nat)
  legend : Option (Dict String (Rect Nat))
  xLabels : List String
  yLabels : List String
  deriving DecidableEq

/-- `_draw_traces_diversity_like_diagram_internal`, event_log_analysis.py:140-172, after `draw_func`; `rows` is `len(log)`
and `xTicks` is `x_ticks_count`. -/
def finishDiagram (p : Picture) (plotLegend : Bool) (rows : Nat) (xTicks : Except PyErr Nat) (heightScale widthScale : Nat) :
    Except PyErr Diagram := do
  let y ← tickLabels (rows * heightScale + 1) heightScale
  let n ← xTicks
  let x ← tickLabels n widthScale
  return { rects := p.rects, legend := if plotLegend then some p.legend else none, xLabels := x, yLabels := y }

/-! ### Logs of colours -/

/-- The name in the legend, event_log_analysis.py:253. -/
def legendName (s : String) : String := if s.toList.length > 50 then String.ofList (s.toList.take 50) else s

/-- The loop over one trace, event_log_analysis.py:250-255. -/
def colorsRow (ws hs y : Nat) : List CRect → Nat → Picture → Picture
  | [], _, p => p
  | c :: cs, x, p =>
    let r : Rect Nat := { x := x, y := y, w := ws * c.length, h := hs, color := toHex c.color }
    colorsRow ws hs y cs (x + ws * c.length) { rects := p.rects ++ [r], legend := p.legend.set (legendName c.name) r }

/-- `draw_func` of `draw_colors_event_log`, event_log_analysis.py:245-259. -/
def colorsRows (ws hs : Nat) : List (List CRect) → Nat → Picture → Picture
  | [], _, p => p
  | t :: ts, y, p => colorsRows ws hs ts (y + (hs + 0)) (colorsRow ws hs y t 0 p)

/-- `draw_colors_event_log`, event_log_analysis.py:239-267. -/
def drawColorsLog (log : List (List CRect)) (plotLegend : Bool) (hs ws : Nat) : Except PyErr Diagram :=
  finishDiagram (colorsRows ws hs log 0 { rects := [], legend := [] }) plotLegend log.length (.ok (rectTicks log ws)) hs ws

/-- `PipelinePart2WithDrawColorsLogCallback.execute_callback`, grpc_pipelines.py:153-160. -/
def viewColorsLog (message : List (List CRect)) (plotLegend : Bool) (hs ws : Nat) : Except PyErr Diagram :=
  drawColorsLog (fromGrpcColorsLog message) plotLegend hs ws

/-! ### Canvas -/

/-- Commands to a canvas of `ipycanvas`. Fonts and line styles are left out. -/
inductive CanvasOp
  | fillRect (r : Rect ℚ)
  | fillText (text : String) (x y : ℚ)
  | line (x0 y0 x1 y1 : ℚ)
  deriving DecidableEq

/-- A canvas: its size and the commands in their order. -/
structure CanvasPicture where
  width : ℚ
  height : ℚ
  ops : List CanvasOp

/-- The loop over one trace, event_log_analysis_canvas.py:95-102. -/
def canvasRow (ws hs y : ℚ) : List CRect → ℚ → List CanvasOp
  | [], _ => []
  | c :: cs, x =>
    .fillRect { x := x, y := y, w := c.length * ws, h := hs, color := toHex c.color } :: canvasRow ws hs y cs (x + c.length * ws)

/-- The loop over the traces, event_log_analysis_canvas.py:91-104; 21 is `overall_delta` (line 14). -/
def canvasRows (ws hs : ℚ) : List (List CRect) → ℚ → List CanvasOp
  | [], _ => []
  | t :: ts, y => canvasRow ws hs y t 21 ++ canvasRows ws hs ts (y + hs)

/-- `_draw_actual_traces_diversity_diagram`, event_log_analysis_canvas.py:65-104. -/
def canvasDiagram (log : List (List CRect)) (width height : ℚ) (title : Option String) (titleHeight before : ℚ)
    (maxWidth : Nat) (ws hs : ℚ) : List CanvasOp :=
  [.fillRect { x := 0, y := 0, w := width, h := height, color := "white" }] ++
  (match title with
    | none => []
    | some t => [.fillText t (width / 2) (titleHeight / 2)]) ++
  [.line 15 titleHeight 15 (before - 15), .line 15 (before - 15) width (before - 15),
   .fillText (toString log.length) 0 (10 + titleHeight),
   .fillText (toString maxWidth) (width - 11 / 2 * ((toString maxWidth).toList.length : ℚ)) before] ++
  canvasRows ws hs log titleHeight

/-- `_draw_legend`, event_log_analysis_canvas.py:107-123. -/
def canvasLegend (width before : ℚ) : List (String × String) → Nat → List CanvasOp
  | [], _ => []
  | (name, color) :: rest, index =>
    .fillRect { x := width / 3, y := before + 20 * index, w := 40, h := 20, color := color } ::
    .fillText name (width / 3 + 40 + 10) (before + 20 * index + 20 / (14 / 10)) ::
    canvasLegend width before rest (index + 1)

/-- `names_to_colors`, event_log_analysis_canvas.py:32-36. -/
def canvasColors (log : List (List CRect)) : Dict String String :=
  log.foldl (fun d t => t.foldl (fun d r => d.set r.name (toHex r.color)) d) []

/-- `draw_colors_event_log_canvas`, event_log_analysis_canvas.py:18-58. Simplification: scales are rational numbers
instead of floats. -/
def drawCanvas (log : List (List CRect)) (title : Option String) (plotLegend : Bool) (ws hs : ℚ) :
    Except PyErr CanvasPicture := do
  let maxWidth ← pyMax (log.map (fun t => (t.map (·.length)).sum))
  let titleHeight : ℚ := if title.isSome then 20 else 10
  let before : ℚ := log.length * hs + 21 + titleHeight
  let colors := if plotLegend then some (canvasColors log) else none
  let height : ℚ := before + ((colors.map (fun d => d.length * 20)).getD 0 : Nat)
  let width : ℚ := maxWidth * ws + 21 + 15
  return { width := width, height := height,
           ops := canvasDiagram log width height title titleHeight before maxWidth ws hs ++
             (match colors with
              | none => []
              | some d => canvasLegend width before d 0) }

/-- `PipelinePart2WithCanvasCallback.execute_callback`, grpc_pipelines.py:177-184. -/
def viewCanvas (message : List (List CRect)) (title : Option String) (plotLegend : Bool) (ws hs : ℚ) :
    Except PyErr CanvasPicture :=
  drawCanvas (fromGrpcColorsLog message) title plotLegend ws hs

/-! ### Diagrams of the events of a log -/

/-- The variables of `draw_func` in event_log_analysis.py:205-228 and the state of the colours. -/
structure EventsState where
  picture : Picture
  chosen : Dict String String
  palette : Palette
  deriving DecidableEq

/-- The colour of one event, event_log_analysis.py:214-219, where `provider` gives the colour of a name that is not in
`names_to_colors` and caches it. -/
def eventColor (provider : String → Palette → Draw (String × Palette)) (st : EventsState) (name : String) :
    Draw (String × EventsState) :=
  match st.chosen.get? name with
  | some c => .done (c, st)
  | none =>
    match provider name st.palette with
    | .done (c, q) => .done (c, { st with chosen := st.chosen.set name c, palette := q })
    | .overflow => .overflow
    | .running => .running

/-- The loop over the events of a trace, event_log_analysis.py:212-224; the events are given by their names. -/
def eventsRow (provider : String → Palette → Draw (String × Palette)) (ws hs y : Nat) :
    List String → Nat → EventsState → Draw EventsState
  | [], _, st => .done st
  | name :: names, x, st =>
    match eventColor provider st name with
    | .overflow => .overflow
    | .running => .running
    | .done (c, st) =>
      let r : Rect Nat := { x := x, y := y, w := ws, h := hs, color := c }
      eventsRow provider ws hs y names (x + ws)
        { st with picture := { rects := st.picture.rects ++ [r], legend := st.picture.legend.set name r } }

/-- `draw_func`, event_log_analysis.py:205-228. -/
def eventsRows (provider : String → Palette → Draw (String × Palette)) (ws hs : Nat) :
    List (List String) → Nat → EventsState → Draw EventsState
  | [], _, st => .done st
  | t :: ts, y, st =>
    match eventsRow provider ws hs y t 0 st with
    | .overflow => .overflow
    | .running => .running
    | .done st => eventsRows provider ws hs ts (y + (hs + 0)) st

/-- `_draw_traces_diversity_like_diagram`, event_log_analysis.py:189-236. The state of the colours is returned also if
the labels raise. -/
def eventsDiagram (provider : String → Palette → Draw (String × Palette)) (p : Palette) (log : List (List String))
    (plotLegend : Bool) (hs ws : Nat) : Draw (Except PyErr Diagram × Palette) :=
  match eventsRows provider ws hs log 0 { picture := { rects := [], legend := [] }, chosen := [], palette := p } with
  | .overflow => .overflow
  | .running => .running
  | .done st =>
    .done (finishDiagram st.picture plotLegend log.length (logTicks (log.map List.length) ws) hs ws, st.palette)

/-- `draw_traces_diversity_diagram`, event_log_analysis.py:270-283, with the provider of 200-203 and 217-218. -/
def diversityDiagram (p : Palette) (log : List (List String)) (plotLegend : Bool) (hs ws : Nat) :
    Draw (Except PyErr Diagram × Palette) :=
  eventsDiagram (fun n q => q.colorOf n) p log plotLegend hs ws

/-- `draw_placements_of_events`, event_log_analysis.py:299-326: the names that satisfy the predicate keep their cached
colours, all others are black. The dictionary given as `cached_colors` in 321 is new and always equal to
`names_to_colors`. -/
def placementsDiagram (p : Palette) (log : List (List String)) (predicate : String → Bool) (plotLegend : Bool)
    (hs : Nat) : Draw (Except PyErr Diagram × Palette) :=
  eventsDiagram (fun n q => if predicate n then q.colorOf n else .done ("#000000", q)) p.markBlack log plotLegend hs 1

/-! ### Diagrams of activities -/

/-- `undefined_activity`, patterns/constants.py:2. -/
def undefinedActivity : String := "UndefinedActivity"

/-- `SubTraceDrawingDto`, patterns_graphs.py:75-80. -/
structure SubTrace where
  start : Nat
  length : Nat
  hash : Int
  name : String
  deriving DecidableEq

/-- `colors_provider`, patterns_graphs.py:90-99. -/
def subTraceColor (p : Palette) (name : String) : Draw (String × Palette) :=
  match p.cached.get? name with
  | some c => .done (c, p)
  | none => if name = undefinedActivity then .done (undefinedColor, p) else p.colorOf name

/-- `colors_provider(undefined_activity)`, patterns_graphs.py:90-95: never takes a new colour. -/
def gapColor (p : Palette) : String := (p.cached.get? undefinedActivity).getD undefinedColor

/-- The variables of `_sub_traces_draw_func`, patterns_graphs.py:101-102. -/
structure ActsState where
  picture : Picture
  colors : Dict Int String
  palette : Palette
  deriving DecidableEq

/-- The colour of a sub trace, patterns_graphs.py:131-139. -/
def hashColor (st : ActsState) (d : SubTrace) : Draw (String × ActsState) :=
  match st.colors.get? d.hash with
  | some c => .done (c, st)
  | none =>
    match subTraceColor st.palette d.name with
    | .done (c, q) => .done (c, { st with colors := st.colors.set d.hash c, palette := q })
    | .overflow => .overflow
    | .running => .running

/-- The width of a part of `n` events, patterns_graphs.py:106-108, 120-122, 135-137 and 147-149. -/
def partWidth (short : Bool) (ws n : Nat) : Nat := if short then ws else ws * n

/-- Adds a rectangle and an entry of the legend. -/
def Picture.add (p : Picture) (r : Rect Nat) (name : String) : Picture :=
  { rects := p.rects ++ [r], legend := p.legend.set name r }

/-- The loop over the sub traces of a trace of length `n`, patterns_graphs.py:118-153, with `current_x` and
`last_drew_index`. The last rectangle is not entered into the legend (152-153). -/
def actsRow (short : Bool) (ws hs y n : Nat) : List SubTrace → Nat → Nat → ActsState → Draw ActsState
  | [], x, last, st =>
    .done (if last < n then
      { st with picture := { st.picture with rects := st.picture.rects ++
          [{ x := x, y := y, w := partWidth short ws (n - last), h := hs, color := gapColor st.palette }] } }
      else st)
  | d :: ds, x, last, st =>
    let gap := decide (last < d.start)
    let w := partWidth short ws (d.start - last)
    let gapRect : Rect Nat := { x := x, y := y, w := w, h := hs, color := gapColor st.palette }
    let st1 := if gap then { st with picture := st.picture.add gapRect undefinedActivity } else st
    let x1 := if gap then x + w else x
    match hashColor st1 d with
    | .overflow => .overflow
    | .running => .running
    | .done (c, st2) =>
      let w2 := partWidth short ws d.length
      actsRow short ws hs y n ds (x1 + w2) (d.start + d.length)
        { st2 with picture := st2.picture.add { x := x1, y := y, w := w2, h := hs, color := c } d.name }

/-- The body of the loop over the traces, patterns_graphs.py:104-155. -/
def actsTrace (short : Bool) (ws hs y n : Nat) (ds : List SubTrace) (st : ActsState) : Draw ActsState :=
  if ds.length = 0 then
    let r : Rect Nat := { x := 0, y := y, w := partWidth short ws n, h := hs, color := gapColor st.palette }
    .done { st with picture := st.picture.add r undefinedActivity }
  else actsRow short ws hs y n ds 0 0 st

/-- `_sub_traces_draw_func`, patterns_graphs.py:83-157, for pairs of sub traces and the length of the trace. -/
def actsRows (short : Bool) (ws hs : Nat) : List (List SubTrace × Nat) → Nat → ActsState → Draw ActsState
  | [], _, st => .done st
  | (ds, n) :: rest, y, st =>
    match actsTrace short ws hs y n ds st with
    | .overflow => .overflow
    | .running => .running
    | .done st => actsRows short ws hs rest (y + (hs + 0)) st

/-- The sub traces of instances, patterns_graphs.py:54-69. The set of events of a node is a list without repetition of
hashes; `list(sorted(events))` sorts it. The elements are below `mod`, where `hash` is the identity. -/
def instanceSubTrace (i : Instance) : SubTrace :=
  { start := i.startPos, length := i.length, hash := collHashAll (fun h : Int => h) (sortedSet i.node.events),
    name := i.node.act.name }

/-- `_do_draw_activity_diagram`, patterns_graphs.py:44-72, for the lengths of the traces of the log. -/
def activityDiagram (p : Palette) (lengths : List Nat) (insts : List (List Instance)) (short plotLegend : Bool)
    (hs ws : Nat) : Draw (Except PyErr Diagram × Palette) :=
  match actsRows short ws hs ((insts.map (List.map instanceSubTrace)).zip lengths) 0
      { picture := { rects := [], legend := [] }, colors := [], palette := p } with
  | .overflow => .overflow
  | .running => .running
  | .done st => .done (finishDiagram st.picture plotLegend lengths.length (logTicks lengths ws) hs ws, st.palette)

/-- The sub trace of a pattern in a trace, patterns_graphs.py:317-326; `hash` is the hash of an event. -/
def patternSubTrace {E : Type} (hash : E → Int) (t : List E) (s : SubArray) : SubTrace :=
  let h := collHashAll hash (slice t s.firstPos s.length)
  { start := s.firstPos, length := s.length, hash := h, name := toString h }

/-- `draw_patterns`, patterns_graphs.py:305-333. -/
def patternsDiagram {E : Type} (hash : E → Int) (p : Palette) (log : List (List E)) (patterns : List (List SubArray))
    (short plotLegend : Bool) (hs ws : Nat) : Draw (Except PyErr Diagram × Palette) :=
  match actsRows short ws hs
      ((List.zipWith (fun t ps => ps.map (patternSubTrace hash t)) log patterns).zip (log.map List.length)) 0
      { picture := { rects := [], legend := [] }, colors := [], palette := p } with
  | .overflow => .overflow
  | .running => .running
  | .done st =>
    .done (finishDiagram st.picture plotLegend log.length (logTicks (log.map List.length) ws) hs ws, st.palette)

/-! ### The diagram of one activity -/

/-- The provider of `draw_activity_placement_diagram`, patterns_graphs.py:249: the random provider, or the single colour
of `SingleColorProvider` (util.py:104-113). -/
inductive Provider
  | random
  | single (color : String)
  deriving DecidableEq

/-- `color_provider.next()`, patterns_graphs.py:270. -/
def Provider.next (v : Provider) (p : Palette) : Draw (String × Palette) :=
  match v with
  | .random => p.uncached
  | .single c => .done (c, p)

/-- `color_provider.reset()`, patterns_graphs.py:284. -/
def Provider.reset (v : Provider) (p : Palette) : Draw (Provider × Palette) :=
  match v with
  | .random => .done (.random, p.reset)
  | .single _ =>
    match p.uncached with
    | .done (c, q) => .done (.single c, q)
    | .overflow => .overflow
    | .running => .running

/-- The loop over the instances of one trace of length `n`, patterns_graphs.py:259-281. -/
def placementRow (v : Provider) (name : String) (ws hs y n : Nat) :
    List Instance → Nat → Nat → Picture → Palette → Draw (Picture × Palette)
  | [], x, last, pic, p =>
    .done (if last < n then pic.add { x := x, y := y, w := n - last, h := hs, color := undefinedColor } undefinedActivity
      else pic, p)
  | i :: is, x, last, pic, p =>
    if i.node.act.name = name then
      let gap := decide (last < i.startPos)
      let w := (i.startPos - last) * ws
      let pic1 := if gap then pic.add { x := x, y := y, w := w, h := hs, color := undefinedColor } undefinedActivity else pic
      let last1 := if gap then i.startPos else last
      let x1 := if gap then x + w else x
      match v.next p with
      | .overflow => .overflow
      | .running => .running
      | .done (c, q) =>
        placementRow v name ws hs y n is (x1 + i.length * ws) (last1 + i.length)
          (pic1.add { x := x1, y := y, w := i.length * ws, h := hs, color := c } i.node.act.name) q
    else placementRow v name ws hs y n is x last pic p

/-- The loop over the traces, patterns_graphs.py:254-284. -/
def placementRows (name : String) (ws hs : Nat) :
    List (List Instance × Nat) → Nat → Provider → Picture → Palette → Draw (Picture × Palette)
  | [], _, _, pic, p => .done (pic, p)
  | (is, n) :: rest, y, v, pic, p =>
    match placementRow v name ws hs y n is 0 0 pic p with
    | .overflow => .overflow
    | .running => .running
    | .done (pic, p) =>
      match v.reset p with
      | .overflow => .overflow
      | .running => .running
      | .done (v, p) => placementRows name ws hs rest (y + hs) v pic p

/-- The provider at the start, patterns_graphs.py:249. -/
def startProvider (different : Bool) (p : Palette) : Draw (Provider × Palette) :=
  if different then .done (.random, p)
  else match p.uncached with
    | .done (c, q) => .done (.single c, q)
    | .overflow => .overflow
    | .running => .running

/-- `draw_activity_placement_diagram`, patterns_graphs.py:240-291 (always with width scale 1). -/
def placementDiagram (p : Palette) (lengths : List Nat) (name : String) (insts : List (List Instance))
    (different plotLegend : Bool) (hs : Nat) : Draw (Except PyErr Diagram × Palette) :=
  match startProvider different p with
  | .overflow => .overflow
  | .running => .running
  | .done (v, p) =>
    match placementRows name 1 hs (insts.zip lengths) 0 v { rects := [], legend := [] } p with
    | .overflow => .overflow
    | .running => .running
    | .done (pic, p) => .done (finishDiagram pic plotLegend lengths.length (logTicks lengths 1) hs 1, p)

end Ficus
