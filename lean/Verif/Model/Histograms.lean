import Verif.Model.Split
import Verif.Model.Colors
import Mathlib.Data.Nat.Sqrt
import Mathlib.Data.List.Sort

/-! Model of the histograms of legacy/analysis/event_log_analysis.py:39-105 (variants of traces) and 329-367 (entropies of
events), as lists of calls of matplotlib. -/

namespace Ficus
variable {E : Type} [HasName E]

/-- A call of matplotlib made for histograms. Cells of the grid are given by row and column. -/
inductive HistCall
  | grid (rows columns : Nat)
  | title (cell : Nat × Nat) (text : String)
  | hist (cell : Nat × Nat) (values bins : List Nat)
  | suptitle (text : Option String)
  | save (path : String)
  | close
  | show
  deriving DecidableEq

/-- `int(math.ceil(math.sqrt(n)))`, event_log_analysis.py:80. The square root of a number of logs is exact enough in floating
point numbers for this to be the least side whose square is at least `n`. -/
def sideLength (n : Nat) : Nat := if n.sqrt * n.sqrt = n then n.sqrt else n.sqrt + 1

/-- `bins=[i for i in range(1, classes_count + 1)]`, event_log_analysis.py:66. -/
def binsOf (classesCount : Nat) : List Nat := (List.range classesCount).map (· + 1)

/-- The calls made so far and the exception that ended them, if any. -/
abbrev HistRun := List HistCall × Option PyErr

/-- One statement after another. This models the python language. -/
def HistRun.andThen (p q : HistRun) : HistRun :=
  match p.2 with
  | some _ => p
  | none => (p.1 ++ q.1, q.2)

/-- `ax[row, col]`, event_log_analysis.py:92 and 95: what `plt.subplots` returns is an array of cells only if there is more than
one; a single cell cannot be indexed, TypeError. -/
def cellAccess (side : Nat) : Option PyErr := if side ≤ 1 then some .typeError else none

/-- The body of the loops, event_log_analysis.py:90-95: title and histogram of one log. `stem` is the file name without
directory and extension, `os.path.splitext(os.path.basename(..))[0]`. -/
def histCell (stem : String → String) (names : List String) (side : Nat) (cell : Nat × Nat) (index : Nat) (log : Log E) :
    HistRun :=
  match names[index]? with
  | none => ([], some .indexError)
  | some n =>
    match cellAccess side with
    | some e => ([], some e)
    | none =>
      match createArrayForHist log with
      | .error e => ([.title cell (stem n)], some e)
      | .ok (hist, classes) => ([.title cell (stem n), .hist cell hist (binsOf classes)], none)

/-- One row of the grid, event_log_analysis.py:86-97: the columns `col, col + 1, ..` until the side or the logs are used up.
Returns the index of the next log, too. -/
def histRow (stem : String → String) (logs : List (Log E)) (names : List String) (side row : Nat) :
    Nat → Nat → Nat → HistRun × Nat
  | 0, _, index => (([], none), index)
  | fuel + 1, col, index =>
    match logs[index]? with
    | none => (([], none), index)
    | some log =>
      let c := histCell stem names side (row, col) index log
      match c.2 with
      | some _ => (c, index)
      | none =>
        let r := histRow stem logs names side row fuel (col + 1) (index + 1)
        (c.andThen r.1, r.2)

/-- The rows of the grid, event_log_analysis.py:85-97. -/
def histRows (stem : String → String) (logs : List (Log E)) (names : List String) (side : Nat) :
    Nat → Nat → Nat → HistRun
  | 0, _, _ => ([], none)
  | fuel + 1, row, index =>
    let r := histRow stem logs names side row side 0 index
    r.1.andThen (histRows stem logs names side fuel (row + 1) r.2)

/-- `plot_logs_traces_histograms`, event_log_analysis.py:76-105. `plt.subplots(0, 0)` raises ValueError. -/
def plotTracesHistograms (stem : String → String) (logs : List (Log E)) (names : List String) (savePath : Option String)
    (title : Option String) : HistRun :=
  let side := sideLength logs.length
  if side = 0 then ([], some .valueError)
  else HistRun.andThen ([.grid side side], none)
    ((histRows stem logs names side side 0 0).andThen
      (match savePath with
       | some p => ([.suptitle title, .save p, .close], none)
       | none => ([.suptitle title, .show], none)))

/-- `draw_traces_histogram`, event_log_analysis.py:52-62. `plt.axis()` returns the tuple of the limits of the axes, which has no
method `hist`: AttributeError. -/
def drawTracesHistogram (log : Log E) (_savePath _title : Option String) : HistRun :=
  match createArrayForHist log with
  | .error e => ([], some e)
  | .ok _ => ([], some .attributeError)

/-! ### Entropies -/

/-- A bar: position, height and colour; the width is 1. `plt.Rectangle`, event_log_analysis.py:344. -/
structure Bar (R : Type) where
  x : Nat
  height : R
  color : String
  deriving DecidableEq

/-- The picture of the entropies: the bars of the collection and the entries of the legend. -/
structure EntropyPicture (R : Type) where
  bars : List (Bar R)
  legend : List (Bar R × String)
  deriving DecidableEq

/-- The loop over the entropies, event_log_analysis.py:342-347, from position `x` on. -/
def entropyBars {R : Type} : Dict String R → Nat → Palette → Draw (List (String × Bar R) × Palette)
  | [], _, p => .done ([], p)
  | (n, e) :: rest, x, p =>
    match p.uncached with
    | .done (c, q) =>
      match entropyBars rest (x + 1) q with
      | .done (bs, r) => .done ((n, ⟨x, e, c⟩) :: bs, r)
      | .overflow => .overflow
      | .running => .running
    | .overflow => .overflow
    | .running => .running

/-- `draw_events_entropy_histogram`, event_log_analysis.py:329-357, for the dictionary of entropies; showing and saving are left
out. `text` is `str` of a number. `names_to_rects` has the keys of the entropies in their order, since those are different. -/
def drawEntropies {R : Type} [LinearOrder R] (text : R → String) (entropies : Dict String R) (p : Palette) :
    Draw (EntropyPicture R × Palette) :=
  match entropyBars entropies 0 p with
  | .done (bs, q) =>
    let lst := bs.map (fun b => (b.1, b.2, (entropies.get? b.1).getD b.2.height))
    let sorted := lst.insertionSort (fun a b => b.2.2 ≤ a.2.2)
    .done (⟨bs.map Prod.snd, sorted.map (fun t => (t.2.1, t.1 ++ " " ++ text ((entropies.get? t.1).getD t.2.1.height)))⟩, q)
  | .overflow => .overflow
  | .running => .running

end Ficus
