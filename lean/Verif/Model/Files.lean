import Verif.Model.Nets
import Verif.Model.Reports
import Verif.Model.Xes

/-! What the library leaves on the disk: exported nets and graphs, saved logs, pictures of the activities by levels and
texts of graphs. The functions of `os`, `os.path`, `shutil` and `graphviz` are external; they are written down here as far
as these parts use them. Python sources are given relative to /repo/src/python/ficus/legacy. -/

namespace Ficus

/-! ### Names of files -/

/-- `os.path.dirname` on a posix system, on characters: what stands before the last slash, without slashes at its end
unless there is nothing else. -/
def dirnameL (p : List Char) : List Char :=
  let head := p.reverse.dropWhile (fun c => decide (c ≠ '/'))
  if head.all (fun c => decide (c = '/')) then head.reverse else (head.dropWhile (fun c => decide (c = '/'))).reverse

/-- `os.path.dirname`, used in discovery/petri_net.py:71, log/functions.py:297, analysis/event_log_analysis.py:184. -/
def dirname (p : String) : String := String.ofList (dirnameL p.toList)

/-- `os.path.basename`: what stands after the last slash. -/
def basename (p : String) : String :=
  String.ofList (p.toList.reverse.takeWhile (fun c => decide (c ≠ '/'))).reverse

/-- `os.path.splitext` on characters: the extension begins with the last dot after the last slash, unless only dots stand
before it in the file name. -/
def splitextL (p : List Char) : List Char × List Char :=
  let ext := p.reverse.takeWhile (fun c => decide (c ≠ '.' ∧ c ≠ '/'))
  match p.reverse.dropWhile (fun c => decide (c ≠ '.' ∧ c ≠ '/')) with
  | '.' :: root =>
    if (root.takeWhile (fun c => decide (c ≠ '/'))).all (fun c => decide (c = '.')) then (p, [])
    else (root.reverse, '.' :: ext.reverse)
  | _ => (p, [])

/-- `os.path.splitext`, used in discovery/petri_net.py:75 and
pipelines/analysis/patterns/patterns_graph_parts.py:55. -/
def splitext (p : String) : String × String :=
  (String.ofList (splitextL p.toList).1, String.ofList (splitextL p.toList).2)

/-! ### The disk -/

/-- What a file holds: the source of a graph, a picture of it made by an engine in a format, an XML document, a text,
or a figure of `matplotlib` in a format. -/
inductive Content
  | source (g : List DotStmt)
  | picture (engine format : String) (g : List DotStmt)
  | xml (e : XElem)
  | text (s : String)
  | figure (format : String) (fig : Nat)

/-- The errors of the operations on files. -/
inductive FileErr
  | fileNotFound
  | fileExists
  | isADirectory
  | notADirectory
  | valueError
  | shutilError
  | renderFailed
  | py (e : PyErr)
  deriving DecidableEq

/-- The disk as the process sees it. Simplified: names are compared as texts, so `a/b`, `./a/b` and `a//b` are different
names here, and there are no links and no permissions. -/
structure Disk where
  dirs : String → Bool
  files : String → Option Content

/-- `os.path.isdir`; a name of slashes only is the root. -/
def Disk.isDir (d : Disk) (p : String) : Bool :=
  d.dirs p || (decide (p ≠ "") && p.toList.all (fun c => decide (c = '/')))

/-- `os.path.exists`, used in discovery/petri_net.py:72 and log/functions.py:44. -/
def Disk.exists (d : Disk) (p : String) : Bool := d.isDir p || (d.files p).isSome

/-- A computation on the disk that may raise an exception; what it did before stays done. -/
abbrev FileOp (A : Type) := Disk → Disk × Except FileErr A

/-- Two computations one after the other; an exception of the first ends both. -/
def FileOp.bind {A B : Type} (m : FileOp A) (f : A → FileOp B) : FileOp B := fun d =>
  match m d with
  | (d', .ok a) => f a d'
  | (d', .error e) => (d', .error e)

/-- A computation that only returns a value. -/
def FileOp.ret {A : Type} (a : A) : FileOp A := fun d => (d, .ok a)

/-- A computation that only raises an exception. -/
def FileOp.fail {A : Type} (e : FileErr) : FileOp A := fun d => (d, .error e)

/-- Is the directory of a name missing, and with which error? The directory of a bare name is the working directory, which
exists. Simplified: a missing directory is always `FileNotFoundError`, also if a directory above it is a file. -/
def parentError (d : Disk) (p : String) : Option FileErr :=
  if dirname p = "" then none
  else if d.isDir (dirname p) then none
  else if (d.files (dirname p)).isSome then some .notADirectory
  else some .fileNotFound

/-- `os.mkdir`. -/
def mkdir (p : String) : FileOp Unit := fun d =>
  if p = "" then (d, .error .fileNotFound)
  else if d.exists p then (d, .error .fileExists)
  else
    match parentError d p with
    | some e => (d, .error e)
    | none => ({ d with dirs := fun q => d.dirs q || decide (q = p) }, .ok ())

/-- The last lines of `os.makedirs(name, exist_ok=True)`: `mkdir`, whose error is dropped if the directory exists. -/
def mkdirExistOk (p : String) : FileOp Unit := fun d =>
  match mkdir p d with
  | (d', .ok _) => (d', .ok ())
  | (d', .error e) => if d'.isDir p then (d', .ok ()) else (d', .error e)

/-- `os.makedirs(name, exist_ok=True)` for a name without slashes at its end; the first argument bounds the recursion. -/
def makedirsFuel : Nat → String → FileOp Unit
  | 0, p => mkdirExistOk p
  | n + 1, p => fun d =>
    if dirname p ≠ "" ∧ d.exists (dirname p) = false then
      match makedirsFuel n (dirname p) d with
      | (d', .ok _) => mkdirExistOk p d'
      | (d', .error .fileExists) => mkdirExistOk p d'
      | (d', .error e) => (d', .error e)
    else mkdirExistOk p d

/-- `os.makedirs(name, exist_ok=True)`, used in discovery/petri_net.py:73, log/functions.py:297,
analysis/event_log_analysis.py:184; the recursion is bounded by the length of the name. -/
def makedirs (p : String) : FileOp Unit := makedirsFuel p.length p

/-- `with open(p, 'w') as fout: fout.write(..)`. A name with a slash at its end is taken as a directory. -/
def writeFile (p : String) (c : Content) : FileOp Unit := fun d =>
  if p = "" then (d, .error .fileNotFound)
  else if d.isDir p ∨ p.toList.getLast? = some '/' then (d, .error .isADirectory)
  else
    match parentError d p with
    | some e => (d, .error e)
    | none => ({ d with files := fun q => if q = p then some c else d.files q }, .ok ())

/-- `os.rename` of a file. -/
def renameFile (src dst : String) : FileOp Unit := fun d =>
  match d.files src with
  | none => (d, .error .fileNotFound)
  | some c =>
    match writeFile dst c d with
    | (_, .error e) => (d, .error e)
    | (d', .ok _) => ({ d' with files := fun q => if q = src ∧ src ≠ dst then none else d'.files q }, .ok ())

/-- `shutil.move` of a file, used in discovery/petri_net.py:77: into the target if that is a directory. -/
def moveFile (src dst : String) : FileOp Unit := fun d =>
  if d.isDir dst then
    if d.exists (dst ++ "/" ++ basename src) then (d, .error .shutilError) else renameFile src (dst ++ "/" ++ basename src) d
  else renameFile src dst d

/-! ### The library `graphviz` -/

/-- The engines and the formats that the library knows. -/
structure Viz where
  engines : List String
  formats : List String

/-- `graphviz.render(engine, format, filepath)`, used in discovery/petri_net.py:76: the picture of the source in
`filepath` goes to `filepath.format`. Simplified: the program `dot` is installed and draws every source. -/
def renderFile (viz : Viz) (engine format path : String) : FileOp Unit := fun d =>
  if engine ∉ viz.engines then (d, .error .valueError)
  else if format ∉ viz.formats then (d, .error .valueError)
  else
    match d.files path with
    | some (.source g) => writeFile (path ++ "." ++ format) (.picture engine format g) d
    | some _ => (d, .error .renderFailed)
    | none => (d, .error .fileNotFound)

/-- `Digraph.save(filename)`, used in discovery/petri_net.py:66: the directory of the file is made unless it is the working
directory. -/
def saveSource (path : String) (g : List DotStmt) : FileOp Unit :=
  FileOp.bind (if dirname path = "" then FileOp.ret () else makedirs (dirname path)) fun _ => writeFile path (.source g)

/-- `Digraph.render(filename=path, format=format)` for a graph with its engine: `save` and `render`. -/
def renderGraph (viz : Viz) (engine format path : String) (g : List DotStmt) : FileOp Unit :=
  FileOp.bind (saveSource path g) fun _ => renderFile viz engine format path

/-! ### Export of nets and graphs -/

/-- The lines that prepare the directory of the exported file, discovery/petri_net.py:71-73. -/
def ensureDir (dir : String) : FileOp Unit := fun d => if d.exists dir then (d, .ok ()) else makedirs dir d

/-- `_draw_graph_like_formalism`, discovery/petri_net.py:50-77, for the statements `g` that `draw_func` adds (`drawNet` for
`draw_petri_net`, 80-125, `drawGraph` for discovery/graph.py:24-42). The argument `tmp` is the name that
`_create_temp_file_name`, 128-132, gives. The result is what is displayed. -/
def exportGraph (viz : Viz) (tmp engine : String) (g : List DotStmt) (exportPath : Option String) :
    FileOp (Option (List DotStmt)) :=
  FileOp.bind (saveSource tmp g) fun _ =>
    match exportPath with
    | none => FileOp.ret (some g)
    | some p =>
      FileOp.bind (ensureDir (dirname p)) fun _ =>
      FileOp.bind (renderFile viz engine (String.ofList ((splitext p).2.toList.drop 1)) tmp) fun _ =>
      FileOp.bind (moveFile (tmp ++ (splitext p).2) p) fun _ => FileOp.ret none

/-! ### Logs -/

/-- `save_event_log_to_xes`, log/functions.py:295-299. -/
def saveLog (log : Log Payload) (p : String) : FileOp Unit :=
  match writeXes log with
  | .error e => FileOp.fail (.py e)
  | .ok e => FileOp.bind (makedirs (dirname p)) fun _ => writeFile p (.xml e)

/-- `read_log_from_xes`, log/functions.py:43-48 for the file, `readXes` for the rest. A file that is not XML is a
`ParseError`, here `valueError`. -/
def loadLog (P : Parsers) (p : String) : FileOp (Log Payload) := fun d =>
  if d.exists p = false then (d, .error .fileNotFound)
  else
    match d.files p with
    | none => (d, .error .isADirectory)
    | some (.xml e) =>
      match readXes P e with
      | .ok log => (d, .ok log)
      | .error err => (d, .error (.py err))
    | some _ => (d, .error .valueError)

/-! ### Figures -/

/-- `s.lower()`, for the letters of ASCII. -/
def lowerText (s : String) : String := String.ofList (s.toList.map Char.toLower)

/-- `figure.savefig(path)` of `matplotlib`, an external library, used in analysis/event_log_analysis.py:62, 102, 185, 366,
398: the format is the extension of the name in small letters; a name without an extension loses the dots at its end and
gets `.png`. The figures are numbered. -/
def saveFig (formats : List String) (fig : Nat) (p : String) : FileOp Unit :=
  let ext := String.ofList ((splitext p).2.toList.drop 1)
  if ext = "" then
    writeFile (String.ofList (p.toList.reverse.dropWhile (fun c => decide (c = '.'))).reverse ++ ".png") (.figure "png" fig)
  else if lowerText ext ∉ formats then FileOp.fail .valueError
  else writeFile p (.figure (lowerText ext) fig)

/-- The end of the drawing of the diagrams of traces, analysis/event_log_analysis.py:181-186, with a name. -/
def saveDiagram (formats : List String) (fig : Nat) (p : String) : FileOp Unit :=
  FileOp.bind (makedirs (dirname p)) fun _ => saveFig formats fig p

/-! ### Graphs of activities by levels -/

/-- `default_activities_level_save_path_mutator`, pipelines/analysis/patterns/patterns_graph_parts.py:54-58. -/
def levelPath (base : String) (level : Nat) : String :=
  (splitext base).1 ++ "_" ++ toString level ++ (splitext base).2

mutual
/-- The nodes of activities with the names that `node_name_creator` gives, patterns_graph_parts.py:42-46. -/
def nameTree (creator : Activity → String) : ActTree → NameTree
  | .node a cs => .node (creator a) (nameTrees creator cs)

/-- `nameTree` for a list of nodes. -/
def nameTrees (creator : Activity → String) : List ActTree → List NameTree
  | [] => []
  | t :: ts => nameTree creator t :: nameTrees creator ts
end

/-- `_do_draw_graph`, analysis/patterns/patterns_graphs.py:198-204, for a graph of the given name; the engine of these
graphs is `dot`. Without a path the files get the name of the graph and the picture is displayed. -/
def doDrawGraph (viz : Viz) (graphName : String) (g : List DotStmt) (savePath : Option String) :
    FileOp (Option (List DotStmt)) :=
  match savePath with
  | some p => FileOp.bind (renderGraph viz "dot" "png" p g) fun _ => FileOp.ret none
  | none => FileOp.bind (renderGraph viz "dot" "png" (graphName ++ ".gv") g) fun _ => FileOp.ret (some g)

/-- The loop of `DrawActivitiesGraphByEventClassLevels.execute`, patterns_graph_parts.py:77-91, over the levels with their
activities: `BuildActivityGraph` and `DrawGraph` for each. The result is what is displayed. Simplified: the default
mutator of paths. -/
def drawLevelsLoop (viz : Viz) (creator : Activity → String) (addRoot : Bool) (savePath : Option String) :
    List (Nat × List ActTree) → FileOp (List (List DotStmt))
  | [] => FileOp.ret []
  | (level, acts) :: ls =>
    FileOp.bind (doDrawGraph viz "Activities Graph" (buildGraph (nameTrees creator acts) addRoot)
        (savePath.map (fun p => levelPath p level))) fun shown =>
    FileOp.bind (drawLevelsLoop viz creator addRoot savePath ls) fun rest => FileOp.ret (shown.toList ++ rest)

/-- `DrawActivitiesGraphByEventClassLevels`, patterns_graph_parts.py:61-91. -/
def drawLevels (viz : Viz) (creator : Activity → String) (addRoot : Bool) (savePath : Option String)
    (acts : List ActTree) : FileOp (List (List DotStmt)) :=
  drawLevelsLoop viz creator addRoot savePath (splitTreesByLevel acts)

/-! ### Texts of graphs -/

/-- `s.split('\n')`. -/
def splitLines (s : List Char) : List (List Char) :=
  match s with
  | [] => [[]]
  | c :: cs =>
    if c = '\n' then [] :: splitLines cs
    else
      match splitLines cs with
      | [] => [[c]]
      | l :: ls => (c :: l) :: ls

/-- `str(graph)`: the line that opens the graph, a line for each statement, the closing brace; every line ends with a line
feed. The library writes the lines of the statements. -/
def graphText (header : String) (lines : List String) : String :=
  String.ofList (((header :: lines) ++ ["}"]).flatMap (fun l => l.toList ++ ['\n']))

/-- `serialize_graphviz_graph`, patterns_graph_parts.py:108-110, for the text of a graph. -/
def serializeGraphText (s : String) : String :=
  let lines := splitLines s.toList
  String.ofList (List.intercalate ['\n']
    ((((lines.drop 1).take (lines.length - 2)).map String.ofList).insertionSort (fun a b => a ≤ b) |>.map String.toList))

end Ficus
