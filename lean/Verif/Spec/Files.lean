import Verif.Model.Files

/-! What a user expects of names and files. -/

namespace Ficus.Spec

/-- `q` is the name `p` or that of a directory above it, up to the name without a directory. -/
inductive Above (q : String) : String → Prop
  | refl : Above q q
  | up {p : String} (h : Above q (dirname p)) : Above q p

/-- What holds of every disk: the empty name is no file and no directory, nothing is both a file and a directory, and what
exists lies in a directory that exists (or in the working directory). -/
structure SoundDisk (d : Disk) : Prop where
  noName : d.dirs "" = false ∧ d.files "" = none
  apart : ∀ p, d.isDir p = true → d.files p = none
  parent : ∀ p, (d.dirs p = true ∨ d.files p ≠ none) → dirname p = "" ∨ d.isDir (dirname p) = true

/-- A place for a new file: neither the name nor a directory above it is a file. -/
def ClearWay (d : Disk) (p : String) : Prop := ∀ q, Above q p → d.files q = none

/-- The disk `d'` is `d` with the directory `p` and those above it. -/
def WithDirs (d : Disk) (p : String) (d' : Disk) : Prop :=
  ∀ q, d'.isDir q = true ↔ d.isDir q = true ∨ (q ≠ "" ∧ Above q p)

/-- The name does not end with a slash, as the names of files. -/
def FileName (p : String) : Prop := p ≠ "" ∧ p.toList.getLast? ≠ some '/'

/-- The format that the name of a file asks for: `dir/base.format`, where the base is not made of dots only. -/
def HasFormat (p format : String) : Prop :=
  ∃ dir base : List Char, p.toList = dir ++ base ++ '.' :: format.toList ∧ (dir = [] ∨ dir.getLast? = some '/') ∧
    '/' ∉ base ∧ (∃ x ∈ base, x ≠ '.') ∧ '.' ∉ format.toList ∧ '/' ∉ format.toList

/-- A name for a new file in a directory that exists, as `tempfile` gives. -/
structure NewName (d : Disk) (tmp : String) : Prop where
  name : FileName tmp
  isNew : d.exists tmp = false
  place : dirname tmp = "" ∨ d.isDir (dirname tmp) = true

/-- The name of a temporary file is new, also with a format, and has nothing to do with the name `p`. -/
structure TempName (d : Disk) (tmp p : String) : Prop extends NewName d tmp where
  away : ¬ Above tmp p
  pictureNew : ∀ format, HasFormat p format → d.exists (tmp ++ "." ++ format) = false
  pictureAway : ∀ format, HasFormat p format → ¬ Above (tmp ++ "." ++ format) p

/-- The exports that succeed: the name has a directory that exists or can be made and a format that is known, and the
engine is known. -/
def Exportable (viz : Viz) (d : Disk) (engine p : String) : Prop :=
  '/' ∈ p.toList ∧ ClearWay d (dirname p) ∧ engine ∈ viz.engines ∧ ∃ format ∈ viz.formats, HasFormat p format

/-- The name for a level: the level stands before the format, or at the end if there is no format. -/
def LevelName (p : String) (level : Nat) (q : String) : Prop :=
  (∃ root format, HasFormat p format ∧ p = root ++ "." ++ format ∧
    q = root ++ "_" ++ toString level ++ "." ++ format) ∨
  ((∀ format, ¬ HasFormat p format) ∧ q = p ++ "_" ++ toString level)

/-- The graph of the activities of one level, in their order. -/
def levelGraph (creator : Activity → String) (addRoot : Bool) (acts : List ActTree) (level : Nat) : List DotStmt :=
  buildGraph (nameTrees creator (acts.filter (fun t => decide (t.act.level = level)))) addRoot

end Ficus.Spec
