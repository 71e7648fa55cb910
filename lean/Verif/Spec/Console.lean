import Verif.Spec.Log

/-! Specifications of the printed and written facts about a log; they do not use the modelled functions. -/

namespace Ficus.Spec
variable {E : Type} [HasName E]

/-- The names of a log, each once, in the order in which they occur first. -/
def namesInOrder (log : Log E) : List String := (log.evs.flatten.map name).eraseDups

/-- How often `b` directly follows `a`, where every trace with events is framed by the artificial start and end. -/
def followCount (log : Log E) (a b : String) : Nat :=
  (log.evs.flatMap (fun t => adjacent (framed "FAKE_START" "FAKE_END" (t.map name)))).count (a, b)

/-- A text without an end of line. -/
def OneLine (s : String) : Prop := '\n' ∉ s.toList

/-- A text of the given lines, each with its end of line. -/
def textOf (lines : List String) : String := String.ofList (lines.flatMap (fun l => l.toList ++ ['\n']))

/-- The lines about one event and its followers. -/
def followerLines (a : String) (followers : List (String × Nat)) : List String :=
  ("Followers of " ++ a ++ ":") :: followers.map (fun f => f.1 ++ ": " ++ toString f.2) ++ [""]

end Ficus.Spec
