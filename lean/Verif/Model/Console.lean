import Verif.Model.Info

/-! Model of the parts of `src/python/ficus/legacy/pipelines/analysis/analysis_parts.py` that print or write facts about a
log (lines 111-167). What is printed is a text; an event is seen through its name. -/

namespace Ficus
variable {E : Type} [HasName E]

/-- The python built-in `print(text)` with its defaults: the text and an end of line. -/
def printText (text : String) : String := text ++ "\n"

/-- The rule printed by analysis_parts.py:126 and 130: 44 signs. -/
def ruleText : String := "============================================"

/-- What `PrintEventLogInfo.execute` prints, analysis_parts.py:124-130. -/
def printLogInfo (log : Log E) : String :=
  let info := createLogInformation log
  printText ruleText ++
  printText ("Number of traces in log: " ++ toString log.evs.length) ++
  printText ("Number of events in log: " ++ toString (log.evs.map List.length).sum) ++
  printText ("Number of low-level event classes in log: " ++ toString info.eventsCount.length) ++
  printText ruleText

/-- `PrintEventLogInfoBeforeAndAfter.execute`, analysis_parts.py:140-150: the text printed and the result. The inner pipeline
is any function that prints a text and gives a log or raises. Simplified: contexts are reduced to the log they hold, and a
result without a log is one of the errors of the inner pipeline. -/
def printBeforeAndAfter (operation : String) (inner : Log E → String × Except PyErr (Log E)) (log : Log E) :
    String × Except PyErr (Log E) :=
  let first := printText ("Operation " ++ operation ++ " started") ++ printLogInfo log
  match inner log with
  | (text, .error e) => (first ++ text, .error e)
  | (text, .ok result) =>
    (first ++ text ++ printLogInfo result ++ printText ("Operation " ++ operation ++ " finished") ++ printText "",
      .ok result)

/-- The inner loop of `PrintDFG.execute`, analysis_parts.py:162-163. -/
def printFollowers : Dict String Nat → String
  | [] => ""
  | (follower, count) :: rest => printText (follower ++ ": " ++ toString count) ++ printFollowers rest

/-- The outer loop of `PrintDFG.execute`, analysis_parts.py:159-165. -/
def printFollowed (selector : String → Bool) : Dict String (Dict String Nat) → String
  | [] => ""
  | (event, followers) :: rest =>
    (if selector event then printText ("Followers of " ++ event ++ ":") ++ printFollowers followers ++ printText ""
     else "") ++ printFollowed selector rest

/-- What `PrintDFG.execute` prints, analysis_parts.py:157-165. -/
def printDfg (selector : String → Bool) (log : Log E) : String :=
  printFollowed selector (dfgOf (createLogInformation log).pairs).followedEvents

/-- The python built-in `separator.join(texts)`. -/
def joinTexts (separator : List Char) : List (List Char) → List Char
  | [] => []
  | [x] => x
  | x :: y :: rest => x ++ separator ++ joinTexts separator (y :: rest)

/-- The text that `SaveAllEventNames.execute` writes, analysis_parts.py:115-118. -/
def savedEventNames (log : Log E) : List Char :=
  joinTexts ['\n', '\n'] ((createLogInformation log).eventsCount.keys.map String.toList)

end Ficus
