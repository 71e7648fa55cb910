import Verif.Model.Console
import Verif.Model.Text
import Verif.Model.Files
import Verif.Model.Hash

/-! Model of the labels in drawn graphs of activities (src/python/ficus/legacy/analysis/patterns/patterns_graphs.py:164-195)
and of the texts of nodes (analysis/common/common_models.py:4-20, analysis/patterns/patterns_models.py:48-55, 80-85). -/

namespace Ficus

/-- `preprocess_name` of `draw_activity_graph`, patterns_graphs.py:170-172, with the separator of patterns/constants.py:1. -/
def preprocessName (activityName : String) : String :=
  String.ofList (joinTexts ['\n'] (splitLoop [':', ':'] 0 [] activityName.toList))

/-- `create_name` of `draw_activity_graph`, patterns_graphs.py:169-174, with `ActivityNode.__hash__`, patterns_models.py:48-49.
The built-in `hash` does not change numbers below the modulus `10 ** 9 + 7`. -/
def createNodeName (useHashes : Bool) (a : Activity) : String :=
  if useHashes then toString (stringHash a.name) else preprocessName a.name

/-- The graph that `draw_activity_graph`, patterns_graphs.py:164-195, draws. -/
def activityGraph (acts : List ActTree) (useHashes addRoot : Bool) : List DotStmt :=
  buildGraph (nameTrees (createNodeName useHashes) acts) addRoot

mutual
/-- `GraphNode.__str__`, common_models.py:12-20; the name of a node is what `_serialize` gives for it. -/
def nodeText : NameTree → List Char
  | .node s cs => s.toList ++ childrenText cs
/-- The loop over the children, common_models.py:17-18; without children it adds nothing (13-14). -/
def childrenText : List NameTree → List Char
  | [] => []
  | t :: ts => ['('] ++ nodeText t ++ [')'] ++ childrenText ts
end

/-- `ActivityNode._serialize`, patterns_models.py:51-52: the text of the sorted list of the hashes of events. -/
def serializeActivity (a : Activity) : String :=
  String.ofList (['['] ++ joinTexts [',', ' '] ((a.events.insertionSort (· ≤ ·)).map (fun e => (toString e).toList)) ++ [']'])

/-- `str(node)` for an activity, common_models.py:12-20. -/
def activityText (t : ActTree) : List Char := nodeText (nameTree serializeActivity t)

/-- `ActivityInTraceInfo.__str__`, patterns_models.py:64-65. -/
def instanceText (i : Instance) : List Char :=
  ['('] ++ activityText i.node ++ [',', ' '] ++ (toString i.startPos).toList ++ [',', ' '] ++ (toString i.length).toList ++ [')']

end Ficus
