import Verif.Model.Classes
import Verif.Model.Heap
import Mathlib.Data.Rat.Defs

/-! Model of the parts that report activities and instances, pipelines/analysis/patterns/patterns_parts.py:165-188,
329-342, 459-488 and 497-547. Files are given by the list of strings written to them, printed lines by their text. -/

namespace Ficus

/-- The queue loop of `PrintActivitiesNamesToHashes.execute`, patterns_parts.py:336-340: the nodes in the order in which
they are printed; `none` when the fuel does not suffice. -/
def printLoop : Nat → List ActTree → List Activity → Option (List Activity)
  | _, [], out => some out
  | 0, _ :: _, _ => none
  | fuel + 1, t :: q, out => printLoop fuel (q ++ t.children) (out ++ [t.act])

/-- `PrintActivitiesNamesToHashes.execute`, patterns_parts.py:329-342: the printed pairs of hash and name.
Simplification: `hash(..)` is the value of `__hash__` (patterns_models.py:48-49), which is below the bound from which
python reduces it. -/
def printNamesToHashes (activities : List ActTree) : Option (List (Int × String)) :=
  (printLoop (ActTree.countL activities) activities []).map (·.map (fun a => (stringHash a.name, a.name)))

/-- The stack loop of `SaveAllActivitiesNames.execute`, patterns_parts.py:473-483. The top of the stack, which python
keeps at the end of the list, is the head of the list here; `visited` is `visited`, newest first; `none` when the fuel
does not suffice. -/
def saveNamesLoop : Nat → List ActTree → List String → List String → Option (List String)
  | _, [], _, out => some out
  | 0, _ :: _, _, _ => none
  | fuel + 1, t :: q, visited, out =>
    if t.act.name ∈ visited then saveNamesLoop fuel q visited out
    else saveNamesLoop fuel (t.children.reverse ++ q) (t.act.name :: visited) (out ++ [t.act.name])

/-- The names written for the activities of one level, patterns_parts.py:471-483. -/
def saveNamesOfLevel (roots : List ActTree) : Option (List String) :=
  saveNamesLoop (ActTree.countL roots) roots.reverse [] []

/-- `split_activities_by_level`, patterns/util.py:158-171, on nodes with their children. -/
def splitTreesByLevel (acts : List ActTree) : List (Nat × List ActTree) :=
  (acts.foldl (fun d t => groupInto d t.act.level t) ([] : Dict Nat (List ActTree))).insertionSort
    (fun a b => a.1 ≤ b.1)

/-- The separator line, patterns_parts.py:466. -/
def sepString : String := String.ofList (List.replicate 196 '=')

/-- What is written for one level, patterns_parts.py:467-486. -/
def saveLevel (p : Nat × List ActTree) : Option (List String) :=
  (saveNamesOfLevel p.2).map (fun names =>
    ["ACTIVITIES LEVEL " ++ toString p.1 ++ "\n\n", sepString, "\n"] ++ names.map (· ++ "\n") ++ [sepString, "\n\n"])

/-- `SaveAllActivitiesNames.execute`, patterns_parts.py:463-488. -/
def saveAllNames (activities : List ActTree) : Option (List String) :=
  ((splitTreesByLevel activities).mapM saveLevel).map List.flatten

/-- The loop of `SaveAllActivitiesInstancesNames.execute`, patterns_parts.py:505-513, over the instances of all traces:
`visited` holds identities (`ActivityNode` defines no `__eq__`), the result the nodes written. -/
def saveInstancesLoop : List Instance → List Nat → List Activity
  | [], _ => []
  | i :: is, visited =>
    if i.node.act.uid ∈ visited then saveInstancesLoop is visited
    else i.node.act :: saveInstancesLoop is (i.node.act.uid :: visited)

/-- `SaveAllActivitiesInstancesNames.execute`, patterns_parts.py:501-515. -/
def saveInstancesNames (insts : List (List Instance)) : List String :=
  (saveInstancesLoop insts.flatten []).map (fun a => a.uniqueName ++ "=" ++ a.name ++ "\n")

/-- The line of one instance, patterns_parts.py:530. -/
def indexLine (i : Instance) : String :=
  "(" ++ i.node.act.uniqueName ++ ", " ++ toString i.startPos ++ ", " ++ toString i.length ++ ")\n"

/-- The loop of `WriteActivitiesInstancesIndices.execute`, patterns_parts.py:526-533, from the trace number `index` on:
the text that is written. -/
def writeIndicesFrom : Nat → List (List Instance) → String
  | _, [] => ""
  | index, is :: rest =>
    "Trace " ++ toString index ++ "\n" ++ String.join (is.map indexLine) ++ "\n" ++ writeIndicesFrom (index + 1) rest

/-- `WriteActivitiesInstancesIndices.execute`, patterns_parts.py:518-535: the text of the file. -/
def writeIndices (insts : List (List Instance)) : String := writeIndicesFrom 0 insts

/-- `CalculatePercentageOfUnattachedEvents.execute`, patterns_parts.py:177-188: the printed number, `none` for the
message about an empty log. Simplification: the quotient is exact. -/
def percentageUnattached {E : Type} (log : Log E) (insts : List (List Instance)) : Except PyErr (Option Rat) := do
  let unattached ← createUnattachedLog log insts
  let count := (unattached.evs.map List.length).sum
  let total := (log.evs.map List.length).sum
  return if total = 0 then none else some ((count : Rat) / (total : Rat))

/-- `PrintUnattachedEvents.execute`, patterns_parts.py:165-174: the set of printed names, in some order. -/
def unattachedNames {E : Type} [HasName E] (log : Log E) (insts : List (List Instance)) :
    Except PyErr (List String) := do
  let unattached ← createUnattachedLog log insts
  return (unattached.evs.flatten.map name).dedup

namespace Heap

/-- `trace[i]['activity'] = value` for `i` in a list of indices, patterns_parts.py:544-545. -/
def tagPositions (t : Nat) (value : String) : List Nat → Heap → Except PyErr Unit × Heap
  | [], h => (.ok (), h)
  | i :: is, h =>
    match (h.traceObj t).events[i]? with
    | none => (.error .indexError, h)
    | some e => tagPositions t value is (h.setEvent e ((h.event e).set "activity" (.str value)))

/-- The loop over the instances of a trace, patterns_parts.py:543-545. -/
def tagInstances (t : Nat) : List Instance → Heap → Except PyErr Unit × Heap
  | [], h => (.ok (), h)
  | i :: is, h =>
    match tagPositions t i.node.act.uniqueName (List.range' i.startPos i.length) h with
    | (.error e, h) => (.error e, h)
    | (.ok _, h) => tagInstances t is h

/-- The loop over the zipped lists, patterns_parts.py:542-545. -/
def tagTraces : List (List Instance × Nat) → Heap → Except PyErr Unit × Heap
  | [], h => (.ok (), h)
  | (is, t) :: rest, h =>
    match tagInstances t is h with
    | (.error e, h) => (.error e, h)
    | (.ok _, h) => tagTraces rest h

/-- `AddActivityNameToAllEvents.execute`, patterns_parts.py:538-547. -/
def addActivityNames (h : Heap) (l : Nat) (insts : List (List Instance)) : Except PyErr Unit × Heap :=
  tagTraces (insts.zip (h.logObj l).traces) h

end Heap
end Ficus
