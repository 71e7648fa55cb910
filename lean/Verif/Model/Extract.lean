import Verif.Model.Activity

/-! Model of the extraction of activity instances, event_log_patterns.py:298-414, and of the ordering of the activities
by size, patterns/util.py:118-135. -/

namespace Ficus

/-- `ActivityInTraceInfo`, patterns_models.py:58-65. -/
structure Instance where
  node : ActTree
  startPos : Nat
  length : Nat

/-- `node.length`, patterns_models.py:39. -/
def ActTree.size (t : ActTree) : Nat := t.act.size

/-- `set_of_events`, patterns_models.py:38. -/
def ActTree.events (t : ActTree) : List Int := t.act.events

/-- The grouping loop of `_split_activity_nodes_by_size`, patterns/util.py:123-130: the groups built so far (the last
one open) and the remaining nodes. -/
def groupBySizeLoop : List (List ActTree) → Nat → List ActTree → List (List ActTree)
  | groups, _, [] => groups
  | groups, cur, x :: xs =>
    if x.size ≠ cur then groupBySizeLoop (groups ++ [[x]]) x.size xs
    else groupBySizeLoop (groups.dropLast ++ [groups.getLastD [] ++ [x]]) cur xs

/-- `_split_activity_nodes_by_size`, patterns/util.py:118-135. -/
def splitBySize (nodes : List ActTree) : List (List ActTree) :=
  match nodes.insertionSort (fun a b => a.size ≤ b.size) with
  | [] => []
  | a :: rest =>
    (groupBySizeLoop [[a]] a.size rest).map (fun g => g.insertionSort (fun a b => a.act.name ≤ b.act.name))

mutual
/-- Number of nodes of a tree, used as fuel for the queue of `narrow_activity`. -/
def ActTree.count : ActTree → Nat
  | .node _ cs => 1 + ActTree.countL cs
/-- Number of nodes of a forest. -/
def ActTree.countL : List ActTree → Nat
  | [] => 0
  | t :: ts => ActTree.count t + ActTree.countL ts
end

/-- `set_of_events.issuperset(s)`, event_log_patterns.py:405, and `s.issubset(set_of_events)`, 353. -/
def ActTree.covers (t : ActTree) (s : List Int) : Bool := s.all (fun e => decide (e ∈ t.events))

/-- The queue loop of `narrow_activity`, event_log_patterns.py:401-408; `none` when the fuel does not suffice. -/
def narrowLoop (s : List Int) : Nat → List ActTree → List ActTree → Option (List ActTree)
  | _, [], result => some result
  | 0, _ :: _, _ => none
  | fuel + 1, t :: q, result =>
    if t.covers s then narrowLoop s fuel (q ++ t.children) (result ++ [t]) else narrowLoop s fuel q result

/-- `narrow_activity`, event_log_patterns.py:396-414. -/
def narrowActivity (t : ActTree) (s : List Int) : Option ActTree :=
  match narrowLoop s (ActTree.countL t.children) t.children [] with
  | none => none
  | some result =>
    match result.insertionSort (fun a b => a.size ≤ b.size) with
    | [] => some t
    | r :: _ => some r

/-- The variables of the scan of one trace, event_log_patterns.py:315-319. `index` is the python variable plus one,
that is the position read by the next iteration; `current` holds `current_activity`, `last_activity_start_index` and
`current_set`, which are set and reset together. -/
structure ScanState where
  index : Nat
  current : Option (ActTree × Nat × List Int)
  out : List Instance

/-- The search for a first activity, event_log_patterns.py:329-340: groups in order, within a group in order. -/
def findStart (groups : List (List ActTree)) (e : Int) : Option ActTree :=
  groups.findSome? (fun g => g.find? (fun a => decide (e ∈ a.events)))

/-- The search for a larger activity, event_log_patterns.py:345-360. -/
def findLarger (groups : List (List ActTree)) (cur : ActTree) (s : List Int) : Option ActTree :=
  groups.findSome? (fun g =>
    match g with
    | [] => none
    | a :: _ => if a.size < cur.size then none else g.find? (fun a => a.covers s))

/-- Emission of an instance, event_log_patterns.py:363-371 and 381-389; `none` only if the narrowing runs out of fuel. -/
def emitInstance (shouldNarrow : Bool) (filter : Instance → Bool) (out : List Instance) (cur : ActTree)
    (start stop : Nat) (s : List Int) : Option (List Instance) :=
  match (if shouldNarrow then narrowActivity cur s else some cur) with
  | none => none
  | some node =>
    let info : Instance := { node := node, startPos := start, length := stop - start }
    some (if filter info then out ++ [info] else out)

/-- One iteration of the `while` body, event_log_patterns.py:322-378, for the event at `st.index`. Sets are lists, and
adding an element puts it in front. -/
def scanStep (groups : List (List ActTree)) (shouldNarrow : Bool) (filter : Instance → Bool) (e : Int)
    (st : ScanState) : Option ScanState :=
  match st.current with
  | none =>
    some { st with index := st.index + 1, current := (findStart groups e).map (fun a => (a, st.index, [e])) }
  | some (cur, start, s) =>
    if e ∈ cur.events then some { st with index := st.index + 1, current := some (cur, start, e :: s) }
    else
      match findLarger groups cur (e :: s) with
      | some a => some { st with index := st.index + 1, current := some (a, start, e :: s) }
      | none =>
        match emitInstance shouldNarrow filter st.out cur start st.index s with
        | none => none
        | some out => some { index := st.index, current := none, out := out }

/-- The `while index < len(trace)` loop, event_log_patterns.py:321-378; `none` when the fuel does not suffice. -/
def scanLoop (groups : List (List ActTree)) (shouldNarrow : Bool) (filter : Instance → Bool) (t : List Int) :
    Nat → ScanState → Option ScanState
  | fuel, st =>
    match t[st.index]? with
    | none => some st
    | some e =>
      match fuel with
      | 0 => none
      | fuel + 1 =>
        match scanStep groups shouldNarrow filter e st with
        | none => none
        | some st' => scanLoop groups shouldNarrow filter t fuel st'

/-- After the loop: emission of the open instance, event_log_patterns.py:380-389. -/
def finishScan (shouldNarrow : Bool) (filter : Instance → Bool) (st : ScanState) : Option (List Instance) :=
  match st.current with
  | none => some st.out
  | some (cur, start, s) => emitInstance shouldNarrow filter st.out cur start st.index s

/-- The body of the loop over the traces, event_log_patterns.py:314-391, with `fuel` bounding the iterations of the
inner loop; twice the trace length suffices. -/
def extractFromTrace (fuel : Nat) (groups : List (List ActTree)) (shouldNarrow : Bool) (filter : Instance → Bool)
    (t : List Int) : Option (List Instance) :=
  match scanLoop groups shouldNarrow filter t fuel { index := 0, current := none, out := [] } with
  | none => none
  | some st => finishScan shouldNarrow filter st

/-- `_do_extract_activities_from_log`, event_log_patterns.py:307-393. -/
def extractFromHashes (hashes : List (List Int)) (nodes : List ActTree) (shouldNarrow : Bool)
    (filter : Instance → Bool) : Option (List (List Instance)) :=
  hashes.mapM (fun t => extractFromTrace (2 * t.length) (splitBySize nodes) shouldNarrow filter t)

/-- `extract_activities_from_log`, event_log_patterns.py:298-304. -/
def extractActivities {E : Type} (log : Log E) (nodes : List ActTree) (ext : E → String) (filter : Instance → Bool)
    (shouldNarrow : Bool) : Option (List (List Instance)) :=
  extractFromHashes (hashTraces ext log) nodes shouldNarrow filter

end Ficus
