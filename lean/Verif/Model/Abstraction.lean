import Verif.Model.Extract
import Verif.Model.Xes

/-! Model of the functions that turn activity instances into logs, event_log_patterns.py:417-561 and 679-736, and of
`substitute_original_events`, patterns/util.py:138-150. -/

namespace Ficus

/-- `MyEvent` whose payload may hold the entries `'UnderlyingEvents'` (patterns/constants.py:3) and
`'UnderlyingActivities'` (constants.py:4): `comp` has the first of them, `leaf` does not; the second is the optional
list. `payload` holds the remaining entries. Copies made with `copy.copy` are the same value. -/
inductive NEvent
  | leaf (payload : Payload) (activities : Option (List ActTree))
  | comp (payload : Payload) (underlying : List NEvent) (activities : Option (List ActTree))

/-- The entries other than the two special ones. -/
def NEvent.payload : NEvent → Payload
  | .leaf p _ => p
  | .comp p _ _ => p

/-- `get_underlying_activities`, event_log_patterns.py:465-466. -/
def NEvent.underlyingActivities : NEvent → List ActTree
  | .leaf _ a => a.getD []
  | .comp _ _ a => a.getD []

/-- `_process_trace_activities`, event_log_patterns.py:417-430, for a trace of length `n`. The callbacks act on a state
and may raise. `index` is the loop variable. -/
def processTraceLoop {S : Type} (n : Nat) (onGap : Nat → Nat → S → Except PyErr S)
    (onActivity : Instance → S → Except PyErr S) : Nat → List Instance → S → Except PyErr S
  | index, [], st => if index < n then onGap index n st else .ok st
  | index, i :: is, st => do
    let st ← if index < i.startPos then onGap index i.startPos st else .ok st
    let st ← onActivity i st
    processTraceLoop n onGap onActivity (i.startPos + i.length) is st

/-- `_process_trace_activities`, event_log_patterns.py:417-430. -/
def processTrace {S : Type} (n : Nat) (insts : List Instance) (onGap : Nat → Nat → S → Except PyErr S)
    (onActivity : Instance → S → Except PyErr S) (st : S) : Except PyErr S :=
  processTraceLoop n onGap onActivity 0 insts st

/-- `UndefinedActivityHandlingStrategy`, patterns_models.py:68-71; `unknown` is any other value. -/
inductive Strategy
  | dontInsert
  | insertAsSingleEvent
  | insertAllEvents
  | unknown
  deriving DecidableEq, Repr

/-- `trace[i]` for `i` in `range(start, stop)`, event_log_patterns.py:448-449. -/
def eventsAt {E : Type} (t : List E) (start stop : Nat) : Except PyErr (List E) :=
  (List.range' start (stop - start)).mapM (fun i =>
    match t[i]? with
    | some e => .ok e
    | none => .error .indexError)

/-- The new event for a gap, event_log_patterns.py:444-445. -/
def undefinedEvent : NEvent := .leaf [("concept:name", .str "UndefinedActivity")] none

/-- `undefined_activity_func`, event_log_patterns.py:442-453. -/
def onUndefined (strategy : Strategy) (t : List NEvent) (start stop : Nat) (acc : List NEvent) :
    Except PyErr (List NEvent) :=
  match strategy with
  | .insertAsSingleEvent => .ok (acc ++ [undefinedEvent])
  | .insertAllEvents => do
    let es ← eventsAt t start stop
    return acc ++ es
  | .dontInsert => .ok acc
  | .unknown => .error .valueError

/-- The new event for an instance, event_log_patterns.py:455-471. -/
def activityEvent (useHashesAsNames : Bool) (t : List NEvent) (i : Instance) : NEvent :=
  let under := slice t i.startPos i.length
  .comp [("concept:name", .str (if useHashesAsNames then i.node.act.uniqueName else i.node.act.name))] under
    (some (under.flatMap NEvent.underlyingActivities ++ [i.node]))

/-- The body of the loop of `create_new_log_from_activities`, event_log_patterns.py:440-478. -/
def newTrace (useHashesAsNames : Bool) (strategy : Strategy) (insts : List Instance) (t : List NEvent) :
    Except PyErr (List NEvent) :=
  processTrace t.length insts (onUndefined strategy t)
    (fun i acc => .ok (acc ++ [activityEvent useHashesAsNames t i])) []

/-- `create_new_log_from_activities`, event_log_patterns.py:433-482. -/
def createNewLog (log : Log NEvent) (insts : List (List Instance)) (useHashesAsNames : Bool) (strategy : Strategy) :
    Except PyErr (Log NEvent) := do
  let ts ← (insts.zip log.traces).mapM (fun p => newTrace useHashesAsNames strategy p.1 p.2.events)
  return Log.ofEvs ts

mutual
/-- The loop body of `substitute_original_events` for one event, patterns/util.py:141-144. -/
def substituteEvent : NEvent → List NEvent
  | .leaf p a => [.leaf p a]
  | .comp _ u _ => substituteOriginalEvents u
/-- `substitute_original_events`, patterns/util.py:138-150. -/
def substituteOriginalEvents : List NEvent → List NEvent
  | [] => []
  | e :: es => substituteEvent e ++ substituteOriginalEvents es
end

/-- `create_unattached_events_log`, event_log_patterns.py:507-523. -/
def createUnattachedLog {E : Type} (log : Log E) (insts : List (List Instance)) : Except PyErr (Log E) := do
  let ts ← (insts.zip log.traces).mapM (fun p =>
    processTrace p.2.events.length p.1 (fun s e acc => .ok (acc ++ slice p.2.events s (e - s)))
      (fun _ acc => .ok acc) [])
  return Log.ofEvs ts

/-- `adjust_activity`, event_log_patterns.py:538-541. -/
def shiftInstance (start : Nat) (i : Instance) : Instance :=
  { node := i.node, startPos := start + i.startPos, length := i.length }

/-- `process_undefined_events`, event_log_patterns.py:537-552. The extraction never runs out of fuel (C29a), so the
`none` branch is unreachable; the result of the extraction of one word has one entry, so is the empty branch. -/
def addFromGap {E : Type} (t : List E) (nodes : List ActTree) (ext : E → String) (filter : Instance → Bool)
    (minEvents : Nat) (shouldNarrow : Bool) (start stop : Nat) (acc : List Instance) : List Instance :=
  let hashes := (slice t start (stop - start)).map (fun e => stringHash (ext e))
  if hashes.length < minEvents then acc
  else
    match extractFromHashes [hashes] nodes shouldNarrow filter with
    | some (is :: _) => acc ++ is.map (shiftInstance start)
    | _ => acc

/-- The loop body of `add_unattached_activities`, event_log_patterns.py:535-559. -/
def addUnattachedToTrace {E : Type} (t : List E) (nodes : List ActTree) (ext : E → String)
    (filter : Instance → Bool) (minEvents : Nat) (shouldNarrow : Bool) (insts : List Instance) :
    Except PyErr (List Instance) := do
  let new ← processTrace t.length insts
    (fun s e acc => .ok (addFromGap t nodes ext filter minEvents shouldNarrow s e acc)) (fun _ acc => .ok acc) []
  return (new ++ insts).insertionSort (fun a b => a.startPos ≤ b.startPos)

/-- `add_unattached_activities`, event_log_patterns.py:526-561. -/
def addUnattachedActivities {E : Type} (log : Log E) (nodes : List ActTree) (existing : List (List Instance))
    (ext : E → String) (filter : Instance → Bool) (minEvents : Nat) (shouldNarrow : Bool) :
    Except PyErr (List (List Instance)) :=
  (existing.zip log.traces).mapM (fun p =>
    addUnattachedToTrace p.2.events nodes ext filter minEvents shouldNarrow p.1)

/-- `full_fill_activities`, event_log_patterns.py:485-504: the instances created for a gap are not shifted, and the
result is sorted by descending start. python's `sorted(.., reverse=True)` is stable. -/
def fullFillActivities {E : Type} (log : Log E) (insts : List (List Instance)) (creator : List E → List Instance) :
    Except PyErr (List (List Instance)) :=
  (insts.zip log.traces).mapM (fun p => do
    let all ← processTrace p.2.events.length p.1 (fun s e acc => .ok (acc ++ creator (slice p.2.events s (e - s))))
      (fun _ acc => .ok acc) p.1
    return all.insertionSort (fun a b => b.startPos ≤ a.startPos))

mutual
/-- Number of events in a nested event, used as fuel for the queue of `count_underlying_events`. -/
def NEvent.weight : NEvent → Nat
  | .leaf _ _ => 1
  | .comp _ u _ => 1 + NEvent.weightL u
/-- Number of events in a list of nested events. -/
def NEvent.weightL : List NEvent → Nat
  | [] => 0
  | e :: es => NEvent.weight e + NEvent.weightL es
end

/-- The queue loop of `execute_with_underlying_events`, event_log_patterns.py:690-696, and of
`count_underlying_events`, 702-708; `none` when the fuel does not suffice. -/
def underlyingLoop {S : Type} (action : S → NEvent → S) : Nat → List NEvent → S → Option S
  | _, [], st => some st
  | 0, _ :: _, _ => none
  | fuel + 1, e :: q, st =>
    match e with
    | .comp _ u _ => underlyingLoop action fuel (q ++ u) st
    | .leaf p a => underlyingLoop action fuel q (action st (.leaf p a))

/-- `execute_with_underlying_events`, event_log_patterns.py:688-696. -/
def executeWithUnderlying {S : Type} (e : NEvent) (action : S → NEvent → S) (st : S) : Option S :=
  underlyingLoop action e.weight [e] st

/-- `count_underlying_events`, event_log_patterns.py:699-710. -/
def countUnderlying (e : NEvent) : Option Nat := underlyingLoop (fun n _ => n + 1) e.weight [e] 0

/-- `calculate_underlying_events_count`, event_log_patterns.py:679-685. -/
def calculateUnderlyingCount (log : Log NEvent) : Option Nat :=
  log.evs.flatten.foldlM (fun c e => (countUnderlying e).map (c + ·)) 0

/-- The state of the loop of `add_all_patterns`: `all_trace_patterns` and `current_start`. -/
structure PatternState where
  out : List SubArray
  start : Nat
  deriving DecidableEq

/-- The `while` loop of `add_all_patterns`, event_log_patterns.py:727-732, as a loop over `index` in
`range(1, len(trace))`; `find` is `tree.find` of the suffix tree library. -/
def patternStep (find : List Int → Bool) (t : List Int) (st : PatternState) (index : Nat) : PatternState :=
  if find (slice t st.start (index - st.start)) then st
  else { out := st.out ++ [{ firstPos := st.start, length := index - st.start }], start := index }

/-- `add_all_patterns`, event_log_patterns.py:713-736. `find ps w` is the answer of the suffix tree of the library built
from the sub-arrays `ps` of the trace for the word `w`; the library is not modelled. -/
def addAllPatterns (find : List (List Int) → List Int → Bool) (log : List (List Int))
    (patterns : List (List SubArray)) : List (List SubArray) :=
  (log.zip patterns).map (fun p =>
    ((List.range' 1 (p.1.length - 1)).foldl
      (patternStep (find (p.2.map (fun s => slice p.1 s.firstPos s.length))) p.1)
      { out := [], start := 0 }).out)

end Ficus
