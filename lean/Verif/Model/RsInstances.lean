import Verif.Model.RsActivities

/-! Model of what the backend makes of activity instances: new logs, instances in the unattached parts of traces, logs of unattached
events, logs per activity, names and numbers of underlying events: features/analysis/patterns/activity_instances.rs and
pipelines/activities_parts.rs (all paths are below /repo/src/rust/ficus_backend/src). `none` is a panic, or that the fuel of a search
is not enough. -/

namespace Ficus.Rs

/-- The calls of the two functions that are passed to `process_activities_in_trace`: `free` are those of `undefined_activity_func`,
`held` those of `activity_func`. The parts of `SubTraceKind`, activity_instances.rs:29-32, are the same up to the length instead of
the end. -/
inductive Piece
  | free (start stop : Nat)
  | held (i : RInstance)
  deriving DecidableEq, Repr

/-- `process_activities_in_trace`, activity_instances.rs:287-309, and `execute_with_activities_instances`,
pipelines/activities_parts.rs:325-345: the calls in their order, from `index` on. -/
def pieces (traceLength : Nat) : Nat → List RInstance → List Piece
  | index, [] => if index < traceLength then [.free index traceLength] else []
  | index, i :: rest =>
    (if index < i.startPos then [.free index i.startPos] else []) ++ .held i :: pieces traceLength (i.startPos + i.length) rest

/-- The events of a range of indices, as in activity_instances.rs:392-395, 405-407 and 540-542, and the slices of activity_instances.rs:445
and 654: panics beyond the end. -/
def rangeOf {A : Type} (t : List A) (start stop : Nat) : Option (List A) :=
  if start < stop then (if stop ≤ t.length then some (slice t start (stop - start)) else none) else some []

/-- `UndefActivityHandlingStrategy`, activity_instances.rs:311-315; the factory of single events gives equal events. -/
inductive Strategy (E : Type)
  | dontInsert
  | insertAsSingleEvent (event : E)
  | insertAllEvents

/-- The two functions of activity_instances.rs:386-415: what they push to the new trace. Clones of events share the underlying events,
which is the same as having equal ones here. -/
def pushedFor {E : Type} (strategy : Strategy E) (make : RInstance → E) (t : List (Nested E)) : Piece → Option (List (Nested E))
  | .free start stop =>
    match strategy with
    | .dontInsert => some []
    | .insertAsSingleEvent event => some [.atom event]
    | .insertAllEvents => rangeOf t start stop
  | .held i => do return [.over (make i) (← rangeOf t i.startPos (i.startPos + i.length))]

/-- The body of the loop over the traces, activity_instances.rs:383-420. -/
def newTrace {E : Type} (strategy : Strategy E) (make : RInstance → E) (instances : List RInstance) (t : List (Nested E)) :
    Option (List (Nested E)) := do
  return (← (pieces t.length 0 instances).mapM (pushedFor strategy make t)).flatten

/-- `create_new_log_from_activities_instances`, activity_instances.rs:369-423. -/
def newLog {E : Type} (strategy : Strategy E) (make : RInstance → E) (instances : List (List RInstance)) (log : List (List (Nested E))) :
    Option (List (List (Nested E))) :=
  (instances.zip log).mapM (fun p => newTrace strategy make p.1 p.2)

/-- The shift of the instances of a part of a trace, activity_instances.rs:455-459. -/
def shift (start : Nat) (i : RInstance) : RInstance := { i with startPos := start + i.startPos }

/-- `handle_unattached_events`, activity_instances.rs:439-462; nothing is done for instances. -/
def unattachedIn (h : Heap) (o : Options) (minEvents : Nat) (activities t : List Nat) : Piece → Option (List RInstance)
  | .free start stop => do
    if stop - start < minEvents then return []
    let r ← extractInstances h o [← rangeOf t start stop] activities
    return ((r[0]?).getD []).map (shift start)
  | .held _ => some []

/-- The body of the loop over the traces, activity_instances.rs:436-470. `sort_by` is stable, as `insertionSort` is. -/
def addToInstances (h : Heap) (o : Options) (minEvents : Nat) (activities : List Nat) (existing : List RInstance) (t : List Nat) :
    Option (List RInstance) := do
  let new ← (pieces t.length 0 existing).mapM (unattachedIn h o minEvents activities t)
  return (new.flatten ++ existing).insertionSort (fun first second => first.startPos ≤ second.startPos)

/-- `add_unattached_activities`, activity_instances.rs:425-474. That the vector of activities is sorted in place by every extraction is
left out; the extraction sorts it anyway (`extract_sorted`). -/
def addUnattached (h : Heap) (o : Options) (minEvents : Nat) (log : List (List Nat)) (activities : List Nat)
    (existing : List (List RInstance)) : Option (List (List RInstance)) :=
  (existing.zip log).mapM (fun p => addToInstances h o minEvents activities p.1 p.2)

/-- The body of the loop of `create_log_from_unattached_events`, activity_instances.rs:649-662. -/
def unattachedTrace {A : Type} (t : List A) (instances : List RInstance) : Option (List A) := do
  let parts ← (pieces t.length 0 instances).mapM (fun p =>
    match p with
    | .free start stop => rangeOf t start stop
    | .held _ => some [])
  return parts.flatten

/-- `create_log_from_unattached_events`, activity_instances.rs:643-665. -/
def unattachedLog {A : Type} (log : List (List A)) (instances : List (List RInstance)) : Option (List (List A)) :=
  (log.zip instances).mapM (fun p => unattachedTrace p.1 p.2)

/-- Adding a trace to the log of a name, activity_instances.rs:505-511 and 544-552. -/
def addTrace {A : Type} (logs : Dict String (List (List A))) (name : String) (t : List A) : Dict String (List (List A)) :=
  match logs.get? name with
  | some log => logs.set name (log ++ [t])
  | none => logs.set name [t]

/-- `create_activities_logs_from_log`, activity_instances.rs:494-517. -/
def logsFromLog {E : Type} [HasName E] (log : List (List (Nested E))) : Dict String (List (List E)) :=
  log.flatten.foldl (fun logs event =>
    match event with
    | .atom _ => logs
    | .over e _ => addTrace logs (name e) (substitute [] event)) []

/-- `activity_handler`, activity_instances.rs:526-553; nothing is done for unattached parts. -/
def logOfPiece {A : Type} (h : Heap) (level : Nat) (t : List A) (logs : Dict String (List (List A))) :
    Piece → Option (Dict String (List (List A)))
  | .free _ _ => some logs
  | .held i => do
    if level ≠ (h i.node).level then return logs
    return addTrace logs (h i.node).name (← rangeOf t i.startPos (i.startPos + i.length))

/-- `create_log_from_traces_activities`, activity_instances.rs:519-560. -/
def logsFromInstances {A : Type} (h : Heap) (level : Nat) (log : List (List A)) (instances : List (List RInstance)) :
    Option (Dict String (List (List A))) :=
  (instances.zip log).foldlM (fun logs p => (pieces p.2.length 0 p.1).foldlM (logOfPiece h level p.2) logs) []

/-- The part of a name that is shown, activity_instances.rs:581-595: as in `hashName`. -/
def shownName (find : Option (String → Option (Option Match))) (name : String) : String :=
  match find with
  | none => name
  | some f =>
    match f name with
    | some (some m) => if m.1 = 0 then upTo name m.2 else name
    | _ => name

/-- The loop of `create_activity_name`, activity_instances.rs:578-603: for the names left. -/
def activityNameLoop (find : Option (String → Option (Option Match))) : List String → String
  | [] => ""
  | [n] => "(" ++ shownName find n ++ ")"
  | n :: rest => "(" ++ shownName find n ++ ")" ++ "::" ++ activityNameLoop find rest

/-- `create_activity_name`, activity_instances.rs:562-606. Simplification: an expression that does not compile, on which it
panics (activity_instances.rs:573-576), is left out. -/
def activityName {E : Type} [HasName E] (log : List (List E)) (find : Option (String → Option (Option Match))) (r : RepeatSet) :
    Option String := do
  let trace ← log[r.traceIndex]?
  return activityNameLoop find ((← rangeOf trace r.firstPos (r.firstPos + r.length)).map name)

mutual
/-- `count_underlying_events_for_event`, activity_instances.rs:625-641. -/
def countUnderlying {E : Type} : Nested E → Nat
  | .atom _ => 1
  | .over _ underlying => countAll underlying

/-- The loops over underlying events, activity_instances.rs:633-635, and over the events of a trace, activity_instances.rs:615-617. -/
def countAll {E : Type} : List (Nested E) → Nat
  | [] => 0
  | event :: events => countUnderlying event + countAll events
end

/-- `count_underlying_events`, activity_instances.rs:608-623. -/
def countLog {E : Type} (log : List (List (Nested E))) : Nat := (log.map countAll).sum

end Ficus.Rs
