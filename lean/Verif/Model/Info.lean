import Verif.Model.Log

/-! Model of `src/python/ficus/legacy/analysis/event_log_info.py`. -/

namespace Ficus
variable {E : Type} [HasName E]

/-- `fake_start_name`, util.py:11. -/
def fakeStart : String := "FAKE_START"
/-- `fake_end_name`, util.py:12. -/
def fakeEnd : String := "FAKE_END"

/-- `increase_in_int_map`, util.py:127-129. -/
def increaseInIntMap {K : Type} [DecidableEq K] (d : Dict K Nat) (k : K) : Dict K Nat :=
  d.set k ((d.get? k).getD 0 + 1)

/-- The part of `LogInformation` (event_log_info.py:25-28) built by the scan. -/
structure LogInfo where
  pairs : Dict (String × String) Nat := []
  eventsCount : Dict String Nat := []
  deriving DecidableEq, Repr

/-- `ignored_events is not None and current_name in ignored_events`, event_log_info.py:52. -/
def isIgnored (ignored : Option (List String)) (n : String) : Bool :=
  match ignored with
  | none => false
  | some s => decide (n ∈ s)

/-- The body of the inner loop, event_log_info.py:50-67; the state is the dictionaries and `prev_event`. -/
def infoEventStep (ignored : Option (List String)) (fake : Bool) (st : LogInfo × Option E) (event : E) :
    LogInfo × Option E :=
  let currentName := name event
  if isIgnored ignored currentName then st
  else
    let info := { st.1 with eventsCount := increaseInIntMap st.1.eventsCount currentName }
    match st.2 with
    | none =>
      let info := if fake then { info with pairs := increaseInIntMap info.pairs (fakeStart, currentName) } else info
      (info, some event)
    | some prev =>
      ({ info with pairs := increaseInIntMap info.pairs (name prev, currentName) }, some event)

/-- The body of the outer loop, event_log_info.py:48-70. -/
def infoTraceStep (ignored : Option (List String)) (fake : Bool) (info : LogInfo) (trace : List E) : LogInfo :=
  let st := trace.foldl (infoEventStep ignored fake) (info, (none : Option E))
  match st.2 with
  | some prev =>
    if fake then { st.1 with pairs := increaseInIntMap st.1.pairs (name prev, fakeEnd) } else st.1
  | none => st.1

/-- `create_log_information`, event_log_info.py:35-72 (the dictionaries; the graph is `dfgOf`). -/
def createLogInformation (log : Log E) (ignored : Option (List String) := none) (fake : Bool := true) : LogInfo :=
  log.evs.foldl (infoTraceStep ignored fake) {}

/-- `DirectlyFollowsGraph`, event_log_info.py:7-11. -/
structure Dfg where
  pairs : Dict (String × String) Nat
  followedEvents : Dict String (Dict String Nat) := []
  singleFollower : List String := []
  deriving DecidableEq, Repr

/-- The loop body of `DirectlyFollowsGraph.__init__`, event_log_info.py:13-22. The set `events_with_single_follower` is a
list without duplicates. -/
def dfgStep (pairs : Dict (String × String) Nat) (g : Dfg) (key : String × String) : Dfg :=
  let (first, second) := key
  let cnt := (pairs.get? (first, second)).getD 0
  match g.followedEvents.get? first with
  | some followers =>
    let single := if first ∈ g.singleFollower then g.singleFollower.filter (fun x => decide (x ≠ first))
                  else g.singleFollower
    let followed := if second ∉ followers.keys then g.followedEvents.set first (followers.set second cnt)
                    else g.followedEvents
    { g with followedEvents := followed, singleFollower := single }
  | none =>
    { g with followedEvents := g.followedEvents.set first [(second, cnt)],
             singleFollower := g.singleFollower ++ [first] }

/-- `DirectlyFollowsGraph(pairs)`, event_log_info.py:7-22. -/
def dfgOf (pairs : Dict (String × String) Nat) : Dfg :=
  pairs.keys.foldl (dfgStep pairs) { pairs := pairs }

/-- `create_dfg`, event_log_info.py:31-32. -/
def createDfg (log : Log E) : Dfg := dfgOf (createLogInformation log none false).pairs

/-- `TraceCounts`, event_log_info.py:75-78. -/
structure TraceCounts where
  counts : Dict String Nat
  overallCount : Nat
  deriving DecidableEq, Repr

/-- `calculate_events_in_each_trace`, event_log_info.py:81-90. -/
def calculateEventsInEachTrace (log : Log E) : List TraceCounts :=
  log.evs.map (fun trace =>
    { counts := trace.foldl (fun d e => increaseInIntMap d (name e)) [], overallCount := trace.length })

/-- The loop body of `find_all_events_names`, event_log_info.py:105-116; the state is
`(predicate_not_hold, predicate_hold)`, sets as lists. -/
def findNamesStep (predicate : E → Bool) (st : List String × List String) (event : E) : List String × List String :=
  let n := name event
  if n ∈ st.1 then st
  else if !predicate event then
    let hold := if n ∈ st.2 then st.2.filter (fun x => decide (x ≠ n)) else st.2
    (st.1.insert n, hold)
  else (st.1, st.2.insert n)

/-- `find_all_events_names`, event_log_info.py:99-118. -/
def findAllEventsNames (log : Log E) (predicate : E → Bool) : List String :=
  (log.evs.foldl (fun st trace => trace.foldl (findNamesStep predicate) st) ([], [])).2

omit [HasName E] in
/-- `calculate_events_count`, event_log_info.py:121-122. -/
def calculateEventsCount (log : Log E) : Nat := (log.evs.map List.length).sum

end Ficus
