import Verif.Model.RsInfo
import Verif.Model.Split
import Mathlib.Data.List.Sort
import Mathlib.Data.Nat.Pairing

/-! Model of the parts of the backend that filter and change a log: features/mutations/filtering.rs, mutations.rs and
split.rs, the containers below event_log/core, and the parts of pipelines/filtering_parts.rs, mutations_parts.rs,
util_parts.rs and activities_parts.rs that call them (all paths are below /repo/src/rust/ficus_backend/src). A log is the
list of its traces, a trace the list of its events; `none` is a panic. The code changes the log of the context in place; the
functions here return the changed log. Two traces or events of a log that are the same object are not modelled: the readers
and the clones of the code create every trace and event anew. -/

namespace Ficus.Rs

/-- `for index in (0..n).rev() { … }` over a vector that the body changes. -/
def backLoop {A : Type} (step : Nat → List A → Option (List A)) : Nat → List A → Option (List A)
  | 0, l => some l
  | n + 1, l => do backLoop step n (← step n l)

/-- `Vec::remove` (`std`, external): panics if there is no such element. -/
def removeAt {A : Type} (l : List A) (i : Nat) : Option (List A) := if i < l.length then some (l.eraseIdx i) else none

/-- The body of the loop of `remove_events_by`, event_log/core/event/events_holder.rs:71-73. -/
def removeStep {E : Type} (predicate : E → Option Bool) (i : Nat) (events : List E) : Option (List E) := do
  let event ← events[i]?
  if ← predicate event then removeAt events i else some events

/-- `remove_events_by`, event_log/core/event/events_holder.rs:65-75. -/
def removeEventsBy {E : Type} (predicate : E → Option Bool) (events : List E) : Option (List E) :=
  backLoop (removeStep predicate) events.length events

/-- The body of the loop of `filter_events_by`, event_log/core/trace/traces_holder.rs:55-58. -/
def filterStep {E : Type} (predicate : E → Option Bool) (i : Nat) (traces : List (List E)) : Option (List (List E)) := do
  let trace ← traces[i]?
  let left ← removeEventsBy predicate trace
  let traces := traces.set i left
  if left.isEmpty then removeAt traces i else some traces

/-- `filter_events_by`, event_log/core/trace/traces_holder.rs:49-60. -/
def filterEventsBy {E : Type} (predicate : E → Option Bool) (log : List (List E)) : Option (List (List E)) :=
  backLoop (filterStep predicate) log.length log

section
variable {E : Type} [HasName E]

/-- `filter_log_by_name`, filtering.rs:7-9, the part of filtering_parts.rs:20-28. -/
def filterByName (log : List (List E)) (n : String) : Option (List (List E)) :=
  filterEventsBy (fun event => some (decide (name event = n))) log

/-- `filter_log_by_names`, filtering.rs:11-13. -/
def filterByNames (log : List (List E)) (names : List String) : Option (List (List E)) :=
  filterEventsBy (fun event => some (decide (name event ∈ names))) log

/-- `filter_log_by_regex`, filtering.rs:15-17. The regular expression (`fancy_regex`, external) is the function `isMatch`,
`none` an error of the matcher, on which `unwrap` panics. -/
def filterByRegex (isMatch : String → Option Bool) (log : List (List E)) : Option (List (List E)) :=
  filterEventsBy (fun event => isMatch (name event)) log

/-- What the part for regular expressions does: the text is no expression, it panics, or it gives a log. -/
inductive RegexResult (E : Type)
  | invalid
  | panics
  | done (log : List (List E))
  deriving DecidableEq, Repr

/-- `filter_log_by_regex`, filtering_parts.rs:30-43. `parse` is `Regex::new` (external), `none` an error. -/
def filterByRegexPart (parse : String → Option (String → Option Bool)) (regex : String) (log : List (List E)) :
    RegexResult E :=
  match parse regex with
  | none => .invalid
  | some isMatch =>
    match filterByRegex isMatch log with
    | none => .panics
    | some log => .done log
end

/-- The first loop of `filter_traces`, event_log/core/trace/traces_holder.rs:89-94: the indices to remove. -/
def toRemove {E : Type} (predicate : List E → Nat → Bool) (log : List (List E)) : Option (List Nat) :=
  (List.range log.length).foldlM (fun removed index => do
    let trace ← log[index]?
    return if predicate trace index then removed ++ [index] else removed) []

/-- The body of the second loop of `filter_traces`, event_log/core/trace/traces_holder.rs:97-99. -/
def removeMarked {A : Type} (marked : List Nat) (i : Nat) (l : List A) : Option (List A) :=
  if i ∈ marked then removeAt l i else some l

/-- `filter_traces`, event_log/core/trace/traces_holder.rs:88-101: removes the traces that satisfy the predicate. -/
def filterTracesBy {E : Type} (predicate : List E → Nat → Bool) (log : List (List E)) : Option (List (List E)) := do
  let marked ← toRemove predicate log
  backLoop (removeMarked marked) log.length log

/-- `filter_traces_by_count`, filtering_parts.rs:60-68. -/
def filterByCount {E : Type} (log : List (List E)) (minEventsCount : Nat) : Option (List (List E)) :=
  filterTracesBy (fun trace _ => decide (trace.length < minEventsCount)) log

/-! ### Groups of equal traces -/

section
variable {E : Type} [HasName E]

/-- `TracePointer`, split.rs:10-13: a trace and its index in the log. -/
abbrev Pointer (E : Type) := List E × Nat

/-- `create_len_to_traces_map`, split.rs:65-83. -/
def lenToTraces (log : List (List E)) : Dict Nat (List (Pointer E)) :=
  log.zipIdx.foldl (fun d p => groupInto d p.1.length p) []

/-- The hash of the name of the event at the index, split.rs:141-146. `hash` is the `DefaultHasher` on strings (external). -/
def pointerHash (hash : String → Nat) (index : Nat) (p : Pointer E) : Option Nat := do
  let event ← p.1[index]?
  return hash (name event)

/-- The loop over the traces of a group, split.rs:139-152. -/
def hashesToTraces (hash : String → Nat) (index : Nat) (group : List (Pointer E)) : Option (Dict Nat (List (Pointer E))) :=
  group.foldlM (fun d p => do return groupInto d (← pointerHash hash index p) p) []

/-- The body of the loop of `update_groups`, split.rs:133-156; `visit` numbers the maps that are iterated. -/
def updateGroup (it : Iter) (hash : String → Nat) (index visit : Nat) (group : List (Pointer E)) :
    Option (List (List (Pointer E))) :=
  if group.length = 1 then some [group]
  else do return it.order "split.rs:154" visit ((← hashesToTraces hash index group).map Prod.snd)

/-- `update_groups`, split.rs:126-160: the new groups, and whether all groups have one trace. -/
def updateGroups (it : Iter) (hash : String → Nat) (index visit : Nat) (groups : List (List (Pointer E))) :
    Option (List (List (Pointer E)) × Bool) := do
  let new ← groups.zipIdx.mapM (fun g => updateGroup it hash index (Nat.pair visit g.2) g.1)
  return (new.flatten, groups.all (fun g => decide (g.length = 1)))

/-- The loop of `process_traces_group`, split.rs:97-110, for traces of `len` events; the index grows up to `len`, so that
`len - index` rounds are enough. -/
def groupLoop (it : Iter) (hash : String → Nat) (visit len : Nat) :
    Nat → Nat → List (List (Pointer E)) → Option (List (List (Pointer E)))
  | 0, _, groups => some groups
  | fuel + 1, index, groups =>
    if index ≥ len then some groups
    else do
      let new ← updateGroups it hash index (Nat.pair visit index) groups
      if new.2 then some groups else groupLoop it hash visit len fuel (index + 1) new.1

/-- `process_traces_group`, split.rs:85-115. -/
def processGroup (it : Iter) (hash : String → Nat) (visit : Nat) (traces : List (Pointer E)) :
    Option (List (List (Pointer E))) :=
  if traces.length = 1 then some [traces]
  else do
    let first ← traces.head?
    groupLoop it hash visit first.1.length first.1.length 0 [traces]

/-- `first[0].index`, split.rs:61. -/
def firstIndex (group : List (Pointer E)) : Nat :=
  match group with
  | p :: _ => p.2
  | [] => 0

/-- `create_trace_pointers_groups`, split.rs:50-63: the comparison panics on an empty group. `sort_by` is stable, as
`insertionSort` is. -/
def pointerGroups (it : Iter) (hash : String → Nat) (log : List (List E)) : Option (List (List (Pointer E))) := do
  let groups ← (it.order "split.rs:57" 0 (lenToTraces log)).zipIdx.mapM (fun kv => processGroup it hash kv.2 kv.1.2)
  let result := groups.flatten
  if result.any List.isEmpty then none
  else return result.insertionSort (fun first second => firstIndex first ≤ firstIndex second)

/-- `get_traces_groups_indices`, split.rs:30-38. -/
def groupsIndices (it : Iter) (hash : String → Nat) (log : List (List E)) : Option (List (List Nat)) := do
  return (← pointerGroups it hash log).map (fun group => group.map Prod.snd)

/-- `split_by_traces`, split.rs:40-48. -/
def splitTraces (it : Iter) (hash : String → Nat) (log : List (List E)) : Option (List (List (List E))) := do
  return (← pointerGroups it hash log).map (fun group => group.map Prod.fst)

/-- `filter_log_by_variants`, filtering_parts.rs:45-58. -/
def filterByVariants (it : Iter) (hash : String → Nat) (log : List (List E)) : Option (List (List E)) := do
  let kept ← (← groupsIndices it hash log).mapM List.head?
  filterTracesBy (fun _ index => decide (index ∉ kept)) log
end

/-! ### Changing events -/

/-- `XesEventImpl`, event_log/xes/xes_event.rs: the name and the time of an event and its other attributes. A time is a
number of seconds; the user data of an event is left out. -/
structure REvent (P : Type) where
  name : String
  date : Int
  payload : Option P
  deriving DecidableEq, Repr

instance {P : Type} : HasName (REvent P) := ⟨REvent.name⟩

/-- The least and the greatest time of `chrono` (external). -/
structure Calendar where
  minUtc : Int
  maxUtc : Int

section
variable {P : Type}

/-- `XesEventImpl::new`, event_log/xes/xes_event.rs:74-79. -/
def REvent.new (name : String) (date : Int) : REvent P := ⟨name, date, none⟩

/-- The body of the loop of `add_artificial_start_end_activities`, mutations.rs:26-42, with `new_with_min_date` and
`new_with_max_date` of event_log/xes/xes_event.rs:81-87. -/
def addToTrace (c : Calendar) (addStart addEnd : Bool) (events : List (REvent P)) : List (REvent P) :=
  let events := if addStart then REvent.new "ARTIFICIAL_START" c.minUtc :: events else events
  if addEnd then events ++ [REvent.new "ARTIFICIAL_END" c.maxUtc] else events

/-- `add_artificial_start_end_activities`, mutations.rs:21-44; the three parts of mutations_parts.rs:9-37 pass `true, true`,
`true, false` and `false, true`. -/
def addArtificialEvents (c : Calendar) (addStart addEnd : Bool) (log : List (List (REvent P))) : List (List (REvent P)) :=
  log.map (addToTrace c addStart addEnd)

/-- A match of a regular expression: where it starts and where it ends. The code counts bytes, the model characters. -/
abbrev Match := Nat × Nat

/-- `name[0..end]`. -/
def upTo (s : String) (stop : Nat) : String := String.ofList (s.toList.take stop)

/-- What the loop of `apply_class_extractor` does with one name, activities_parts.rs:461-483. `isMatch` is the filter and
`find` the expression of the classes (`fancy_regex`, external); `none` is an error of the matcher, on which the filter
panics. -/
def extractClass (isMatch : String → Option Bool) (find : String → Option (Option Match)) (name : String) :
    Option String := do
  if ← isMatch name then
    match find name with
    | none => return name
    | some found =>
      let range := match found with
        | some m => m
        | none => (0, name.toList.length)
      return if range.1 = 0 then upTo name range.2 else name
  else return name

/-- The loops of `apply_class_extractor`, activities_parts.rs:459-485. -/
def applyClassExtractor (isMatch : String → Option Bool) (find : String → Option (Option Match))
    (log : List (List (REvent P))) : Option (List (List (REvent P))) :=
  log.mapM (fun trace => trace.mapM (fun event => do
    return { event with name := ← extractClass isMatch find event.name }))

/-- `RegexEventHasher::hash_name`, event_log/core/event/event_hasher.rs:69-83. -/
def hashName (hash : String → Nat) (find : String → Option (Option Match)) (name : String) : Nat :=
  match find name with
  | some (some m) => if m.1 = 0 then hash (upTo name m.2) else hash name
  | _ => hash name

/-- `create_hashed_event_log`, util_parts.rs:26-34, with `to_hashes_vectors` of
event_log/core/trace/traces_holder.rs:71-86: with an expression of classes the hashes of `RegexEventHasher`, else those of
`NameEventHasher`. -/
def hashedLog (hash : String → Nat) (find : Option (String → Option (Option Match))) (log : List (List (REvent P))) :
    List (List Nat) :=
  log.map (fun trace => trace.map (fun event =>
    match find with
    | some f => hashName hash f event.name
    | none => hash event.name))

/-- `get_names_event_log`, util_parts.rs:57-75. -/
def namesLog {E : Type} [HasName E] (log : List (List E)) : List (List String) :=
  log.map (fun trace => trace.map name)

/-- The loop over the names of a trace, util_parts.rs:85-89. -/
def eventsOfNames (date : Int) : List String → List (REvent P)
  | [] => []
  | n :: names => REvent.new n date :: eventsOfNames (date + 1) names

/-- `use_names_event_log`, util_parts.rs:77-98. The greatest time is far beyond the number of events of a trace. -/
def useNamesLog (c : Calendar) (names : List (List String)) : List (List (REvent P)) :=
  names.map (eventsOfNames c.minUtc)
end

/-- An event with the list of underlying events in its user data, if there is one, activity_instances.rs:671-673. -/
inductive Nested (E : Type)
  | atom (event : E)
  | over (event : E) (underlying : List (Nested E))
  deriving Repr

mutual
/-- `substitute_underlying_events`, features/analysis/patterns/activity_instances.rs:667-680: pushes to the trace. -/
def substitute {E : Type} (trace : List E) : Nested E → List E
  | .atom event => trace ++ [event]
  | .over _ underlying => substituteAll trace underlying

/-- The loop over the underlying events, activity_instances.rs:674-676, and over the events of a trace,
activities_parts.rs:437-439. -/
def substituteAll {E : Type} (trace : List E) : List (Nested E) → List E
  | [] => trace
  | event :: events => substituteAll (substitute trace event) events
end

/-- `substitute_underlying_events`, activities_parts.rs:430-447. -/
def substituteLog {E : Type} (log : List (List (Nested E))) : List (List E) := log.map (substituteAll [])

end Ficus.Rs
