import Verif.Model.Heap
import Verif.Model.Filters
import Verif.Model.Split

/-! Model of the parts of the local pipelines that make a new log or change the log in place, on objects with identity:
pipelines/mutations/mutations_parts.py and pipelines/filtering/filter_parts.py with the functions that they call and the
arguments that they pass on. The context is reduced to the current log (what happens to the other values is C81);
`SubstituteUnderlyingEvents` and the parts that only draw are left out. -/

namespace Ficus

/-- `event[concept_name]` exists. Simplification: a name that is not a string is treated like a missing one. -/
def hasName (p : Payload) : Bool :=
  match p.get? "concept:name" with
  | some (.str _) => true
  | _ => false

/-- `event[concept_name]` of an event that has a name. -/
def payloadName (p : Payload) : String :=
  match p.get? "concept:name" with
  | some (.str s) => s
  | _ => ""

/-- The name of a payload. -/
instance : HasName Payload := ⟨payloadName⟩

/-! ### The split of a log into variants, on trace objects -/

/-- The refinement of one group, event_log_split.py:29-44, for traces given by any type `T`. -/
def refineBy {T : Type} (key : T → Except PyErr Int) (group : List T) : Except PyErr (List (List T)) :=
  if group.length = 1 then .ok [group]
  else do
    let d ← group.foldlM (fun d t => do return groupInto d (← key t) t) ([] : Dict Int (List T))
    return d.map Prod.snd

/-- The `while True` loop, event_log_split.py:22-50, as in `variantLoop`. -/
def variantLoopBy {T : Type} (key : Nat → T → Except PyErr Int) (len : Nat) :
    Nat → Nat → List (List T) → Except PyErr (List (List T))
  | 0, _, groups => .ok groups
  | fuel + 1, index, groups =>
    if index ≥ len then .ok groups
    else do
      let newGroups := (← groups.mapM (refineBy (key index))).flatten
      if groups.all (fun g => decide (g.length = 1)) then return groups
      else variantLoopBy key len fuel (index + 1) newGroups

/-- The body of the loop over the lengths, event_log_split.py:17-53. -/
def splitSameBy {T : Type} (length : T → Nat) (key : Nat → T → Except PyErr Int) (traces : List T) :
    Except PyErr (List (List T)) :=
  if traces.length = 1 then .ok [traces]
  else
    let len := match traces.head? with | some t => length t | none => 0
    variantLoopBy key len len 0 [traces]

/-- `split_log_by_traces`, event_log_split.py:7-56, for traces given by any type `T`. -/
def splitBy {T : Type} (length : T → Nat) (key : Nat → T → Except PyErr Int) (traces : List T) :
    Except PyErr (List (List T)) := do
  let byLength : Dict Nat (List T) := traces.foldl (fun d t => groupInto d (length t) t) []
  return (← byLength.mapM (fun kv => splitSameBy length key kv.2)).flatten

/-- `trace_variant[0]`, filter_parts.py:151. -/
def headOf {T : Type} (g : List T) : Except PyErr T :=
  match g with
  | t :: _ => .ok t
  | [] => .error .indexError

/-! ### Functions that make new logs -/

namespace Heap

/-- All events of the log have a name, so that `event[concept_name]` does not raise. -/
def allNamed (h : Heap) (l : Nat) : Bool := (h.eventRefs l).all (fun e => hasName (h.event e))

/-- `_filter_traces`, event_log_mutations.py:25-31: a new log with the same trace objects. -/
def filterTracesInto (h : Heap) (l : Nat) (select : List Nat → Bool) : Nat × Heap :=
  h.newLog { traces := (h.logObj l).traces.filter (fun t => select (h.traceObj t).events) }

/-- The part of `FilterTracesByVariants.execute` that makes the log, filter_parts.py:148-153. The parameter
`trace[index][concept_name]` is read by `hashAt`. -/
def variantsInto (h : Heap) (l : Nat) : Except PyErr (Nat × Heap) := do
  let groups ← splitBy (fun t => (h.traceObj t).events.length) (fun i t => hashAt i (h.viewTrace t)) (h.logObj l).traces
  let firsts ← groups.mapM headOf
  return h.newLog { traces := firsts }

/-- `remove_event_from_log(log, event_name)`, event_log_mutations.py:7-8, where the name may be `None`. -/
def removeInto (h : Heap) (l : Nat) (eventName : Option String) : Nat × Heap :=
  h.filterEventsInto l (fun p => decide (some (name p) ≠ eventName))

variable {M : Type}

/-- One iteration of `_do_filter_by_metric_direct`, event_log_filters.py:71-83, on objects; the state is the heap, the
current log and `removed_events_count`. -/
def directStep (gt : M → M → Bool) (metric : Metric Payload M) (threshold : M) (maxEvents : Int)
    (s : Heap × Nat × Nat) : Except PyErr (Step (Heap × Nat × Nat) (Nat × Heap)) :=
  if (s.1.logObj s.2.1).traces.length = 0 then .ok (.ret (s.2.1, s.1))
  else do
    let r ← nextDirect gt metric (s.1.viewLog s.2.1)
    if gt r.2 threshold then
      let n := s.1.removeInto s.2.1 (some r.1)
      if ((s.2.2 + 1 : Nat) : Int) = maxEvents then return .ret n else return .next (n.2, n.1, s.2.2 + 1)
    else return .ret (s.2.1, s.1)

/-- One iteration of `filter_events_default_entropy_indirect`, event_log_filters.py:42-55, on objects. -/
noncomputable def defaultIndirectStep (laplace : Bool) (threshold : ℝ) (topPercent : ℚ) (maxEvents : Int)
    (untouchable : String → Bool) (s : Heap × Nat × Nat) : Except PyErr (Step (Heap × Nat × Nat) (Nat × Heap)) :=
  if (s.1.logObj s.2.1).traces.length = 0 then .ok (.ret (s.2.1, s.1))
  else do
    let avg ← defaultEntropyAverage laplace (s.1.viewLog s.2.1) none
    if avg ≤ threshold then return .ret (s.2.1, s.1)
    else
      let r ← nextDefaultIndirect laplace topPercent untouchable (s.1.viewLog s.2.1)
      let n := s.1.removeInto s.2.1 r.1
      if ((s.2.2 + 1 : Nat) : Int) ≥ maxEvents then return .ret n else return .next (n.2, n.1, s.2.2 + 1)

/-- One iteration of `filter_events_pos_entropy_indirect`, event_log_filters.py:194-209, on objects. -/
noncomputable def posIndirectStep (threshold : ℝ) (maxEvents : Int) (untouchable : String → Bool)
    (s : Heap × Nat × Nat) : Except PyErr (Step (Heap × Nat × Nat) (Nat × Heap)) := do
  let d ← calculatePositionEntropiesFast (s.1.viewLog s.2.1) none (some (createEventsPositions (s.1.viewLog s.2.1)))
  let total := sumNan (d.map Prod.snd)
  if total.any (fun x => decide (x ≤ threshold)) then return .ret (s.2.1, s.1)
  else
    let r ← nextPosIndirect untouchable (s.1.viewLog s.2.1)
    let n := s.1.removeInto s.2.1 r.1
    if ((s.2.2 + 1 : Nat) : Int) ≥ maxEvents then return .ret n else return .next (n.2, n.1, s.2.2 + 1)

end Heap

/-! ### The parts -/

/-- A part with the arguments of its constructor: mutations_parts.py:11-101 and filter_parts.py:12-153.
Simplification: functions given by the user are total, except for `event_mutator`, which may raise. -/
inductive LogPart
  | removeByName (eventName : String)
  | removeByNames (names : List String)
  | removeByPredicate (predicate : Payload → Bool)
  | preprocessNames (preprocessor : String → String)
  | preprocessEvents (mutator : Payload → Except PyErr Payload)
  | applyClassExtractor (extractor : Payload → String) (selector : Payload → Bool)
  | removeLifecycle
  | addArtificial
  | byCount (minEventCount : Int)
  | byVariants
  | posDirect (threshold : ℝ) (maxEvents : Int) (untouchable : String → Bool)
  | posIndirect (threshold : ℝ) (maxEvents : Int) (untouchable : String → Bool)
  | dfgDirect (threshold : ℝ) (laplace : Bool) (maxEvents : Int)
  | dfgIndirect (threshold : ℝ) (laplace : Bool) (maxEvents : Int) (topPercent : ℚ)

namespace LogPart

/-- A part that makes a new log: if it raises, nothing that can be reached has changed. -/
def making (h : Heap) : Except PyErr (Nat × Heap) → Except PyErr Nat × Heap
  | .ok n => (.ok n.1, n.2)
  | .error e => (.error e, h)

/-- A part that changes the log in place and returns the same log. -/
def inPlace (l : Nat) (r : Except PyErr Unit × Heap) : Except PyErr Nat × Heap := (r.1.map (fun _ => l), r.2)

/-- A part that reads the names of all events first. Simplification: for `FilterTracesByVariants` also the names that the
code does not read because a trace is alone in its group. -/
def reading (h : Heap) (l : Nat) (run : Option (Except PyErr (Nat × Heap))) : Option (Except PyErr Nat × Heap) :=
  if h.allNamed l then run.map (making h) else some (.error .keyError, h)

/-- `default_untouchable_func`, event_log_filters.py:8. -/
def noneUntouchable : String → Bool := fun _ => false

/-- `execute` of a part on the current log; `none` means that a loop is still running after `fuel` iterations.
mutations_parts.py:15-16 (`removeByName`), 23-24, 31-32, 39-42, 49-51, 74-81, 84-87, 90-101, filter_parts.py:141-143
(`byCount`), 147-153, 19-20 with 34-38 (`posDirect`) and 49-53 (`posIndirect`), 65-66 with 80-85 (`dfgDirect`) and 98-104
(`dfgIndirect`). -/
noncomputable def run (fuel : Nat) : LogPart → Heap → Nat → Option (Except PyErr Nat × Heap)
  | .removeByName n, h, l => reading h l (some (.ok (h.removeInto l (some n))))
  | .removeByNames ns, h, l => reading h l (some (.ok (h.filterEventsInto l (fun p => decide (name p ∉ ns)))))
  | .removeByPredicate f, h, l => some (making h (.ok (h.filterEventsInto l (fun p => !f p))))
  | .preprocessNames f, h, l => some (inPlace l (h.preprocessNames l f))
  | .preprocessEvents g, h, l => some (inPlace l (h.preprocessEvents l g))
  | .applyClassExtractor ex sel, h, l => some (inPlace l (h.preprocessEvents l (Heap.applyExtractor sel ex)))
  | .removeLifecycle, h, l => some (inPlace l (h.removeLifecycle l))
  | .addArtificial, h, l => some (.ok l, h.addArtificial l)
  | .byCount n, h, l => some (making h (.ok (h.filterTracesInto l (fun es => decide ((es.length : Int) > n)))))
  | .byVariants, h, l => reading h l (some (h.variantsInto l))
  | .posDirect th mx un, h, l =>
    reading h l (runLoop (Heap.directStep gtNan (touchableMetric (fun log => calculatePositionEntropiesFast log) un)
      (some th) mx) fuel (h, l, 0))
  | .posIndirect th mx un, h, l => reading h l (runLoop (Heap.posIndirectStep th mx un) fuel (h, l, 0))
  | .dfgDirect th lp mx, h, l =>
    reading h l (runLoop (Heap.directStep gtReal (touchableMetric (fun log => calculateEntropies lp log) noneUntouchable)
      th mx) fuel (h, l, 0))
  | .dfgIndirect th lp mx top, h, l =>
    reading h l (runLoop (Heap.defaultIndirectStep lp th top mx noneUntouchable) fuel (h, l, 0))

/-- `Pipeline.execute`, pipelines.py:21-27, for such parts after `UseExistingLog` (start_parts.py:14-19). -/
noncomputable def runAll (fuel : Nat) : List LogPart → Heap → Nat → Option (Except PyErr Nat × Heap)
  | [], h, l => some (.ok l, h)
  | p :: ps, h, l =>
    match p.run fuel h l with
    | some (.ok l', h') => runAll fuel ps h' l'
    | r => r

end LogPart
end Ficus
