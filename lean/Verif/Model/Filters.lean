import Verif.Model.Entropy
import Verif.Model.Mutations

/-! Model of `src/python/ficus/legacy/filtering/event_log_filters.py`.

The `while True` loops are iterated with fuel; the result `none` means "still running after that many iterations".
`print` calls are left out. Metrics have values in a type `M` with python's `>` as a boolean function `gt`, so that numpy's
`nan` (all comparisons false) can be represented. -/

namespace Ficus
variable {E : Type} [HasName E] {M : Type}

/-- A metric: `metric_func(log)`, may raise. -/
abbrev Metric (E M : Type) := Log E → Except PyErr (Dict String M)

/-- `max(d, key=d.get)` together with `d[...]` of the result, event_log_filters.py:61-62: the first key with the largest
value, found by replacing the current one when the next is greater; `ValueError` for an empty dictionary. -/
def maxEntry (gt : M → M → Bool) (d : Dict String M) : Except PyErr (String × M) :=
  match d with
  | [] => .error .valueError
  | x :: xs => .ok (xs.foldl (fun best y => if gt y.2 best.2 then y else best) x)

omit [HasName E] in
/-- `_determine_next_event_to_remove_direct`, event_log_filters.py:58-62. -/
def nextDirect (gt : M → M → Bool) (metric : Metric E M) (log : Log E) : Except PyErr (String × M) := do
  maxEntry gt (← metric log)

/-- What one iteration of a loop does: return a value or go on with a new state. -/
inductive Step (S R : Type)
  | ret (r : R)
  | next (s : S)

/-- `while True: ...` for a body that may raise, at most `fuel` iterations. -/
def runLoop {S R : Type} (body : S → Except PyErr (Step S R)) : Nat → S → Option (Except PyErr R)
  | 0, _ => none
  | fuel + 1, s =>
    match body s with
    | .error e => some (.error e)
    | .ok (.ret r) => some (.ok r)
    | .ok (.next s') => runLoop body fuel s'

/-- One iteration of `_do_filter_by_metric_direct`, event_log_filters.py:71-83; the state is the log and
`removed_events_count`. -/
def directBody (gt : M → M → Bool) (metric : Metric E M) (threshold : M) (maxEvents : Int) (s : Log E × Nat) :
    Except PyErr (Step (Log E × Nat) (Log E)) :=
  if s.1.traces.length = 0 then .ok (.ret s.1)
  else do
    let r ← nextDirect gt metric s.1
    if gt r.2 threshold then
      let log := removeEvent s.1 r.1
      if ((s.2 + 1 : Nat) : Int) = maxEvents then return .ret log else return .next (log, s.2 + 1)
    else return .ret s.1

/-- `_do_filter_by_metric_direct`, event_log_filters.py:65-83. -/
def filterDirect (gt : M → M → Bool) (metric : Metric E M) (threshold : M) (maxEvents : Int) (fuel : Nat) (log : Log E) :
    Option (Except PyErr (Log E)) :=
  runLoop (directBody gt metric threshold maxEvents) fuel (log, 0)

/-- `_remove_untouchable_events_from`, event_log_filters.py:127-133. -/
def removeUntouchable (untouchable : String → Bool) (d : Dict String M) : Dict String M :=
  ((d.keys).filter untouchable).foldl (fun d k => d.del k) d

/-- The inner `metric_func` of the filters, event_log_filters.py:141-143, 156-158: a metric without untouchable events. -/
def touchableMetric (metric : Metric E M) (untouchable : String → Bool) : Metric E M :=
  fun log => (metric log).map (removeUntouchable untouchable)

/-- Python's `>` on floats that are numbers. -/
noncomputable def gtReal (a b : ℝ) : Bool := decide (a > b)

/-- Python's `>` on numpy floats, `none` being `nan`: every comparison with `nan` is false. -/
noncomputable def gtNan (a b : Option ℝ) : Bool :=
  match a, b with
  | some x, some y => decide (x > y)
  | _, _ => false

/-- `filter_events_default_entropy_direct`, event_log_filters.py:136-145. -/
noncomputable def filterDefaultEntropyDirect (laplace : Bool) (threshold : ℝ) (maxEvents : Int)
    (untouchable : String → Bool) (fuel : Nat) (log : Log E) : Option (Except PyErr (Log E)) :=
  filterDirect gtReal (touchableMetric (fun l => calculateEntropies laplace l) untouchable) threshold maxEvents fuel log

/-- `filter_events_pos_entropy_direct`, event_log_filters.py:152-160. -/
noncomputable def filterPosEntropyDirect (threshold : ℝ) (untouchable : String → Bool) (maxEvents : Int) (fuel : Nat)
    (log : Log E) : Option (Except PyErr (Log E)) :=
  filterDirect gtNan (touchableMetric (fun l => calculatePositionEntropiesFast l) untouchable) (some threshold) maxEvents
    fuel log

/-! ### Direct removal till the end -/

/-- `TillEndFilteringMetricKind`, event_log_filters.py:86-88. Simplification: other values, for which the code raises
`ValueError` after the first removal, do not exist in the type. -/
inductive TillEndKind
  | beforeOnly
  | afterBeforeDelta
  deriving DecidableEq

/-- One iteration of `_do_filter_by_metric_direct_till_end`, event_log_filters.py:96-112; the state is the log and
`removals`. `total` is `sum(...)` of the metric values, `minus` the subtraction of such sums. -/
def tillEndBody (gt : M → M → Bool) (total : List M → M) (minus : M → M → M) (kind : TillEndKind) (metric : Metric E M)
    (s : Log E × List (String × M)) : Except PyErr (Step (Log E × List (String × M)) (List (String × M))) :=
  if s.1.traces.length = 0 then .ok (.ret s.2)
  else do
    let before ← metric s.1
    let r ← nextDirect gt metric s.1
    let log := removeEvent s.1 r.1
    match kind with
    | .beforeOnly => return .next (log, s.2 ++ [(r.1, total (before.map Prod.snd))])
    | .afterBeforeDelta =>
      let after ← metric log
      return .next (log, s.2 ++ [(r.1, minus (total (before.map Prod.snd)) (total (after.map Prod.snd)))])

/-- `_do_filter_by_metric_direct_till_end`, event_log_filters.py:91-114. -/
def filterDirectTillEnd (gt : M → M → Bool) (total : List M → M) (minus : M → M → M) (kind : TillEndKind)
    (metric : Metric E M) (fuel : Nat) (log : Log E) : Option (Except PyErr (List (String × M))) :=
  runLoop (tillEndBody gt total minus kind metric) fuel (log, [])

/-- `+` of numpy floats, `nan` being absorbing. -/
noncomputable def addNan (a b : Option ℝ) : Option ℝ :=
  match a, b with
  | some x, some y => some (x + y)
  | _, _ => none

/-- `sum` of numpy floats (used in event_log_filters.py:99, 109 and event_log_analysis_entropy.py
`calculate_position_entropies_fast_sum`). -/
noncomputable def sumNan (l : List (Option ℝ)) : Option ℝ := l.foldl addNan (some 0)

/-- `-` of numpy floats. -/
noncomputable def subNan (a b : Option ℝ) : Option ℝ :=
  match a, b with
  | some x, some y => some (x - y)
  | _, _ => none

/-- `filter_events_pos_entropy_direct_till_end`, event_log_filters.py:240-247. -/
noncomputable def filterPosEntropyDirectTillEnd (kind : TillEndKind) (untouchable : String → Bool) (fuel : Nat)
    (log : Log E) : Option (Except PyErr (List (String × Option ℝ))) :=
  filterDirectTillEnd gtNan sumNan subNan kind
    (touchableMetric (fun l => calculatePositionEntropiesFast l) untouchable) fuel log

/-! ### Indirect filters -/

/-- `int(x)` for a rational number: truncation towards zero. -/
def pyInt (q : ℚ) : Int := q.num.tdiv q.den

/-- `l[i:]` for an integer `i`; negative indices count from the end. -/
def sliceFrom {A : Type} (l : List A) (i : Int) : List A :=
  if 0 ≤ i then l.drop i.toNat else l.drop ((l.length : Int) + i).toNat

/-- The last entries that are tried by the indirect filter, event_log_filters.py:19-20. Simplification: the float product
`len * top_percent` is computed exactly. -/
noncomputable def topEntries (topPercent : ℚ) (d : Dict String ℝ) : Dict String ℝ :=
  sliceFrom (d.insertionSort (fun a b => a.2 ≤ b.2)) ((d.length : Int) - pyInt (d.length * topPercent))

/-- One iteration of the search for the smallest value, event_log_filters.py:22-29 and 175-183: keep the first smallest
value below the current one. -/
def minStep (lt : M → M → Bool) (value : String → Except PyErr M) (untouchable : String → Bool)
    (st : Option String × M) (key : String) : Except PyErr (Option String × M) :=
  if untouchable key then .ok st
  else do
    let v ← value key
    return if lt v st.2 then (some key, v) else st

/-- `calculate_default_entropy_average(log, laplace, ignored)`, event_log_analysis_entropy.py:43-47. -/
noncomputable def defaultEntropyAverage (laplace : Bool) (log : Log E) (ignored : Option (List String)) : Except PyErr ℝ :=
  (calculateEntropies laplace log ignored).map entropyAvg

/-- `next_removal_default_entropy_indirect`, event_log_filters.py:11-31. -/
noncomputable def nextDefaultIndirect (laplace : Bool) (topPercent : ℚ) (untouchable : String → Bool) (log : Log E) :
    Except PyErr (Option String × ℝ) := do
  let d ← calculateEntropies laplace log
  (topEntries topPercent d).keys.foldlM
    (minStep (fun a b => gtReal b a) (fun key => defaultEntropyAverage laplace log (some [key])) untouchable)
    (none, 10000000000)

/-- `remove_event_from_log(log, name)` where the name may be `None`, event_log_mutations.py:7-8: no event has the name
`None`. -/
def removeEventOpt (log : Log E) (n : Option String) : Log E := filterEvents log (fun e => decide (some (name e) ≠ n))

/-- One iteration of `filter_events_default_entropy_indirect`, event_log_filters.py:42-55. -/
noncomputable def defaultIndirectBody (laplace : Bool) (threshold : ℝ) (topPercent : ℚ) (maxEvents : Int)
    (untouchable : String → Bool) (s : Log E × Nat) : Except PyErr (Step (Log E × Nat) (Log E)) :=
  if s.1.traces.length = 0 then .ok (.ret s.1)
  else do
    let avg ← defaultEntropyAverage laplace s.1 none
    if avg ≤ threshold then return .ret s.1
    else
      let r ← nextDefaultIndirect laplace topPercent untouchable s.1
      let log := removeEventOpt s.1 r.1
      if ((s.2 + 1 : Nat) : Int) ≥ maxEvents then return .ret log else return .next (log, s.2 + 1)

/-- `filter_events_default_entropy_indirect`, event_log_filters.py:34-55. -/
noncomputable def filterDefaultEntropyIndirect (laplace : Bool) (threshold : ℝ) (topPercent : ℚ) (maxEvents : Int)
    (untouchable : String → Bool) (fuel : Nat) (log : Log E) : Option (Except PyErr (Log E)) :=
  runLoop (defaultIndirectBody laplace threshold topPercent maxEvents untouchable) fuel (log, 0)

/-- `next_event_remove_pos_entropy_indirect`, event_log_filters.py:163-185, with the trace counts, the log information and
the positions computed from the log (as all callers do). -/
noncomputable def nextPosIndirect (untouchable : String → Bool) (log : Log E) : Except PyErr (Option String × Option ℝ) :=
  (createLogInformation log).eventsCount.keys.foldlM
    (minStep (fun a b => gtNan b a)
      (fun key => (calculatePositionEntropiesFast log (some ⟨[key], calculateEventsInEachTrace log⟩)
        (some (createEventsPositions log))).map (fun d => sumNan (d.map Prod.snd))) untouchable)
    (none, some 10000000000)

/-- One iteration of `filter_events_pos_entropy_indirect`, event_log_filters.py:194-209. -/
noncomputable def posIndirectBody (threshold : ℝ) (maxEvents : Int) (untouchable : String → Bool) (s : Log E × Nat) :
    Except PyErr (Step (Log E × Nat) (Log E)) := do
  let d ← calculatePositionEntropiesFast s.1 none (some (createEventsPositions s.1))
  let total := sumNan (d.map Prod.snd)
  if total.any (fun x => decide (x ≤ threshold)) then return .ret s.1
  else
    let r ← nextPosIndirect untouchable s.1
    let log := removeEventOpt s.1 r.1
    if ((s.2 + 1 : Nat) : Int) ≥ maxEvents then return .ret log else return .next (log, s.2 + 1)

/-- `filter_events_pos_entropy_indirect`, event_log_filters.py:188-209. -/
noncomputable def filterPosEntropyIndirect (threshold : ℝ) (maxEvents : Int) (untouchable : String → Bool) (fuel : Nat)
    (log : Log E) : Option (Except PyErr (Log E)) :=
  runLoop (posIndirectBody threshold maxEvents untouchable) fuel (log, 0)

/-- One iteration of `filter_events_pos_entropy_indirect_till_end`, event_log_filters.py:217-235. -/
noncomputable def posIndirectTillEndBody (kind : TillEndKind) (untouchable : String → Bool)
    (s : Log E × List (Option String × Option ℝ)) :
    Except PyErr (Step (Log E × List (Option String × Option ℝ)) (List (Option String × Option ℝ))) :=
  if s.1.traces.length = 0 then .ok (.ret s.2)
  else do
    let d ← calculatePositionEntropiesFast s.1 none (some (createEventsPositions s.1))
    let before := sumNan (d.map Prod.snd)
    let r ← nextPosIndirect untouchable s.1
    let entry := match kind with
      | .beforeOnly => (r.1, before)
      | .afterBeforeDelta => (r.1, subNan before r.2)
    return .next (removeEventOpt s.1 r.1, s.2 ++ [entry])

/-- `filter_events_pos_entropy_indirect_till_end`, event_log_filters.py:212-237. -/
noncomputable def filterPosEntropyIndirectTillEnd (kind : TillEndKind) (untouchable : String → Bool) (fuel : Nat)
    (log : Log E) : Option (Except PyErr (List (Option String × Option ℝ))) :=
  runLoop (posIndirectTillEndBody kind untouchable) fuel (log, [])

end Ficus
