import Verif.Model.Info
import Verif.Model.Split
import Mathlib.Analysis.SpecialFunctions.Log.Base
import Mathlib.Data.List.Sort

/-! Model of `src/python/ficus/legacy/analysis/event_log_analysis_entropy.py`. Floating point numbers are idealised:
ratios are rational numbers and logarithms real numbers; rounding is not modelled. -/

namespace Ficus
variable {E : Type} [HasName E]

/-- Python's `/` on numbers: `ZeroDivisionError` for a zero divisor. -/
def pyDiv (a b : ℚ) : Except PyErr ℚ := if b = 0 then .error .zeroDivision else .ok (a / b)

/-- `context.dfg.pairs.get((a, b), 0)`, event_log_analysis_entropy.py:59, 62, 76, 80. -/
def pairCount (info : LogInfo) (a b : String) : Nat := (info.pairs.get? (a, b)).getD 0

/-- The plain ratio `dfr`/`dpr`, event_log_analysis_entropy.py:58-62, for the given pair count. -/
def plainRatio (info : LogInfo) (first : String) (pairs : Nat) : Except PyErr ℚ := do
  pyDiv pairs (← info.eventsCount.getE first)

/-- The smoothed ratio, event_log_analysis_entropy.py:69-81: `dfr_or_dpr(pair_count, len(events_count), events_count[first])`. -/
def laplaceRatio (info : LogInfo) (first : String) (pairs : Nat) : Except PyErr ℚ := do
  let c ← info.eventsCount.getE first
  let alpha ← pyDiv 1 c
  pyDiv (alpha + pairs) (alpha * (info.eventsCount.length + 1) + c)

/-- The ratio used: `calculate_laplace_or_default_entropies`, event_log_analysis_entropy.py:15-21. -/
def ratioOf (laplace : Bool) : LogInfo → String → Nat → Except PyErr ℚ := if laplace then laplaceRatio else plainRatio

/-- `dfr_vector`, event_log_analysis_entropy.py:104, 108. -/
def dfrVector (laplace : Bool) (info : LogInfo) (a : String) : Except PyErr (List ℚ) :=
  (info.eventsCount.keys ++ [fakeEnd]).mapM (fun x => ratioOf laplace info a (pairCount info a x))

/-- `dpr_vector`, event_log_analysis_entropy.py:105, 109. -/
def dprVector (laplace : Bool) (info : LogInfo) (a : String) : Except PyErr (List ℚ) :=
  (info.eventsCount.keys ++ [fakeStart]).mapM (fun x => ratioOf laplace info a (pairCount info x a))

/-- `_calculate_entropy`, event_log_analysis_entropy.py:86-92. -/
noncomputable def vectorEntropy (v : List ℚ) : ℝ :=
  v.foldl (fun e (item : ℚ) => if item ≠ 0 then e - (item : ℝ) * Real.logb 2 (item : ℝ) else e) 0

/-- The loop of `_calculate_entropies`, event_log_analysis_entropy.py:107-111, over the keys of `events_count`. -/
noncomputable def entropyLoop (laplace : Bool) (info : LogInfo) (entropy : Dict String ℝ) (a : String) :
    Except PyErr (Dict String ℝ) := do
  let f ← dfrVector laplace info a
  let p ← dprVector laplace info a
  return entropy.set a (vectorEntropy f + vectorEntropy p)

/-- `calculate_laplace_or_default_entropies`, event_log_analysis_entropy.py:15-21, 56-83, 95-113. -/
noncomputable def calculateEntropies (laplace : Bool) (log : Log E) (ignored : Option (List String) := none) :
    Except PyErr (Dict String ℝ) :=
  let info := createLogInformation log ignored
  info.eventsCount.keys.foldlM (entropyLoop laplace info) []

/-- `_do_calculate_entropy_sum`, event_log_analysis_entropy.py:24-25. -/
noncomputable def entropySum (d : Dict String ℝ) : ℝ := (d.map Prod.snd).sum

/-- `_do_calculate_entropy_avg`, event_log_analysis_entropy.py:28-33. -/
noncomputable def entropyAvg (d : Dict String ℝ) : ℝ := if d.length = 0 then 0 else entropySum d / d.length

/-! ### Position entropies -/

/-- `PositionEntropyIgnoredEvents`, event_log_analysis_entropy.py:116-119; the set of names is a list without duplicates. -/
structure IgnoredEvents where
  ignored : List String
  tracesCounts : List TraceCounts

/-- `calculate_max_vector_length`, event_log_analysis_entropy.py:121-127. Truncated subtraction agrees with python's
integers here because the maximum starts at 0. -/
def IgnoredEvents.maxVectorLength (g : IgnoredEvents) : Nat :=
  g.tracesCounts.foldl (fun m c => max m (c.overallCount - (g.ignored.map (fun x => (c.counts.get? x).getD 0)).sum)) 0

omit [HasName E] in
/-- `_calculate_max_vector_length`, event_log_analysis_entropy.py:227-231; `max([])` raises `ValueError`. -/
def maxVectorLength (log : Log E) (ign : Option IgnoredEvents) : Except PyErr Nat :=
  match ign with
  | some g => .ok g.maxVectorLength
  | none => match log.evs.map List.length with
    | [] => .error .valueError
    | l :: ls => .ok (ls.foldl max l)

/-- The names in `events_to_ignore.ignored_events`, none if `events_to_ignore` is `None`. -/
def ignoredNames (ign : Option IgnoredEvents) : List String :=
  match ign with
  | some g => g.ignored
  | none => []

/-- `vector[i] = 1` on a numpy vector, `IndexError` outside (indices are never negative here). -/
def setOne (v : List Nat) (i : Nat) : Except PyErr (List Nat) :=
  if i < v.length then .ok (v.set i 1) else .error .indexError

/-- The body of the inner loop, event_log_analysis_entropy.py:245-253; the state is the vector, `index`, `empty_trace`. -/
def slowEventStep (ign : List String) (eventName : String) (st : List Nat × Nat × Bool) (e : E) :
    Except PyErr (List Nat × Nat × Bool) :=
  if name e ∈ ign then .ok st
  else if name e = eventName then do
    let v ← setOne st.1 st.2.1
    return (v, st.2.1 + 1, false)
  else .ok (st.1, st.2.1 + 1, false)

/-- The body of the outer loop, event_log_analysis_entropy.py:242-258: the vector of one trace and whether it is empty. -/
def slowTrace (len : Nat) (ign : List String) (eventName : String) (t : List E) : Except PyErr (List Nat × Bool) := do
  let st ← t.foldlM (slowEventStep ign eventName) (List.replicate len 0, 0, true)
  return (st.1, st.2.2)

/-- `np.sum(vectors, axis=0)` for vectors of the given length. -/
def sumAxis0 (len : Nat) (vs : List (List Nat)) : List Nat :=
  vs.foldl (List.zipWith (· + ·)) (List.replicate len 0)

/-- The counts and the number of non-empty traces computed by `calculate_position_entropy`,
event_log_analysis_entropy.py:234-260 (before the division). -/
def slowPositionCounts (log : Log E) (eventName : String) (ign : Option IgnoredEvents) : Except PyErr (List Nat × Nat) := do
  let len ← maxVectorLength log ign
  let rs ← log.evs.mapM (slowTrace len (ignoredNames ign) eventName)
  return (sumAxis0 len (rs.map Prod.fst), (rs.filter (fun r => !r.2)).length)

/-- `TraceEventsPositionInfo`, event_log_analysis_entropy.py:130-133. -/
structure TracePositions where
  positions : Dict String (List Nat)
  length : Nat
  deriving DecidableEq

/-- The positions of one trace, event_log_analysis_entropy.py:143-152. -/
def tracePositions (t : List E) : TracePositions :=
  { positions := t.zipIdx.foldl (fun d p => groupInto d (name p.1) p.2) [], length := t.length }

/-- `create_events_positions`, event_log_analysis_entropy.py:141-154. -/
def createEventsPositions (log : Log E) : List TracePositions := log.evs.map tracePositions

/-- `probabilities[i] += 1` for a python list and an integer index: negative indices count from the end. -/
def incrAt (v : List Nat) (i : Int) : Except PyErr (List Nat) :=
  if 0 ≤ i ∧ i < v.length then .ok (v.set i.toNat (v.getD i.toNat 0 + 1))
  else if i < 0 ∧ -(v.length : Int) ≤ i then .ok (v.set (i + v.length).toNat (v.getD (i + v.length).toNat 0 + 1))
  else .error .indexError

/-- The merge loop, event_log_analysis_entropy.py:189-199. The arguments are the remaining positions of the event, the
remaining ignored positions and `ignored_idx`; the inner `while` skips the ignored positions smaller than the current one. -/
def fastLoop : List Nat → List Nat → Nat → List Nat → Except PyErr (List Nat)
  | [], _, _, v => .ok v
  | p :: ps, ign, idx, v => do
    let idx' := idx + (ign.takeWhile (fun q => decide (p > q))).length
    let v' ← incrAt v ((p : Int) - idx')
    fastLoop ps (ign.dropWhile (fun q => decide (p > q))) idx' v'

/-- The ordered positions of ignored events of a trace, event_log_analysis_entropy.py:170-176, 187. -/
def ignoredPositions (ign : List String) (tp : TracePositions) : List Nat :=
  (ign.flatMap (fun n => (tp.positions.get? n).getD [])).insertionSort (· ≤ ·)

/-- The body of the outer loop, event_log_analysis_entropy.py:169-199; the state is `probabilities` and
`non_empty_traces_count`. -/
def fastTraceStep (ign : List String) (eventName : String) (st : List Nat × Nat) (tp : TracePositions) :
    Except PyErr (List Nat × Nat) :=
  if (ign.flatMap (fun n => (tp.positions.get? n).getD [])).length = tp.length then .ok st
  else
    match tp.positions.get? eventName with
    | none => .ok (st.1, st.2 + 1)
    | some ours => do
      let v ← fastLoop ours (ignoredPositions ign tp) 0 st.1
      return (v, st.2 + 1)

/-- The counts and the number of non-empty traces computed by `calculate_position_entropy_fast`,
event_log_analysis_entropy.py:157-200 (before the division). -/
def fastPositionCounts (log : Log E) (eventName : String) (ign : Option IgnoredEvents)
    (cached : Option (List TracePositions) := none) : Except PyErr (List Nat × Nat) := do
  let positions := cached.getD (createEventsPositions log)
  let len ← maxVectorLength log ign
  positions.foldlM (fastTraceStep (ignoredNames ign) eventName) (List.replicate len 0, 0)

/-- `_do_calculate_position_entropy`, event_log_analysis_entropy.py:221-224 with the division of 201/260. `none` stands for
numpy's `nan`, which is the result of a division by 0: no non-empty trace, exactly one (`log 1 = 0`), or no occurrence. -/
noncomputable def positionEntropy (counts : List Nat) (traces : Nat) : Option ℝ :=
  let ps := (counts.map (fun c : Nat => (c : ℝ) / traces)).filter (fun p => decide (p ≠ 0))
  if traces ≤ 1 ∨ ps.length = 0 then none
  else some ((ps.map (fun p => -(Real.log p / Real.log traces))).sum / ps.length)

/-- The loop of `calculate_position_entropies` and `calculate_position_entropies_fast`,
event_log_analysis_entropy.py:206-218, 264-272, for a way to compute the counts. -/
noncomputable def positionEntropiesWith (counts : String → Except PyErr (List Nat × Nat)) (log : Log E)
    (ign : Option IgnoredEvents) : Except PyErr (Dict String (Option ℝ)) :=
  (createLogInformation log (ign.map (·.ignored))).eventsCount.keys.foldlM (fun d key => do
    let c ← counts key
    return Dict.set d key (positionEntropy c.1 c.2)) []

/-- `calculate_position_entropies`, event_log_analysis_entropy.py:264-272. -/
noncomputable def calculatePositionEntropies (log : Log E) (ign : Option IgnoredEvents := none) :
    Except PyErr (Dict String (Option ℝ)) :=
  positionEntropiesWith (fun key => slowPositionCounts log key ign) log ign

/-- `calculate_position_entropies_fast`, event_log_analysis_entropy.py:206-218. -/
noncomputable def calculatePositionEntropiesFast (log : Log E) (ign : Option IgnoredEvents := none)
    (positions : Option (List TracePositions) := none) : Except PyErr (Dict String (Option ℝ)) :=
  positionEntropiesWith (fun key => fastPositionCounts log key ign (some (positions.getD (createEventsPositions log)))) log ign

end Ficus
