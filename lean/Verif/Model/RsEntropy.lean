import Verif.Model.RsInfo
import Verif.Model.Split
import Mathlib.Analysis.SpecialFunctions.Log.Base
import Mathlib.Data.List.Sort

/-! Model of the entropies of the backend, /repo/src/rust/ficus_backend/src/features/analysis/entropy (paths of this file are
below src/rust/ficus_backend/src), and of the values that the events of a trace keep for them,
event_log/core/event/events_holder.rs. Numbers of type `f64` are idealised: counts are natural numbers, ratios rational and
logarithms real numbers. `none` of the functions stands for a panic. Bounds of `usize` are left out except for a difference
below zero: it panics in a build with checks, and in a build without them wraps around to a length that no vector can have,
which panics as well. -/

namespace Ficus.Rs
variable {E : Type} [HasName E]

/-- `EventsHolder`, event_log/core/event/events_holder.rs:12-19: the events with the two lazy cells. Of
`EventSequenceInfo`, 117-120, only `events_counts` is kept, the other field is never read by the modelled code. -/
structure EventsHolder (E : Type) where
  events : List E
  info : Option (Dict String Nat) := none
  positions : Option (Dict String (List Nat)) := none
  deriving DecidableEq, Repr

omit [HasName E] in
/-- `EventsHolder::new`, events_holder.rs:49-55, and `empty`, 41-47, for no events. -/
def EventsHolder.new (events : List E) : EventsHolder E := { events }

omit [HasName E] in
/-- `clone`, events_holder.rs:25-34; the events of the copy are equal to the old ones. -/
def EventsHolder.clone (h : EventsHolder E) : EventsHolder E := { events := h.events, info := none, positions := none }

omit [HasName E] in
/-- `push`, events_holder.rs:61-63. -/
def EventsHolder.push (h : EventsHolder E) (e : E) : EventsHolder E := { h with events := h.events ++ [e] }

omit [HasName E] in
/-- `remove_events_by`, events_holder.rs:65-75; the removals from the end to the start leave the events for which the
predicate is false. -/
def EventsHolder.removeBy (h : EventsHolder E) (p : E → Bool) : EventsHolder E :=
  { h with events := h.events.filter (fun e => !p e) }

omit [HasName E] in
/-- `mutate_events`, events_holder.rs:86-93. -/
def EventsHolder.mutate (h : EventsHolder E) (f : E → E) : EventsHolder E := { h with events := h.events.map f }

/-- `EventSequenceInfo::new`, events_holder.rs:133-146. -/
def sequenceInfo (events : List E) : Dict String Nat := events.foldl (fun d e => increaseInMap d (name e)) []

/-- `EventsPositions::new`, events_holder.rs:155-168. -/
def eventsPositions (events : List E) : Dict String (List Nat) :=
  events.zipIdx.foldl (fun d p => groupInto d (name p.1) p.2) []

/-- `get_or_create_event_sequence_info`, events_holder.rs:95-101, with the holder after the call. -/
def EventsHolder.getInfo (h : EventsHolder E) : Dict String Nat × EventsHolder E :=
  match h.info with
  | some i => (i, h)
  | none => (sequenceInfo h.events, { h with info := some (sequenceInfo h.events) })

/-- `get_or_create_events_positions`, events_holder.rs:103-109, with the holder after the call. -/
def EventsHolder.getPositions (h : EventsHolder E) : Dict String (List Nat) × EventsHolder E :=
  match h.positions with
  | some p => (p, h)
  | none => (eventsPositions h.events, { h with positions := some (eventsPositions h.events) })

/-- `calculate_vector_length_with_ignored_events`, features/analysis/entropy/shared.rs:21-41, with the log after the call;
`m` is the variable `max`. -/
def vectorLengthIgnored (it : Iter) (ignored : List String) :
    Nat → List (EventsHolder E) → Option (Nat × List (EventsHolder E))
  | m, [] => some (m, [])
  | m, h :: hs =>
    let counts := h.getInfo.1
    let h := h.getInfo.2
    let num := (it.order "ignored_events" 0 ignored).foldl
      (fun n x => match counts.get? x with
        | some c => n + c
        | none => n) 0
    if h.events.length < num then none
    else do
      let r ← vectorLengthIgnored it ignored (max m (h.events.length - num)) hs
      return (r.1, h :: r.2)

omit [HasName E] in
/-- `calculate_vector_length`, shared.rs:43-48; `unwrap` of no maximum panics. -/
def vectorLength (log : List (EventsHolder E)) : Option Nat :=
  match log.map (fun h => h.events.length) with
  | [] => none
  | l :: ls => some (ls.foldl max l)

/-- `calculate_max_vector_length`, shared.rs:11-19. -/
def maxVectorLengthOf (it : Iter) (log : List (EventsHolder E)) (ignored : Option (List String)) :
    Option (Nat × List (EventsHolder E)) :=
  match ignored with
  | some g => vectorLengthIgnored it g 0 log
  | none => do return ((← vectorLength log), log)

/-- `v[i] += 1f64`, a panic outside of the vector. -/
def addOne (v : List Nat) (i : Nat) : Option (List Nat) :=
  if i < v.length then some (v.set i (v.getD i 0 + 1)) else none

/-- The loop over the events of a trace, features/analysis/entropy/pos_entropy.rs:25-41, with the variables `prob_vector`,
`index` and `empty_trace`. -/
def slowEvent (ignored : Option (List String)) (n : String) (st : List Nat × Nat × Bool) (e : E) :
    Option (List Nat × Nat × Bool) :=
  if isIgnored ignored (name e) then some st
  else if name e = n then do return ((← addOne st.1 st.2.1), st.2.1 + 1, false)
  else some (st.1, st.2.1 + 1, false)

/-- The loop over the traces, pos_entropy.rs:22-46. -/
def slowTraceRs (ignored : Option (List String)) (n : String) (st : List Nat × Nat) (h : EventsHolder E) :
    Option (List Nat × Nat) := do
  let r ← h.events.foldlM (slowEvent ignored n) (st.1, 0, true)
  return (r.1, if r.2.2 then st.2 else st.2 + 1)

/-- `calculate_pos_entropy_for_event`, pos_entropy.rs:14-49, up to the last line: the vector, the number of traces that are not
empty and the log after the call. -/
def slowCounts (it : Iter) (log : List (EventsHolder E)) (n : String) (ignored : Option (List String)) :
    Option ((List Nat × Nat) × List (EventsHolder E)) := do
  let r ← maxVectorLengthOf it log ignored
  let c ← r.2.foldlM (slowTraceRs ignored n) (List.replicate r.1 0, 0)
  return (c, r.2)

/-- The loop over the positions of a trace, features/analysis/entropy/pos_entropy_fast.rs:57-73; the list `ignored` begins at
`ignored_idx`, and the iterations of the outer loop are those over the positions of the event because of lines 61-63. -/
def fastMerge : List Nat → List Nat → Nat → List Nat → Option (List Nat)
  | [], _, _, v => some v
  | p :: ps, ignored, idx, v =>
    let idx' := idx + (ignored.takeWhile (fun q => decide (p > q))).length
    if p < idx' then none
    else do
      let v ← addOne v (p - idx')
      fastMerge ps (ignored.dropWhile (fun q => decide (p > q))) idx' v

/-- The positions of the ignored events before they are sorted, pos_entropy_fast.rs:32-41. -/
def ignoredPositionsOf (it : Iter) (ignored : Option (List String)) (positions : Dict String (List Nat)) : List Nat :=
  match ignored with
  | some g => (it.order "ignored_events" 0 g).foldl
      (fun l x => match positions.get? x with
        | some ps => l ++ ps
        | none => l) []
  | none => []

/-- The body of the loop over the traces, pos_entropy_fast.rs:28-73, for the positions that the trace keeps. -/
def fastTrace (it : Iter) (ignored : Option (List String)) (n : String) (st : List Nat × Nat) (length : Nat)
    (positions : Dict String (List Nat)) : Option (List Nat × Nat) :=
  let ign := ignoredPositionsOf it ignored positions
  if ign.length = length then some st
  else
    match positions.get? n with
    | none => some (st.1, st.2 + 1)
    | some ours => do return ((← fastMerge ours (ign.insertionSort (· ≤ ·)) 0 st.1), st.2 + 1)

/-- The loop over the traces, pos_entropy_fast.rs:27-74, with the log after the call. -/
def fastTraces (it : Iter) (ignored : Option (List String)) (n : String) :
    List Nat × Nat → List (EventsHolder E) → Option ((List Nat × Nat) × List (EventsHolder E))
  | st, [] => some (st, [])
  | st, h :: hs => do
    let st ← fastTrace it ignored n st h.events.length h.getPositions.1
    let r ← fastTraces it ignored n st hs
    return (r.1, h.getPositions.2 :: r.2)

/-- `calculate_pos_entropy_for_event_fast`, pos_entropy_fast.rs:17-77, up to the last line. -/
def fastCounts (it : Iter) (log : List (EventsHolder E)) (n : String) (ignored : Option (List String)) :
    Option ((List Nat × Nat) × List (EventsHolder E)) := do
  let r ← maxVectorLengthOf it log ignored
  fastTraces it ignored n (List.replicate r.1 0, 0) r.2

/-- `calculate_pos_entropy`, shared.rs:50-72. `none` stands for a value that is not a finite number: a division by zero
because no trace, or only one (`log2 1 = 0`), was counted, or because no entry is nonzero. -/
noncomputable def posEntropy (counts : List Nat) (traces : Nat) : Option ℝ :=
  let ps := (counts.map (fun c : Nat => (c : ℝ) / traces)).filter (fun p => decide (p ≠ 0))
  if traces ≤ 1 ∨ ps.length = 0 then none
  else some ((ps.map (fun p => -Real.logb 2 p / Real.logb 2 traces)).sum / ps.length)

/-- The body of the loop of `calculate_entropies`, shared.rs:85-94, for a way to count. -/
noncomputable def entropyStep
    (counts : List (EventsHolder E) → String → Option ((List Nat × Nat) × List (EventsHolder E)))
    (ignored : Option (List String)) (st : Dict String (Option ℝ) × List (EventsHolder E)) (n : String) :
    Option (Dict String (Option ℝ) × List (EventsHolder E)) :=
  if isIgnored ignored n then some st
  else do
    let r ← counts st.2 n
    return (st.1.set n (posEntropy r.1.1 r.1.2), r.2)

/-- `calculate_entropies`, shared.rs:74-97, with the log after the call. -/
noncomputable def entropiesWith
    (counts : List (EventsHolder E) → String → Option ((List Nat × Nat) × List (EventsHolder E)))
    (it : Iter) (log : List (EventsHolder E)) (ignored : Option (List String)) :
    Option (Dict String (Option ℝ) × List (EventsHolder E)) :=
  ((createInfo it (log.map (·.events))).allClasses it 0).foldlM (entropyStep counts ignored) ([], log)

/-- `calculate_pos_entropies`, pos_entropy.rs:7-12. -/
noncomputable def posEntropies (it : Iter) (log : List (EventsHolder E)) (ignored : Option (List String)) :
    Option (Dict String (Option ℝ) × List (EventsHolder E)) :=
  entropiesWith (fun l n => slowCounts it l n ignored) it log ignored

/-- `calculate_pos_entropies_fast`, pos_entropy_fast.rs:10-15. -/
noncomputable def posEntropiesFast (it : Iter) (log : List (EventsHolder E)) (ignored : Option (List String)) :
    Option (Dict String (Option ℝ) × List (EventsHolder E)) :=
  entropiesWith (fun l n => fastCounts it l n ignored) it log ignored

/-! ### Entropies of the directly follows relation -/

/-- The two ratios, features/analysis/entropy/dfg_entropy.rs:15-20 with 22-32, and 43-55, for the given number of pairs. The
count of `first` is a divisor; it is positive because `first` is a class of the log, 82. -/
def dfgRatio (laplace : Bool) (info : Info) (first : String) (pairs : Nat) : ℚ :=
  if laplace then
    let alpha : ℚ := 1 / info.eventCount first
    (alpha + pairs) / (alpha * ((info.classesCount + 1 : Nat) : ℚ) + info.eventCount first)
  else (pairs : ℚ) / info.eventCount first

/-- `dfr_vector`, dfg_entropy.rs:74-76, 83-86; `names` are the classes in the order of the visit. -/
def followRatios (laplace : Bool) (info : Info) (names : List String) (n : String) : List ℚ :=
  (names ++ ["FAKE_END"]).map (fun x => dfgRatio laplace info n (info.followsCount n x))

/-- `dpr_vector`, dfg_entropy.rs:78-80, 88-91. -/
def precedeRatios (laplace : Bool) (info : Info) (names : List String) (n : String) : List ℚ :=
  (names ++ ["FAKE_START"]).map (fun x => dfgRatio laplace info n (info.followsCount x n))

/-- `calculate_entropy`, dfg_entropy.rs:100-109. -/
noncomputable def ratiosEntropy (values : List ℚ) : ℝ :=
  values.foldl (fun e (v : ℚ) => if v ≠ 0 then e - (v : ℝ) * Real.logb 2 (v : ℝ) else e) 0

/-- `calculate_laplace_dfg_entropy` and `calculate_default_dfg_entropy`, dfg_entropy.rs:11-60, with the loop of
`calculate_dfg_entropy`, 62-98. -/
noncomputable def dfgEntropies (laplace : Bool) (it : Iter) (log : List (List E)) (ignored : Option (List String)) :
    Dict String ℝ :=
  let info := createInfo it log ignored true
  let names := info.allClasses it 0
  names.foldl (fun d n => Dict.set d n
    (ratiosEntropy (followRatios laplace info names n) + ratiosEntropy (precedeRatios laplace info names n))) []

end Ficus.Rs
