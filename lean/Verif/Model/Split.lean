import Verif.Model.Log
import Verif.Model.Hash

/-! Model of `src/python/ficus/legacy/analysis/event_log_split.py` and of the pipeline part `FilterTracesByVariants`. -/

namespace Ficus
variable {E : Type} [HasName E]

/-- The idiom `if k in d: d[k].append(a) else: d[k] = [a]`, event_log_split.py:12-15 and 38-41. -/
def groupInto {K A : Type} [DecidableEq K] (d : Dict K (List A)) (k : K) (a : A) : Dict K (List A) :=
  match d.get? k with
  | some g => d.set k (g ++ [a])
  | none => d.set k [a]

/-- `calculate_string_poly_hash(trace[index][concept_name])`, event_log_split.py:37. -/
def hashAt (index : Nat) (t : Trace E) : Except PyErr Int :=
  match t.events[index]? with
  | some e => .ok (stringHash (name e))
  | none => .error .indexError

/-- The refinement of one group, event_log_split.py:29-44. -/
def refineGroup (index : Nat) (group : List (Trace E)) : Except PyErr (List (List (Trace E))) :=
  if group.length = 1 then .ok [group]
  else do
    let d ← group.foldlM (fun d t => do return groupInto d (← hashAt index t) t) ([] : Dict Int (List (Trace E)))
    return d.map Prod.snd

/-- The `while True` loop, event_log_split.py:22-50, for `len = len(traces[0])`; `fuel` bounds the remaining iterations
and `variantLoop len len 0` never runs out of fuel, since `index` grows by one up to `len`. -/
def variantLoop (len : Nat) : Nat → Nat → List (List (Trace E)) → Except PyErr (List (List (Trace E)))
  | 0, _, groups => .ok groups
  | fuel + 1, index, groups =>
    if index ≥ len then .ok groups
    else do
      let newGroups := (← groups.mapM (refineGroup index)).flatten
      if groups.all (fun g => decide (g.length = 1)) then return groups
      else variantLoop len fuel (index + 1) newGroups

/-- The body of the loop over the lengths, event_log_split.py:17-53. -/
def splitSameLength (traces : List (Trace E)) : Except PyErr (List (List (Trace E))) :=
  if traces.length = 1 then .ok [traces]
  else
    let len := match traces.head? with | some t => t.events.length | none => 0
    variantLoop len len 0 [traces]

/-- `split_log_by_traces`, event_log_split.py:7-56. -/
def splitLogByTraces (log : Log E) : Except PyErr (List (List (Trace E))) := do
  let byLength : Dict Nat (List (Trace E)) := log.traces.foldl (fun d t => groupInto d t.events.length t) []
  return (← byLength.mapM (fun kv => splitSameLength kv.2)).flatten

omit [HasName E] in
/-- `trace_variant[0]`, pipelines/filtering/filter_parts.py:151. -/
def firstOf (g : List (Trace E)) : Except PyErr (Trace E) :=
  match g with
  | t :: _ => .ok t
  | [] => .error .indexError

/-- `FilterTracesByVariants.execute`, pipelines/filtering/filter_parts.py:146-153: the first trace of every group. -/
def filterTracesByVariants (log : Log E) : Except PyErr (Log E) := do
  let groups ← splitLogByTraces log
  let firsts ← groups.mapM firstOf
  return { traces := firsts }

/-- `_create_array_for_hist`, analysis/event_log_analysis.py:39-50: the class number of every trace, and one more than the
number of classes. -/
def createArrayForHist (log : Log E) : Except PyErr (List Nat × Nat) := do
  let groups ← splitLogByTraces log
  return groups.foldl (fun (st : List Nat × Nat) g => (st.1 ++ List.replicate g.length st.2, st.2 + 1)) ([], 1)

omit [HasName E] in
/-- The loop of `merge_all_traces_in_one_log`, event_log_split.py:64-67: `unique i` is the `i`-th event returned by
`create_unique_event` (72-75), whose name is an external `uuid4`. -/
def mergeLoop (unique : Nat → E) : Nat → List (List E) → List E
  | _, [] => []
  | i, t :: ts => t ++ [unique i] ++ mergeLoop unique (i + 1) ts

omit [HasName E] in
/-- `merge_all_traces_in_one_log`, event_log_split.py:59-69 (as values; events are copied one by one). -/
def mergeAllTraces (unique : Nat → E) (log : Log E) : Log E := Log.ofEvs [mergeLoop unique 0 log.evs]

end Ficus
