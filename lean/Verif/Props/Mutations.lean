import Verif.Proofs.Mutations

/-! Properties C06, C07, C08: removal of events and traces. -/

namespace Ficus
open Spec
variable {E : Type} [HasName E]

/-- A log used in the examples: three traces, one of which only holds `b`, one empty. -/
def exLog : Log String := Log.ofEvs [["a", "b", "a", "c"], ["b", "b"], [], ["c", "a"]]

/-- C06a: every trace of the result is what remains of a trace of the input after dropping exactly the events with the
given name, in order; traces without a remaining event disappear, all others stay, in order. -/
theorem C06_remove_event_exact (log : Log E) (n : String) :
    (removeEvent log n).evs =
      (log.evs.map (fun t => t.filter (fun e => decide (name e ≠ n)))).filter (fun t => decide (t ≠ [])) :=
  filterEvents_evs _ _

example : (removeEvent exLog "b").evs = [["a", "a", "c"], ["c", "a"]] := by decide

/-- C06b: the removed name no longer occurs and every other name occurs as often as before. -/
theorem C06_remove_event_occurrences (log : Log E) (n m : String) :
    occurrences (removeEvent log n) m = if m = n then 0 else occurrences log m := by
  unfold occurrences removeEvent
  rw [filterEvents_flatten]
  generalize log.evs.flatten = l
  induction l with
  | nil => simp
  | cons e l ih =>
    simp only [List.filter_cons, List.map_cons, List.count_cons]
    by_cases h : name e = n
    · simp only [ne_eq, h, not_true, decide_false, Bool.false_eq_true, if_false, ih]
      by_cases hm : m = n
      · simp [hm]
      · simp [hm, Ne.symm hm]
    · simp only [ne_eq, h, not_false_iff, decide_true, if_true, List.map_cons, List.count_cons, ih]
      by_cases hm : m = n
      · subst hm; simp [h]
      · simp [hm]

example : occurrences (removeEvent exLog "b") "a" = 3 ∧ occurrences (removeEvent exLog "b") "b" = 0 := by decide

/-- C06c: the result never contains an empty trace. -/
theorem C06_remove_event_no_empty_trace (log : Log E) (n : String) : [] ∉ (removeEvent log n).evs := by
  rw [C06_remove_event_exact]; simp

/-- C06d: idempotence. -/
theorem C06_remove_event_idempotent (log : Log E) (n : String) :
    removeEvent (removeEvent log n) n = removeEvent log n := by
  unfold removeEvent
  rw [filterEvents_comp]; simp

/-- C06e: removals commute. -/
theorem C06_remove_event_comm (log : Log E) (n m : String) :
    removeEvent (removeEvent log n) m = removeEvent (removeEvent log m) n := by
  unfold removeEvent
  rw [filterEvents_comp, filterEvents_comp]
  congr 1; funext e; exact Bool.and_comm _ _

/-- C06f: removing a name that does not occur from a log without empty traces changes no event list (but the
attributes of log and traces are lost, see C06h). -/
theorem C06_remove_absent (log : Log E) (n : String) (h : occurrences log n = 0) (hne : [] ∉ log.evs) :
    (removeEvent log n).evs = log.evs := by
  rw [C06_remove_event_exact]
  have h1 : ∀ t ∈ log.evs, t.filter (fun e => decide (name e ≠ n)) = t := by
    intro t ht
    rw [List.filter_eq_self]
    intro e he
    simp only [decide_eq_true_eq]
    intro hn
    unfold occurrences at h
    rw [List.count_eq_zero] at h
    exact h (List.mem_map.2 ⟨e, List.mem_flatten.2 ⟨t, ht, he⟩, hn⟩)
  rw [List.map_congr_left h1, List.map_id']
  rw [List.filter_eq_self]
  intro t ht; simp only [decide_eq_true_eq]; rintro rfl; exact hne ht

example : (removeEvent (Log.ofEvs [["a"], ["c", "a"]]) "b").evs = [["a"], ["c", "a"]] :=
  C06_remove_absent _ _ (by decide) (by decide)

/-- C06g: `filter_log` removes exactly the events that satisfy the predicate. -/
theorem C06_filter_log_exact (log : Log E) (p : E → Bool) (e : E) :
    e ∈ (filterLog log p).evs.flatten ↔ e ∈ log.evs.flatten ∧ p e = false := by
  unfold filterLog
  rw [filterEvents_flatten, List.mem_filter]; simp

/-- C06h: the attributes of the log and of its traces are lost by every event removal. -/
theorem C06_attributes_lost (log : Log E) (n : String) :
    (removeEvent log n).attributes = [] ∧ (removeEvent log n).properties = [] ∧
    (removeEvent log n).extensions = [] ∧ (removeEvent log n).classifiers = [] ∧
    (removeEvent log n).globals = [] ∧ ∀ t ∈ (removeEvent log n).traces, t.attributes = [] := by
  refine ⟨rfl, rfl, rfl, rfl, rfl, ?_⟩
  intro t ht
  unfold removeEvent at ht
  rw [filterEvents_traces] at ht
  obtain ⟨l, _, rfl⟩ := List.mem_map.1 ht
  rfl

/-- C06i: removing a set of names: exact result. -/
theorem C06_remove_events_exact (log : Log E) (ns : List String) :
    (removeEvents log ns).evs =
      (log.evs.map (fun t => t.filter (fun e => decide (name e ∉ ns)))).filter (fun t => decide (t ≠ [])) :=
  filterEvents_evs _ _

/-- C07: removing a non-empty set of names at once equals removing them one by one, in the order given. -/
theorem C07_remove_events_eq_fold (log : Log E) (n : String) (ns : List String) :
    removeEvents log (n :: ns) = (n :: ns).foldl removeEvent log := by
  induction ns generalizing log n with
  | nil =>
    simp only [removeEvents, List.foldl_cons, List.foldl_nil, removeEvent]
    congr 1; funext e; simp
  | cons m ns ih =>
    rw [List.foldl_cons, ← ih]
    unfold removeEvents removeEvent
    rw [filterEvents_comp]
    congr 1; funext e
    by_cases h : name e = n <;> simp [h]

example : removeEvents exLog ["b", "c"] = removeEvent (removeEvent exLog "b") "c" :=
  C07_remove_events_eq_fold _ _ _

/-- C07b: the order of the single removals is irrelevant. -/
theorem C07_remove_events_any_order (log : Log E) (ns ms : List String) (h : ns.Perm ms) :
    ns.foldl removeEvent log = ms.foldl removeEvent log := by
  induction h generalizing log with
  | nil => rfl
  | cons a _ ih => simp only [List.foldl_cons]; exact ih _
  | swap a b l => simp only [List.foldl_cons]; rw [C06_remove_event_comm]
  | trans _ _ ih1 ih2 => exact (ih1 log).trans (ih2 log)

omit [HasName E] in
/-- C08: exactly the traces with more than `k` events are kept, in order and unaltered (with their attributes). -/
theorem C08_remove_empty_traces_exact (log : Log E) (k : Nat) :
    (removeEmptyTraces log k).traces = log.traces.filter (fun t => decide (k < t.events.length)) := by
  unfold removeEmptyTraces
  rw [filterTraces_traces]

example : (removeEmptyTraces exLog 2).evs = [["a", "b", "a", "c"]] := by decide

omit [HasName E] in
/-- C08b: with the default bound no empty trace survives and no event is lost. -/
theorem C08_default_keeps_events (log : Log E) :
    [] ∉ (removeEmptyTraces log).evs ∧ (removeEmptyTraces log).evs.flatten = log.evs.flatten := by
  have : (removeEmptyTraces log).evs = log.evs.filter (fun t => decide (t ≠ [])) := by
    unfold Log.evs
    rw [C08_remove_empty_traces_exact, List.filter_map]
    congr 2; funext t
    simp [List.length_pos_iff]
  rw [this]
  exact ⟨by simp, flatten_filter_nonempty _⟩

omit [HasName E] in
/-- C08c: filters by length compose to the larger bound. -/
theorem C08_compose (log : Log E) (k l : Nat) :
    removeEmptyTraces (removeEmptyTraces log k) l = removeEmptyTraces log (max k l) := by
  have h := C08_remove_empty_traces_exact (removeEmptyTraces log k) l
  rw [C08_remove_empty_traces_exact log k, List.filter_filter] at h
  have h2 := C08_remove_empty_traces_exact log (max k l)
  have : (removeEmptyTraces (removeEmptyTraces log k) l).traces = (removeEmptyTraces log (max k l)).traces := by
    rw [h, h2]; congr 1; funext t
    by_cases h1 : l < t.events.length <;> by_cases h3 : k < t.events.length <;> simp [h1, h3] <;> omega
  exact congrArg (fun ts => ({ traces := ts } : Log E)) this

end Ficus
