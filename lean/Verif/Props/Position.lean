import Verif.Proofs.Position
import Verif.Props.Entropy
import Verif.Props.Mutations

/-! Properties C17, C18, C19: position entropies. -/

namespace Ficus
open Spec
variable {E : Type} [HasName E]

/-! ### C17 -/

/-- The reference algorithm counts, for each position, the traces that have the event there after dropping the ignored
events, and the traces that stay non-empty. -/
theorem C17_slow_exact (log : Log E) (n : String) (ign : Option IgnoredEvents) (h : ProperIgnore log ign) :
    slowPositionCounts log n ign = .ok (positionTable (keptOf log ign) n, nonEmptyCount (keptOf log ign)) :=
  slow_eq log n ign h

/-- So does the fast one, with or without precomputed positions, if the event is not ignored. -/
theorem C17_fast_exact (log : Log E) (n : String) (ign : Option IgnoredEvents) (h : ProperIgnore log ign)
    (hn : n ∉ ignoredNames ign) (cached : Option (List TracePositions))
    (hc : cached = none ∨ cached = some (createEventsPositions log)) :
    fastPositionCounts log n ign cached = .ok (positionTable (keptOf log ign) n, nonEmptyCount (keptOf log ign)) :=
  fast_eq log n ign h hn cached hc

/-- Without an ignored set both agree for every log, also the empty one, on which both raise `ValueError`. -/
theorem C17_fast_eq_slow_no_ignored (log : Log E) (n : String) :
    fastPositionCounts log n none = slowPositionCounts log n none ∧
      (log.traces = [] → slowPositionCounts log n none = .error .valueError) := by
  by_cases h : log.traces = []
  · simp [fastPositionCounts, slowPositionCounts, maxVectorLength, Log.evs, h, bind, Except.bind]
  · refine ⟨?_, fun h' => absurd h' h⟩
    rw [slow_eq log n none h, fast_eq log n none h (by simp [ignoredNames]) none (.inl rfl)]

/-- With an ignored set both agree for every event outside the set. -/
theorem C17_fast_eq_slow (log : Log E) (n : String) (ignored : List String) (hnd : ignored.Nodup) (hn : n ∉ ignored) :
    fastPositionCounts log n (some ⟨ignored, calculateEventsInEachTrace log⟩) =
      slowPositionCounts log n (some ⟨ignored, calculateEventsInEachTrace log⟩) := by
  have hp : ProperIgnore log (some ⟨ignored, calculateEventsInEachTrace log⟩) := ⟨hnd, rfl⟩
  rw [slow_eq log n _ hp, fast_eq log n _ hp hn none (.inl rfl)]

/-- A loop that assigns a value to each key of a list without duplicates. -/
theorem assign_loop {V : Type} (ks : List String) (hnd : ks.Nodup) (f : String → Except PyErr V) (g : String → V)
    (hf : ∀ k ∈ ks, f k = .ok (g k)) (d : Dict String V) (hd : ∀ k ∈ ks, k ∉ d.keys) :
    ks.foldlM (fun d key => do let v ← f key; return Dict.set d key v) d = .ok (d ++ ks.map (fun k => (k, g k))) := by
  induction ks generalizing d with
  | nil => simp [pure, Except.pure]
  | cons k ks ih =>
    obtain ⟨h1, h2⟩ := List.nodup_cons.1 hnd
    rw [List.foldlM_cons, hf k (by simp)]
    simp only [bind, Except.bind, pure, Except.pure]
    rw [set_append_of_notMem d k (g k) (hd k (by simp))]
    have := ih h2 (fun x hx => hf x (by simp [hx])) (d ++ [(k, g k)]) (by
      intro x hx
      simp only [Dict.keys, List.map_append, List.map_cons, List.map_nil, List.mem_append, List.mem_singleton, not_or]
      exact ⟨hd x (by simp [hx]), fun e => h1 (e ▸ hx)⟩)
    simp only [bind, Except.bind, pure, Except.pure] at this
    rw [this]; simp

theorem positionEntropiesWith_eq (counts : String → Except PyErr (List Nat × Nat)) (log : Log E)
    (ign : Option IgnoredEvents) (g : String → List Nat × Nat)
    (h : ∀ k ∈ (createLogInformation log (ign.map (·.ignored))).eventsCount.keys, counts k = .ok (g k)) :
    positionEntropiesWith counts log ign =
      .ok ((createLogInformation log (ign.map (·.ignored))).eventsCount.keys.map
        (fun k => (k, positionEntropy (g k).1 (g k).2))) := by
  have hnd : (createLogInformation log (ign.map (·.ignored))).eventsCount.keys.Nodup := by
    rw [createLogInformation_eq]; exact counter_WF _
  have := assign_loop (V := Option ℝ) _ hnd (fun k => (counts k).map (fun c => positionEntropy c.1 c.2))
    (fun k => positionEntropy (g k).1 (g k).2) (by intro k hk; rw [h k hk]; rfl) [] (by simp [Dict.keys])
  rw [List.nil_append] at this
  rw [← this]
  unfold positionEntropiesWith
  congr 1
  funext d k
  cases counts k <;> rfl

theorem mem_keys_iff (log : Log E) (ignored : Option (List String)) (n : String) :
    n ∈ (createLogInformation log ignored).eventsCount.keys ↔ n ∉ ignored.getD [] ∧ occurrences log n ≠ 0 := by
  rw [info_eq, mem_counter_keys, mem_namesList_iff]

/-- A log with an event has a trace. -/
theorem traces_ne_nil_of_occurs (log : Log E) (n : String) (h : occurrences log n ≠ 0) : log.traces ≠ [] := by
  intro he; apply h; simp [occurrences, Log.evs, he]

/-- The argument as the code builds it, without the requirement that the log has a trace. -/
def IgnoreArg (log : Log E) : Option IgnoredEvents → Prop
  | none => True
  | some g => g.ignored.Nodup ∧ g.tracesCounts = calculateEventsInEachTrace log

theorem proper_of_occurs (log : Log E) (ign : Option IgnoredEvents) (hp : IgnoreArg log ign) (n : String)
    (h : occurrences log n ≠ 0) : ProperIgnore log ign := by
  cases ign with
  | none => exact traces_ne_nil_of_occurs log n h
  | some g => exact hp

theorem getD_map_ignored (ign : Option IgnoredEvents) : (ign.map (·.ignored)).getD [] = ignoredNames ign := by
  cases ign <;> rfl

/-- The dictionaries of all position entropies: what the reference implementation returns. -/
theorem C17_slow_entropies (log : Log E) (ign : Option IgnoredEvents) (hp : IgnoreArg log ign) :
    calculatePositionEntropies log ign =
      .ok ((createLogInformation log (ign.map (·.ignored))).eventsCount.keys.map
        (fun k => (k, positionEntropy (positionTable (keptOf log ign) k) (nonEmptyCount (keptOf log ign))))) := by
  unfold calculatePositionEntropies
  rw [positionEntropiesWith_eq _ log ign
    (fun k => (positionTable (keptOf log ign) k, nonEmptyCount (keptOf log ign)))]
  intro k hk
  rw [mem_keys_iff] at hk
  exact slow_eq log k ign (proper_of_occurs log ign hp k hk.2)

/-- The fast implementation returns the same dictionary, with or without precomputed positions. -/
theorem C17_entropies_equal (log : Log E) (ign : Option IgnoredEvents) (hp : IgnoreArg log ign)
    (cached : Option (List TracePositions)) (hc : cached = none ∨ cached = some (createEventsPositions log)) :
    calculatePositionEntropiesFast log ign cached = calculatePositionEntropies log ign := by
  rw [C17_slow_entropies log ign hp]
  unfold calculatePositionEntropiesFast
  rw [positionEntropiesWith_eq _ log ign
    (fun k => (positionTable (keptOf log ign) k, nonEmptyCount (keptOf log ign)))]
  intro k hk
  rw [mem_keys_iff, getD_map_ignored] at hk
  refine fast_eq log k ign (proper_of_occurs log ign hp k hk.2) hk.1 _ (.inr ?_)
  rcases hc with rfl | rfl <;> rfl

/-- A log for the examples. -/
def exPosLog : Log String := Log.ofEvs [["x", "a", "y", "a"], ["x", "x"], ["b", "x", "a"], []]

example : ProperIgnore exPosLog (some ⟨["x", "y"], calculateEventsInEachTrace exPosLog⟩) :=
  ⟨by decide, rfl⟩
example : slowPositionCounts exPosLog "a" (some ⟨["x", "y"], calculateEventsInEachTrace exPosLog⟩) = .ok ([1, 2], 2) := by
  decide
example : fastPositionCounts exPosLog "a" (some ⟨["x", "y"], calculateEventsInEachTrace exPosLog⟩) = .ok ([1, 2], 2) := by
  decide
example : fastPositionCounts exPosLog "a" none = .ok ([0, 1, 1, 1], 3) := by decide

/-- The restriction is needed: for an ignored event the fast algorithm counts, the reference does not. -/
theorem C17_ignored_event_differs : ∃ (log : Log String) (ign : Option IgnoredEvents) (n : String),
    ProperIgnore log ign ∧ fastPositionCounts log n ign ≠ slowPositionCounts log n ign :=
  ⟨Log.ofEvs [["a", "b"]], some ⟨["a"], calculateEventsInEachTrace (Log.ofEvs [["a", "b"]])⟩, "a", ⟨by decide, rfl⟩, by decide⟩

/-! ### C18 -/

theorem removeEvents_kept (log : Log E) (ns : List String) :
    (removeEvents log ns).evs.map (fun t => t.map name) = (log.evs.map (kept ns)).filter (fun t => decide (t ≠ [])) := by
  unfold removeEvents
  rw [filterEvents_evs]
  generalize log.evs = ts
  induction ts with
  | nil => rfl
  | cons t ts ih =>
    have e : (t.filter (fun e => decide (name e ∉ ns))).map name = kept ns t := by
      unfold kept; rw [List.filter_map]; rfl
    simp only [List.map_cons, List.filter_cons]
    by_cases h : t.filter (fun e => decide (name e ∉ ns)) = []
    · rw [h] at e
      rw [← e, h]; simpa using ih
    · have h2 : kept ns t ≠ [] := by rw [← e]; simpa using h
      simp only [ne_eq, h, h2, not_false_iff, decide_true, if_true, List.map_cons, e]
      rw [← ih]

theorem atPosition_filter (ts : List (List String)) (n : String) (i : Nat) :
    atPosition (ts.filter (fun t => decide (t ≠ []))) n i = atPosition ts n i := by
  unfold atPosition
  rw [List.filter_filter]
  congr 1
  apply List.filter_congr
  intro t _
  cases t <;> simp

theorem nonEmptyCount_filter (ts : List (List String)) :
    nonEmptyCount (ts.filter (fun t => decide (t ≠ []))) = nonEmptyCount ts := by
  unfold nonEmptyCount
  rw [List.filter_filter]
  congr 1
  apply List.filter_congr
  intro t _
  simp

theorem longest_filter (ts : List (List String)) : longest (ts.filter (fun t => decide (t ≠ []))) = longest ts := by
  unfold longest
  induction ts with
  | nil => rfl
  | cons t ts ih =>
    rw [List.filter_cons]
    by_cases h : t = []
    · subst h; simpa using ih
    · simp only [ne_eq, h, not_false_iff, decide_true, if_true, List.map_cons, List.foldr_cons]
      rw [← ih]

theorem positionTable_filter (ts : List (List String)) (n : String) :
    positionTable (ts.filter (fun t => decide (t ≠ []))) n = positionTable ts n := by
  unfold positionTable
  rw [longest_filter]
  apply List.map_congr_left
  intro i _; exact atPosition_filter ts n i

theorem keptOf_none (log : Log E) : keptOf log none = log.evs.map (fun t => t.map name) := by
  unfold keptOf
  congr 1; funext t; exact kept_nil t

/-- Ignoring a set of names gives the counts of the log without these names, provided some event remains. -/
theorem C18_ignore_eq_remove (log : Log E) (n : String) (ns : List String) (hnd : ns.Nodup)
    (hne : (removeEvents log ns).traces ≠ []) :
    slowPositionCounts log n (some ⟨ns, calculateEventsInEachTrace log⟩) =
      slowPositionCounts (removeEvents log ns) n none := by
  have hp : ProperIgnore log (some ⟨ns, calculateEventsInEachTrace log⟩) := ⟨hnd, rfl⟩
  rw [slow_eq log n _ hp, slow_eq (removeEvents log ns) n none hne, keptOf_none, removeEvents_kept,
    positionTable_filter, nonEmptyCount_filter]
  rfl

theorem recordedPairs_filter (ts : List (List String)) (fake : Bool) :
    (ts.filter (fun t => decide (t ≠ []))).flatMap (recordedPairs fake none) = ts.flatMap (recordedPairs fake none) := by
  induction ts with
  | nil => rfl
  | cons t ts ih =>
    rw [List.filter_cons, List.flatMap_cons]
    by_cases h : t = []
    · subst h; simpa [recordedPairs] using ih
    · simp only [ne_eq, h, not_false_iff, decide_true, if_true, List.flatMap_cons]
      rw [← ih]

theorem flatten_filter_ne (ts : List (List String)) : (ts.filter (fun t => decide (t ≠ []))).flatten = ts.flatten := by
  induction ts with
  | nil => rfl
  | cons t ts ih =>
    rw [List.filter_cons, List.flatten_cons]
    by_cases h : t = []
    · subst h; simpa using ih
    · simp only [ne_eq, h, not_false_iff, decide_true, if_true, List.flatten_cons]
      rw [← ih]

/-- The directly-follows information with an ignored set is the information of the log without these names. -/
theorem C18_information (log : Log E) (ns : List String) (fake : Bool) :
    createLogInformation log (some ns) fake = createLogInformation (removeEvents log ns) none fake := by
  rw [createLogInformation_eq, createLogInformation_eq, keptNames_eq, keptNames_eq]
  have h : (removeEvents log ns).evs.map (kept ((none : Option (List String)).getD [])) =
      (log.evs.map (kept ns)).filter (fun t => decide (t ≠ [])) := by
    rw [← removeEvents_kept]
    congr 1; funext t; exact kept_nil t
  rw [h, recordedPairs_filter, flatten_filter_ne]
  rfl

/-- Hence the directly-follows entropies agree as well. -/
theorem C18_entropies (laplace : Bool) (log : Log E) (ns : List String) :
    calculateEntropies laplace log (some ns) = calculateEntropies laplace (removeEvents log ns) none := by
  unfold calculateEntropies
  rw [C18_information]

/-- And so do the dictionaries of position entropies, without any condition. -/
theorem C18_position_entropies (log : Log E) (ns : List String) (hnd : ns.Nodup) :
    calculatePositionEntropies log (some ⟨ns, calculateEventsInEachTrace log⟩) =
      calculatePositionEntropies (removeEvents log ns) none := by
  have hp : IgnoreArg log (some ⟨ns, calculateEventsInEachTrace log⟩) := ⟨hnd, rfl⟩
  rw [C17_slow_entropies log _ hp, C17_slow_entropies (removeEvents log ns) none trivial, keptOf_none,
    removeEvents_kept]
  simp only [Option.map_some, Option.map_none, C18_information, positionTable_filter, nonEmptyCount_filter]
  rfl

example : (removeEvents exPosLog ["x", "y"]).traces ≠ [] := by decide
example : slowPositionCounts (removeEvents exPosLog ["x", "y"]) "a" none = .ok ([1, 2], 2) := by decide

/-! ### C19 -/

theorem filter_length_mono {α : Type} (l : List α) (p q : α → Bool) (h : ∀ a ∈ l, p a = true → q a = true) :
    (l.filter p).length ≤ (l.filter q).length := by
  induction l with
  | nil => simp
  | cons a l ih =>
    have ih' := ih (fun b hb => h b (by simp [hb]))
    by_cases hp : p a
    · have hq := h a (by simp) hp
      simp [hp, hq]; exact ih'
    · by_cases hq : q a
      · simp [hp, hq]; omega
      · simp [hp, hq]; exact ih'

theorem atPosition_le (ts : List (List String)) (n : String) (i : Nat) : atPosition ts n i ≤ nonEmptyCount ts := by
  apply filter_length_mono
  intro t _ h
  cases t <;> simp_all

theorem positionEntropy_bounds (counts : List Nat) (traces : Nat) (h2 : 2 ≤ traces) (hle : ∀ c ∈ counts, c ≤ traces)
    (hne : ∃ c ∈ counts, c ≠ 0) : ∃ e, positionEntropy counts traces = some e ∧ 0 ≤ e ∧ e ≤ 1 := by
  unfold positionEntropy
  simp only
  set ps := (counts.map (fun c : Nat => (c : ℝ) / traces)).filter (fun p => decide (p ≠ 0)) with hps
  have htr : (0 : ℝ) < traces := by exact_mod_cast (by omega : 0 < traces)
  have hlog : 0 < Real.log traces := Real.log_pos (by exact_mod_cast (by omega : 1 < traces))
  have hmem : ∀ p ∈ ps, 0 ≤ -(Real.log p / Real.log traces) ∧ -(Real.log p / Real.log traces) ≤ 1 := by
    intro p hp
    rw [hps, List.mem_filter, List.mem_map] at hp
    obtain ⟨⟨c, hc, rfl⟩, hp⟩ := hp
    have hc0 : c ≠ 0 := by rintro rfl; simp at hp
    have hc1 : (1 : ℝ) ≤ c := by exact_mod_cast Nat.one_le_iff_ne_zero.2 hc0
    have hcn : (c : ℝ) ≤ traces := by exact_mod_cast hle c hc
    rw [Real.log_div (by linarith) (by linarith)]
    have l1 : 0 ≤ Real.log c := Real.log_nonneg hc1
    have l2 : Real.log c ≤ Real.log traces := Real.log_le_log (by linarith) hcn
    have e : -((Real.log c - Real.log traces) / Real.log traces) = (Real.log traces - Real.log c) / Real.log traces := by ring
    rw [e]
    constructor
    · exact div_nonneg (by linarith) hlog.le
    · rw [div_le_one hlog]; linarith
  have hlen : ps.length ≠ 0 := by
    obtain ⟨c, hc, hc0⟩ := hne
    have : (c : ℝ) / traces ∈ ps := by
      rw [hps, List.mem_filter]
      refine ⟨List.mem_map_of_mem hc, ?_⟩
      have h3 : traces ≠ 0 := by omega
      simpa using ⟨hc0, h3⟩
    intro h
    rw [List.length_eq_zero_iff.1 h] at this; simp at this
  rw [if_neg (by rw [not_or]; exact ⟨by omega, hlen⟩)]
  refine ⟨_, rfl, ?_, ?_⟩
  · apply div_nonneg _ (by positivity)
    apply List.sum_nonneg
    intro x hx
    obtain ⟨p, hp, rfl⟩ := List.mem_map.1 hx
    exact (hmem p hp).1
  · have hpos : (0 : ℝ) < ps.length := by exact_mod_cast Nat.pos_of_ne_zero hlen
    rw [div_le_one hpos]
    have : ∀ l : List ℝ, (∀ p ∈ l, -(Real.log p / Real.log traces) ≤ 1) →
        (l.map (fun p => -(Real.log p / Real.log traces))).sum ≤ l.length := by
      intro l
      induction l with
      | nil => intro _; simp
      | cons a l ih =>
        intro h
        rw [List.map_cons, List.sum_cons, List.length_cons]
        have h1 := h a (by simp)
        have h2 := ih (fun p hp => h p (by simp [hp]))
        push_cast; linarith
    exact this ps (fun p hp => (hmem p hp).2)

theorem occurs_iff_kept (log : Log E) (ign : Option IgnoredEvents) (n : String) (hn : n ∉ ignoredNames ign)
    (ho : occurrences log n ≠ 0) : ∃ t ∈ keptOf log ign, n ∈ t := by
  have h1 : n ∈ log.evs.flatten.map name := by
    rw [← List.count_pos_iff]; exact Nat.pos_of_ne_zero ho
  obtain ⟨e, he, rfl⟩ := List.mem_map.1 h1
  obtain ⟨t, ht, het⟩ := List.mem_flatten.1 he
  exact ⟨kept (ignoredNames ign) t, List.mem_map_of_mem ht, by
    unfold kept; rw [List.mem_filter]; exact ⟨List.mem_map_of_mem het, by simpa using hn⟩⟩

theorem table_nonzero (ts : List (List String)) (n : String) (h : ∃ t ∈ ts, n ∈ t) : ∃ c ∈ positionTable ts n, c ≠ 0 := by
  obtain ⟨t, ht, hnt⟩ := h
  obtain ⟨i, hi, hin⟩ := List.getElem_of_mem hnt
  refine ⟨atPosition ts n i, ?_, ?_⟩
  · unfold positionTable
    exact List.mem_map_of_mem (List.mem_range.2 (Nat.lt_of_lt_of_le hi (le_longest ht)))
  · unfold atPosition
    intro h0
    have : t ∈ ts.filter (fun t => decide (t[i]? = some n)) := by
      rw [List.mem_filter]; exact ⟨ht, by simp [List.getElem?_eq_getElem hi, hin]⟩
    rw [List.length_eq_zero_iff.1 h0] at this; simp at this

/-- With at least two non-empty traces the position entropy of an occurring, not ignored event is in [0,1]. -/
theorem C19_position_entropy_range (log : Log E) (n : String) (ign : Option IgnoredEvents) (hp : IgnoreArg log ign)
    (hn : n ∉ ignoredNames ign) (ho : occurrences log n ≠ 0) (h2 : 2 ≤ nonEmptyCount (keptOf log ign)) :
    ∃ c e, slowPositionCounts log n ign = .ok c ∧ positionEntropy c.1 c.2 = some e ∧ 0 ≤ e ∧ e ≤ 1 := by
  obtain ⟨e, he⟩ := positionEntropy_bounds (positionTable (keptOf log ign) n) (nonEmptyCount (keptOf log ign)) h2
    (by intro c hc; obtain ⟨i, _, rfl⟩ := List.mem_map.1 hc; exact atPosition_le _ _ _)
    (table_nonzero _ _ (occurs_iff_kept log ign n hn ho))
  exact ⟨_, e, slow_eq log n ign (proper_of_occurs log ign hp n ho), he⟩

/-- The same for the whole dictionary, for both implementations. -/
theorem C19_all_entropies_range (log : Log E) (ign : Option IgnoredEvents) (hp : IgnoreArg log ign)
    (h2 : 2 ≤ nonEmptyCount (keptOf log ign)) :
    ∃ d, calculatePositionEntropies log ign = .ok d ∧ calculatePositionEntropiesFast log ign = .ok d ∧
      (∀ n, n ∈ d.keys ↔ n ∉ ignoredNames ign ∧ occurrences log n ≠ 0) ∧
      ∀ n v, (n, v) ∈ d → ∃ e, v = some e ∧ 0 ≤ e ∧ e ≤ 1 := by
  refine ⟨_, C17_slow_entropies log ign hp, ?_, ?_, ?_⟩
  · rw [C17_entropies_equal log ign hp none (.inl rfl), C17_slow_entropies log ign hp]
  · intro n
    rw [Dict.keys, List.map_map]
    have : (Prod.fst ∘ fun k => (k, positionEntropy (positionTable (keptOf log ign) k) (nonEmptyCount (keptOf log ign)))) =
      (id : String → String) := rfl
    rw [this, List.map_id, mem_keys_iff, getD_map_ignored]
  · intro n v hv
    obtain ⟨k, hk, he⟩ := List.mem_map.1 hv
    obtain ⟨rfl, rfl⟩ := Prod.mk.inj he
    rw [mem_keys_iff, getD_map_ignored] at hk
    exact positionEntropy_bounds _ _ h2
      (by intro c hc; obtain ⟨i, _, rfl⟩ := List.mem_map.1 hc; exact atPosition_le _ _ _)
      (table_nonzero _ _ (occurs_iff_kept log ign k hk.1 hk.2))

/-- With at most one non-empty trace no entropy is a number. -/
theorem C19_single_trace_nan (log : Log E) (ign : Option IgnoredEvents) (hp : IgnoreArg log ign)
    (h1 : nonEmptyCount (keptOf log ign) ≤ 1) (n : String) (v : Option ℝ) (d : Dict String (Option ℝ))
    (hd : calculatePositionEntropies log ign = .ok d) (hv : (n, v) ∈ d) : v = none := by
  rw [C17_slow_entropies log ign hp] at hd
  cases hd
  obtain ⟨k, hk, he⟩ := List.mem_map.1 hv
  obtain ⟨rfl, rfl⟩ := Prod.mk.inj he
  unfold positionEntropy
  simp only
  rw [if_pos (.inl h1)]

example : 2 ≤ nonEmptyCount (keptOf exPosLog none) ∧ occurrences exPosLog "a" ≠ 0 := by decide
example : nonEmptyCount (keptOf (Log.ofEvs [["a", "b"], ([] : List String)]) none) ≤ 1 := by decide

end Ficus
