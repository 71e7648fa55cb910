import Verif.Props.Curves

/-! Property C107: the functions that tell the next removal agree with the filters. -/

namespace Ficus
open Spec
variable {E : Type} [HasName E]

/-- One removal of a direct filter, told by a function. -/
theorem filterDirect_one {M : Type} (gt : M → M → Bool) (metric : Metric E M) (threshold : M) (fuel : Nat) (log : Log E)
    (hne : log.traces ≠ []) :
    filterDirect gt metric threshold 1 (fuel + 1) log = some ((nextDirect gt metric log).map
      (fun r => if gt r.2 threshold then removeEvent log r.1 else log)) := by
  have h0 : ¬ log.traces.length = 0 := by simpa using hne
  unfold filterDirect
  rw [runLoop_succ]
  unfold directBody
  simp only [h0, if_false]
  cases h : nextDirect gt metric log with
  | error e => rfl
  | ok r =>
    simp only [bind, Except.bind, Except.map]
    by_cases hg : gt r.2 threshold = true
    · simp only [hg, if_true]; rfl
    · simp only [hg]; rfl

/-- C107, entropies of neighbours: a filter that may remove one event class removes the class that is told, if its entropy is above
the threshold, and nothing otherwise. It raises what the function raises. -/
theorem C107_default (laplace : Bool) (untouchable : String → Bool) (threshold : ℝ) (fuel : Nat) (log : Log E) (hne : log.traces ≠ []) :
    (∀ n v, nextDefaultDirect laplace untouchable log = .ok (n, v) →
      filterDefaultEntropyDirect laplace threshold 1 untouchable (fuel + 1) log =
        some (.ok (if v > threshold then removeEvent log n else log))) ∧
    (∀ e, nextDefaultDirect laplace untouchable log = .error e →
      filterDefaultEntropyDirect laplace threshold 1 untouchable (fuel + 1) log = some (.error e)) := by
  unfold nextDefaultDirect filterDefaultEntropyDirect
  rw [filterDirect_one _ _ _ _ _ hne]
  constructor
  · intro n v h
    rw [h]
    simp only [Except.map, gtReal, decide_eq_true_eq]
  · intro e h
    rw [h]; rfl

/-- Both implementations of position entropies tell the same removal. -/
theorem nextPosDirect_fast (log : Log E) : nextPosDirect log =
    nextDirect gtNan (touchableMetric (fun l => calculatePositionEntropiesFast l) LogPart.noneUntouchable) log := by
  unfold nextPosDirect nextDirect
  rw [touchable_none, C17_entropies_equal log none trivial none (.inl rfl)]

/-- C107, position entropies: likewise for the filter without untouchable events. -/
theorem C107_position (threshold : ℝ) (fuel : Nat) (log : Log E) (hne : log.traces ≠ []) :
    (∀ n v, nextPosDirect log = .ok (n, v) →
      filterPosEntropyDirect threshold LogPart.noneUntouchable 1 (fuel + 1) log =
        some (.ok (if gtNan v (some threshold) then removeEvent log n else log))) ∧
    (∀ e, nextPosDirect log = .error e →
      filterPosEntropyDirect threshold LogPart.noneUntouchable 1 (fuel + 1) log = some (.error e)) := by
  unfold filterPosEntropyDirect
  rw [filterDirect_one _ _ _ _ _ hne, nextPosDirect_fast]
  constructor
  · intro n v h
    rw [h]; rfl
  · intro e h
    rw [h]; rfl

/-- The first of the greatest entries is at least as great as all of them. -/
theorem firstMax_real {d : Dict String ℝ} {n : String} {v : ℝ} (h : IsFirstMax gtReal d n v) :
    (n, v) ∈ d ∧ ∀ k w, (k, w) ∈ d → w ≤ v := by
  obtain ⟨pre, post, rfl, h1, h2⟩ := h
  refine ⟨by simp, fun k w hk => ?_⟩
  simp only [List.mem_append, List.mem_cons, Prod.mk.injEq] at hk
  rcases hk with hk | ⟨_, rfl⟩ | hk
  · have := h1 _ hk
    simp only [gtReal, decide_eq_true_eq] at this
    exact this.le
  · exact le_refl _
  · have := h2 _ hk
    simp only [gtReal, decide_eq_false_iff_not, not_lt] at this
    exact this

/-- C107, what is told: for a log with a touchable event class, a class that occurs, is touchable and has the greatest entropy of the
touchable ones, with this entropy. -/
theorem C107_default_greatest (laplace : Bool) (untouchable : String → Bool) (log : Log E) (m : String)
    (hm : occurrences log m ≠ 0) (hu : untouchable m = false) :
    ∃ d n v, calculateEntropies laplace log = .ok d ∧ nextDefaultDirect laplace untouchable log = .ok (n, v) ∧
      occurrences log n ≠ 0 ∧ untouchable n = false ∧ (n, v) ∈ d ∧ ∀ k w, (k, w) ∈ d → untouchable k = false → w ≤ v := by
  obtain ⟨d, hd, hk⟩ := entropies_ok laplace log none
  have hmk : m ∈ d.keys := by rw [hk]; exact (mem_keys_iff log none m).2 ⟨by simp, hm⟩
  obtain ⟨x, hx, rfl⟩ := List.mem_map.1 hmk
  have hne : d.filter (fun x => !untouchable x.1) ≠ [] := by
    intro h
    have : x ∈ d.filter (fun x => !untouchable x.1) := List.mem_filter.2 ⟨hx, by simp [hu]⟩
    rw [h] at this; cases this
  obtain ⟨n, v, h1, h2⟩ := maxEntry_spec gtReal 0 _ hne (comparable_real 0 _)
  obtain ⟨h3, h4⟩ := firstMax_real h2
  have h5 := List.mem_filter.1 h3
  refine ⟨d, n, v, hd, ?_, ?_, by simpa using h5.2, h5.1, fun k w hkw hu' => h4 k w (List.mem_filter.2 ⟨hkw, by simp [hu']⟩)⟩
  · unfold nextDefaultDirect nextDirect touchableMetric
    simp only [hd, Except.map, bind, Except.bind, removeUntouchable_eq, h1]
  · have : n ∈ d.keys := List.mem_map_of_mem (f := Prod.fst) h5.1
    rw [hk] at this
    exact ((mem_keys_iff log none n).1 this).2

/-- C107, what is told by position entropies: with two traces that have events a class with the greatest position entropy, which is a
number; with one such trace a class that occurs, and no number. -/
theorem C107_position_greatest (log : Log E) (m : String) (hm : occurrences log m ≠ 0) :
    ∃ d n v, calculatePositionEntropies log = .ok d ∧ nextPosDirect log = .ok (n, v) ∧ occurrences log n ≠ 0 ∧ (n, v) ∈ d ∧
      ((tracesLeft log = 1 ∧ v = none) ∨
        (2 ≤ tracesLeft log ∧ ∃ a, v = some a ∧ ∀ k w, (k, w) ∈ d → ∃ b, w = some b ∧ b ≤ a)) := by
  obtain ⟨d, hd, hk, hv⟩ := posEntropies_ok log
  rw [nonEmptyCount_tracesLeft] at hv
  have hmk : m ∈ d.keys := by rw [hk]; exact (mem_keys_iff log none m).2 ⟨by simp, hm⟩
  have hne : d ≠ [] := by rintro rfl; simp [Dict.keys] at hmk
  obtain ⟨n, v, h1, h2⟩ := maxEntry_spec gtNan (some 0) d hne (comparable_nan 0 d (hv.imp (·.2) (·.2)))
  have hmem : (n, v) ∈ d := by obtain ⟨pre, post, rfl, _⟩ := h2; simp
  have hpos : 0 < tracesLeft log := by
    have hin : m ∈ log.evs.flatten.map name := by
      rw [← List.count_pos_iff]; exact Nat.pos_of_ne_zero hm
    obtain ⟨e, he, _⟩ := List.mem_map.1 hin
    obtain ⟨t, ht, het⟩ := List.mem_flatten.1 he
    exact List.length_pos_of_mem (List.mem_filter.2 ⟨ht, by simpa using List.ne_nil_of_mem het⟩)
  rw [C17_entropies_equal log none trivial none (.inl rfl)] at hd
  refine ⟨d, n, v, hd, ?_, ?_, hmem, ?_⟩
  · unfold nextPosDirect nextDirect
    simp only [hd, bind, Except.bind, h1]
  · have : n ∈ d.keys := List.mem_map_of_mem (f := Prod.fst) hmem
    rw [hk] at this
    exact ((mem_keys_iff log none n).1 this).2
  · rcases hv with ⟨hle, hall⟩ | ⟨hge, hall⟩
    · exact .inl ⟨by omega, hall _ hmem⟩
    · right
      obtain ⟨a, ha⟩ := hall _ hmem
      refine ⟨hge, a, ha, fun k w hkw => ?_⟩
      obtain ⟨b, hb⟩ := hall _ hkw
      simp only at ha hb
      subst ha hb
      refine ⟨b, rfl, ?_⟩
      obtain ⟨pre, post, rfl, g1, g2⟩ := h2
      simp only [List.mem_append, List.mem_cons, Prod.mk.injEq] at hkw
      rcases hkw with hkw | ⟨_, hw⟩ | hkw
      · have := g1 _ hkw
        simp only [gtNan, decide_eq_true_eq] at this
        exact this.le
      · cases hw; exact le_refl _
      · have := g2 _ hkw
        simp only [gtNan, decide_eq_false_iff_not, not_lt] at this
        exact this

/-- C107, nothing to tell: without a touchable event class the functions raise `ValueError`, also for a log without traces, which the
filters return as it is. -/
theorem C107_nothing (laplace : Bool) (untouchable : String → Bool) (log : Log E) :
    ((∀ n, occurrences log n ≠ 0 → untouchable n = true) → nextDefaultDirect laplace untouchable log = .error .valueError) ∧
    ((∀ n, occurrences log n = 0) → nextPosDirect log = .error .valueError) ∧
    (log.traces = [] → ∀ (threshold : ℝ) (maxEvents : Int) (fuel : Nat),
      filterDefaultEntropyDirect laplace threshold maxEvents untouchable (fuel + 1) log = some (.ok log) ∧
      filterPosEntropyDirect threshold untouchable maxEvents (fuel + 1) log = some (.ok log)) := by
  refine ⟨fun h => ?_, fun h => ?_, fun h threshold maxEvents fuel => ?_⟩
  · obtain ⟨d, hd, hk⟩ := entropies_ok laplace log none
    have hnil : d.filter (fun x => !untouchable x.1) = [] := by
      rw [List.filter_eq_nil_iff]
      intro x hx
      have : x.1 ∈ d.keys := List.mem_map_of_mem (f := Prod.fst) hx
      rw [hk] at this
      simp [h _ ((mem_keys_iff log none _).1 this).2]
    unfold nextDefaultDirect nextDirect touchableMetric
    simp only [hd, Except.map, bind, Except.bind, removeUntouchable_eq, hnil, maxEntry]
  · obtain ⟨d, hd, hk, _⟩ := posEntropies_ok log
    rw [C17_entropies_equal log none trivial none (.inl rfl)] at hd
    have hnil : d = [] := by
      cases d with
      | nil => rfl
      | cons x xs =>
        have : x.1 ∈ Dict.keys (x :: xs) := by simp [Dict.keys]
        rw [hk] at this
        exact absurd (h _) ((mem_keys_iff log none _).1 this).2
    subst hnil
    unfold nextPosDirect nextDirect
    simp only [hd, bind, Except.bind, maxEntry]
  · constructor
    · unfold filterDefaultEntropyDirect filterDirect
      rw [runLoop_succ]
      simp [directBody, h]
    · unfold filterPosEntropyDirect filterDirect
      rw [runLoop_succ]
      simp [directBody, h]

/-- C107, indirect removal: a filter that may remove one event class makes the choice that is told, unless the average entropy is at
or below the threshold. -/
theorem C107_indirect (laplace : Bool) (top : ℚ) (untouchable : String → Bool) (threshold : ℝ) (fuel : Nat) (log : Log E)
    (hne : log.traces ≠ []) :
    ∃ a r, defaultEntropyAverage laplace log none = .ok a ∧ nextDefaultIndirect laplace top untouchable log = .ok r ∧
      filterDefaultEntropyIndirect laplace threshold top 1 untouchable (fuel + 1) log =
        some (.ok (if a ≤ threshold then log else withoutChoice log r.1)) := by
  obtain ⟨d, hd, _⟩ := entropies_ok laplace log none
  obtain ⟨r, hr, _⟩ := C23_choice laplace top untouchable log
  have ha : defaultEntropyAverage laplace log none = .ok (entropyAvg d) := by unfold defaultEntropyAverage; rw [hd]; rfl
  have h0 : ¬ log.traces.length = 0 := by simpa using hne
  refine ⟨_, r, ha, hr, ?_⟩
  unfold filterDefaultEntropyIndirect
  rw [runLoop_succ]
  unfold defaultIndirectBody
  by_cases hle : entropyAvg d ≤ threshold
  · simp only [h0, if_false, ha, bind, Except.bind, hle, if_true, pure, Except.pure]
  · simp only [h0, if_false, ha, bind, Except.bind, hle, hr, removeEventOpt_choice, pure, Except.pure]
    simp

/-- C107, indirect removal by position entropies: likewise, unless the total is at or below the threshold. -/
theorem C107_position_indirect (untouchable : String → Bool) (threshold : ℝ) (fuel : Nat) (log : Log E) :
    ∃ r, nextPosIndirect untouchable log = .ok r ∧
      ((∀ x, posTotal log = some x → threshold < x) →
        filterPosEntropyIndirect threshold 1 untouchable (fuel + 1) log = some (.ok (withoutChoice log r.1))) ∧
      (∀ x, posTotal log = some x → x ≤ threshold →
        filterPosEntropyIndirect threshold 1 untouchable (fuel + 1) log = some (.ok log)) := by
  obtain ⟨r, hr, _⟩ := C51_choice untouchable log
  obtain ⟨d, hd, _, hs⟩ := posTotal_spec log (some (createEventsPositions log)) (.inr rfl)
  refine ⟨r, hr, fun h => ?_, fun x hx hle => ?_⟩
  · have hnot : (posTotal log).any (fun x => decide (x ≤ threshold)) = false := by
      cases hp : posTotal log with
      | none => rfl
      | some y => have := h y hp; simpa using this
    unfold filterPosEntropyIndirect
    rw [runLoop_succ]
    unfold posIndirectBody
    simp only [hd, bind, Except.bind, hs, hnot, Bool.false_eq_true, if_false, hr, removeEventOpt_choice, pure, Except.pure]
    simp
  · unfold filterPosEntropyIndirect
    rw [runLoop_succ]
    unfold posIndirectBody
    simp only [hd, bind, Except.bind, hs, hx, Option.any_some, hle, decide_true, if_true, pure, Except.pure]

/-! ### Examples -/

example : exCurveLog.traces ≠ [] ∧ occurrences exCurveLog "b" ≠ 0 ∧ (fun n => decide (n = "a")) "b" = false ∧
    tracesLeft exCurveLog = 3 := by
  refine ⟨by simp [exCurveLog, Log.ofEvs], by decide, by decide, by decide⟩
/-- With everything but `b` untouchable, `b` is told. -/
example : ∃ v, nextDefaultDirect true (fun n => decide (n ≠ "b")) exCurveLog = .ok ("b", v) := by
  obtain ⟨d, n, v, _, h, _, hu, _⟩ := C107_default_greatest true (fun n => decide (n ≠ "b")) exCurveLog "b" (by decide) (by decide)
  have : n = "b" := by simpa using hu
  subst this
  exact ⟨v, h⟩
example : nextPosDirect (Log.ofEvs [[], []] : Log String) = .error .valueError :=
  (C107_nothing true (fun _ => false) _).2.1 (fun n => by simp [occurrences, Log.ofEvs, Log.evs])

end Ficus
