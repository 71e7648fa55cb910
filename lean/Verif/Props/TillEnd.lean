import Verif.Props.Indirect
import Verif.Spec.TillEnd

/-! Properties C51 and C52: the indirect position entropy filter and the filters that remove all events. -/

namespace Ficus
open Spec
variable {E : Type} [HasName E] {M : Type}

/-! ### C51 -/

theorem sumNan_none {l : List (Option ℝ)} (h : none ∈ l) : sumNan l = none := by
  unfold sumNan
  have stay : ∀ l : List (Option ℝ), l.foldl addNan none = none := by
    intro l; induction l with
    | nil => rfl
    | cons x xs ih => rw [List.foldl_cons]; exact ih
  have gen : ∀ (l : List (Option ℝ)) (s : Option ℝ), none ∈ l →
      l.foldl addNan s = none := by
    intro l; induction l with
    | nil => intro s h; cases h
    | cons x xs ih =>
      intro s h
      rw [List.foldl_cons]
      rcases List.mem_cons.1 h with rfl | h
      · cases s <;> exact stay xs
      · exact ih _ h
  exact gen l _ h

/-- The sum of numbers. -/
theorem sumNan_some (l : List ℝ) : sumNan (l.map some) = some l.sum := by
  unfold sumNan
  have gen : ∀ (l : List ℝ) (s : ℝ), (l.map some).foldl addNan (some s) = some (s + l.sum) := by
    intro l; induction l with
    | nil => intro s; simp
    | cons x xs ih =>
      intro s
      rw [List.map_cons, List.foldl_cons]
      show List.foldl _ (some (s + x)) _ = _
      rw [ih, List.sum_cons]; congr 1; ring
  rw [gen]; simp

theorem posTotal_spec (log : Log E) (cached : Option (List TracePositions))
    (hc : cached = none ∨ cached = some (createEventsPositions log)) :
    ∃ d, calculatePositionEntropiesFast log none cached = .ok d ∧ d.keys = (createLogInformation log).eventsCount.keys ∧
      sumNan (d.map Prod.snd) = posTotal log := by
  refine ⟨_, (C17_entropies_equal log none trivial cached hc).trans (C17_slow_entropies log none trivial), ?_, ?_⟩
  · unfold Dict.keys; rw [List.map_map]; exact List.map_id _
  · unfold posTotal
    rw [List.map_map]; rfl

theorem posValue_ignored (log : Log E) (key : String) :
    (calculatePositionEntropiesFast log (some ⟨[key], calculateEventsInEachTrace log⟩)
      (some (createEventsPositions log))).map (fun d => sumNan (d.map Prod.snd)) = .ok (posTotal (removeEvent log key)) := by
  have hp : IgnoreArg log (some ⟨[key], calculateEventsInEachTrace log⟩) := ⟨by simp, rfl⟩
  rw [C17_entropies_equal log _ hp _ (.inr rfl), C18_position_entropies log [key] (by simp), removeEvents_single]
  obtain ⟨d, hd, _, hs⟩ := posTotal_spec (removeEvent log key) none (.inl rfl)
  rw [C17_entropies_equal _ none trivial none (.inl rfl)] at hd
  rw [hd]
  simp only [Except.map, hs]

theorem pos_choice_cases (untouchable : String → Bool) (log : Log E) :
    ∃ r, nextPosIndirect untouchable log = .ok r ∧
      ((r = (none, some 10000000000) ∧ ∀ k, occurrences log k ≠ 0 → untouchable k = false → ∀ x,
          posTotal (removeEvent log k) = some x → 10000000000 ≤ x) ∨
        ∃ n x, occurrences log n ≠ 0 ∧ untouchable n = false ∧ r = (some n, some x) ∧ posTotal (removeEvent log n) = some x ∧
          x < 10000000000 ∧ ∀ k, occurrences log k ≠ 0 → untouchable k = false → ∀ y, posTotal (removeEvent log k) = some y → x ≤ y) := by
  obtain ⟨r, hr, hcase⟩ := minSearch_spec (fun a b => gtNan b a)
    (by
      intro a b c h1 h2
      cases a <;> cases b <;> cases c <;> simp only [gtNan, decide_eq_true_eq, Bool.false_eq_true] at *
      linarith)
    (by intro a; cases a <;> simp [gtNan])
    (fun key => (calculatePositionEntropiesFast log (some ⟨[key], calculateEventsInEachTrace log⟩)
        (some (createEventsPositions log))).map (fun d => sumNan (d.map Prod.snd)))
    (fun key => posTotal (removeEvent log key)) untouchable (some 10000000000) (createLogInformation log).eventsCount.keys
    (fun k _ => posValue_ignored log k)
  have hmem : ∀ k, k ∈ (createLogInformation log).eventsCount.keys ↔ occurrences log k ≠ 0 := by
    intro k; rw [mem_keys_iff]; simp
  refine ⟨r, hr, ?_⟩
  rcases hcase with ⟨h1, h2⟩ | ⟨n, h1, h2, h3, h4, h5⟩
  · left
    refine ⟨h1, fun k hk hu x hx => ?_⟩
    have := h2 k ((hmem k).2 hk) hu
    rw [hx] at this
    simpa [gtNan] using this
  · right
    cases hx : posTotal (removeEvent log n) with
    | none => rw [hx] at h4; simp [gtNan] at h4
    | some x =>
      refine ⟨n, x, (hmem n).1 h1, h2, by rw [h3, hx], hx, by rw [hx] at h4; simpa [gtNan] using h4, fun k hk hu y hy => ?_⟩
      have := h5 k ((hmem k).2 hk) hu
      rw [hx, hy] at this
      simpa [gtNan] using this

/-- C51, choice: the search for the next event never raises and makes a choice as specified: none, if no touchable event leads
to a total that is a number below `1e10`, otherwise a touchable one whose removal leads to the smallest total. -/
theorem C51_choice (untouchable : String → Bool) (log : Log E) :
    ∃ r, nextPosIndirect untouchable log = .ok r ∧ PosChoice untouchable log r.1 r.2 := by
  obtain ⟨r, hr, hcase⟩ := pos_choice_cases untouchable log
  refine ⟨r, hr, ?_⟩
  rcases hcase with ⟨rfl, h⟩ | ⟨n, x, h1, h2, rfl, h3, h4, h5⟩
  · exact .inl ⟨rfl, rfl, h⟩
  · exact .inr ⟨n, x, rfl, rfl, h1, h2, h3, h4, h5⟩

/-- C51, runs: whatever the parameters, the filter ends after at most `max_events_to_remove` iterations (one, if that is less)
without raising. It makes choices as specified, one after the other, each in a log whose total is not a number at or below the
threshold, and ends when the total is such a number or the number of choices has reached `max_events_to_remove`. -/
theorem C51_runs (threshold : ℝ) (maxEvents : Int) (untouchable : String → Bool) (log : Log E)
    (fuel : Nat) (hfuel : max 1 maxEvents ≤ (fuel : Int)) :
    ∃ (ns : List (Option String)) (log' : Log E),
      filterPosEntropyIndirect threshold maxEvents untouchable fuel log = some (.ok log') ∧
      PosRun threshold untouchable log ns log' ∧ (ns.length : Int) ≤ max 1 maxEvents ∧
      ((∃ x, posTotal log' = some x ∧ x ≤ threshold) ∨ (ns ≠ [] ∧ maxEvents ≤ (ns.length : Int))) := by
  have key : ∀ (fuel : Nat) (log : Log E) (c : Nat), max 1 maxEvents ≤ ((fuel + c : Nat) : Int) → (c : Int) < max 1 maxEvents →
      ∃ (ns : List (Option String)) (log' : Log E),
        runLoop (posIndirectBody threshold maxEvents untouchable) fuel (log, c) = some (.ok log') ∧
        PosRun threshold untouchable log ns log' ∧ ((c + ns.length : Nat) : Int) ≤ max 1 maxEvents ∧
        ((∃ x, posTotal log' = some x ∧ x ≤ threshold) ∨ (ns ≠ [] ∧ maxEvents ≤ ((c + ns.length : Nat) : Int))) := by
    intro fuel
    induction fuel with
    | zero => intro log c h1 h2; simp only [Nat.zero_add] at h1; omega
    | succ fuel ih =>
      intro log c h1 h2
      rw [runLoop_succ]
      obtain ⟨d, hd, _, hs⟩ := posTotal_spec log (some (createEventsPositions log)) (.inr rfl)
      by_cases hle : ∃ x, posTotal log = some x ∧ x ≤ threshold
      · refine ⟨[], log, ?_, .nil log, by simp; omega, .inl hle⟩
        obtain ⟨x, hx, hle⟩ := hle
        unfold posIndirectBody
        simp only [hd, bind, Except.bind, hs, hx, Option.any_some, hle, decide_true, if_true, pure, Except.pure]
      · have habove : ∀ x, posTotal log = some x → threshold < x := fun x hx => not_le.1 fun h => hle ⟨x, hx, h⟩
        have hnot : (posTotal log).any (fun x => decide (x ≤ threshold)) = false := by
          cases hp : posTotal log with
          | none => rfl
          | some y => have := habove y hp; simpa using this
        obtain ⟨r, hr, hch⟩ := C51_choice untouchable log
        have hbody : posIndirectBody threshold maxEvents untouchable (log, c) =
            .ok (if ((c + 1 : Nat) : Int) ≥ maxEvents then .ret (withoutChoice log r.1)
              else .next (withoutChoice log r.1, c + 1)) := by
          unfold posIndirectBody
          simp only [hd, bind, Except.bind, hs, hnot, Bool.false_eq_true, if_false, hr, removeEventOpt_choice, pure, Except.pure]
          split <;> rfl
        rw [hbody]
        by_cases hmax : ((c + 1 : Nat) : Int) ≥ maxEvents
        · rw [if_pos hmax]
          refine ⟨[r.1], _, rfl, .cons habove hch (.nil _), ?_, .inr ⟨by simp, by simpa using hmax⟩⟩
          simp only [List.length_singleton]
          push_cast
          omega
        · rw [if_neg hmax]
          have h3 : ((c + 1 : Nat) : Int) < max 1 maxEvents := by omega
          obtain ⟨ns, log', i1, i2, i3, i4⟩ := ih (withoutChoice log r.1) (c + 1) (by push_cast at h1 ⊢; omega) h3
          refine ⟨r.1 :: ns, log', i1, .cons habove hch i2, ?_, ?_⟩
          · simp only [List.length_cons]
            push_cast at i3 ⊢
            omega
          · refine i4.imp id (fun h => ⟨by simp, ?_⟩)
            have := h.2
            simp only [List.length_cons]
            push_cast at this ⊢
            omega
  obtain ⟨ns, log', h1, h2, h3, h4⟩ := key fuel log 0 (by simpa using hfuel) (by simp)
  exact ⟨ns, log', h1, h2, by simpa using h3, by simpa using h4⟩

/-- C51, till the end: the filter never raises. After any number of iterations it has either ended, with the record of the choices
that led to a log without traces, or it is still running, having made as many choices as iterations. -/
theorem C51_till_end_runs (kind : TillEndKind) (untouchable : String → Bool) (log : Log E) (fuel : Nat) :
    ∃ rs log', PosTillEnd kind untouchable log rs log' ∧
      ((log'.traces = [] ∧ rs.length < fuel ∧
          filterPosEntropyIndirectTillEnd kind untouchable fuel log = some (.ok rs)) ∨
        (rs.length = fuel ∧ filterPosEntropyIndirectTillEnd kind untouchable fuel log = none)) := by
  have key : ∀ (fuel : Nat) (log : Log E) (acc : List (Option String × Option ℝ)),
      ∃ rs log', PosTillEnd kind untouchable log rs log' ∧
      ((log'.traces = [] ∧ rs.length < fuel ∧
          runLoop (posIndirectTillEndBody kind untouchable) fuel (log, acc) = some (.ok (acc ++ rs))) ∨
        (rs.length = fuel ∧ runLoop (posIndirectTillEndBody kind untouchable) fuel (log, acc) = none)) := by
    intro fuel
    induction fuel with
    | zero => intro log acc; exact ⟨[], log, .nil log, .inr ⟨rfl, rfl⟩⟩
    | succ fuel ih =>
      intro log acc
      simp only [runLoop_succ]
      by_cases hne : log.traces.length = 0
      · refine ⟨[], log, .nil log, .inl ⟨List.length_eq_zero_iff.1 hne, by simp, ?_⟩⟩
        unfold posIndirectTillEndBody
        simp only [hne, if_true, List.append_nil]
      · obtain ⟨d, hd, _, hs⟩ := posTotal_spec log (some (createEventsPositions log)) (.inr rfl)
        obtain ⟨r, hr, hch⟩ := C51_choice untouchable log
        have hbody : ∃ x, (kind = .beforeOnly → x = posTotal log) ∧ (kind = .afterBeforeDelta → x = subNan (posTotal log) r.2) ∧
            posIndirectTillEndBody kind untouchable (log, acc) = .ok (.next (withoutChoice log r.1, acc ++ [(r.1, x)])) := by
          unfold posIndirectTillEndBody
          simp only [hne, if_false, hd, bind, Except.bind, hs, hr, removeEventOpt_choice, pure, Except.pure]
          cases kind
          · exact ⟨_, fun _ => rfl, by simp, rfl⟩
          · exact ⟨_, by simp, fun _ => rfl, rfl⟩
        obtain ⟨x, hx1, hx2, hb⟩ := hbody
        obtain ⟨rs, log', h1, h2⟩ := ih (withoutChoice log r.1) (acc ++ [(r.1, x)])
        refine ⟨(r.1, x) :: rs, log', .cons (fun h => hne (by rw [h]; rfl)) hch hx1 hx2 h1, ?_⟩
        rw [hb]
        refine h2.imp (fun ⟨g1, g2, g3⟩ => ⟨g1, by simpa using g2, ?_⟩) (fun ⟨g1, g2⟩ => ⟨by simpa using g1, g2⟩)
        simpa using g3
  unfold filterPosEntropyIndirectTillEnd
  simpa using key fuel log []

theorem posTotal_nan (log : Log E) (h1 : nonEmptyCount (keptOf log none) ≤ 1) (n : String) (hn : occurrences log n ≠ 0) :
    posTotal log = none := by
  unfold posTotal
  apply sumNan_none
  refine List.mem_map.2 ⟨n, (mem_keys_iff log none n).2 ⟨by simp, hn⟩, ?_⟩
  unfold positionEntropy
  simp only
  rw [if_pos (.inl h1)]

theorem nonEmptyCount_removeEvents (log : Log E) (ns : List String) :
    nonEmptyCount (keptOf (removeEvents log ns) none) ≤ nonEmptyCount (keptOf log none) := by
  rw [keptOf_none, removeEvents_kept, nonEmptyCount_filter, keptOf_none]
  unfold nonEmptyCount
  generalize log.evs = ts
  induction ts with
  | nil => simp
  | cons t ts ih =>
    simp only [List.map_cons, List.filter_cons, ne_eq] at ih ⊢
    by_cases h1 : kept ns t = []
    · by_cases h2 : t.map name = [] <;> simp only [h1, h2, not_true_eq_false, not_false_iff, decide_false, decide_true,
        if_true, Bool.false_eq_true, if_false, List.length_cons] <;> omega
    · have h2 : t.map name ≠ [] := by
        intro h; apply h1
        rw [List.map_eq_nil_iff] at h
        subst h; rfl
      simp only [h1, h2, not_false_iff, decide_true, if_true, List.length_cons]; omega

/-- A log with at most one non-empty trace in which at least two names occur: nothing is chosen, whatever is untouchable. -/
theorem C51_single_trace_no_choice (untouchable : String → Bool) (log : Log E)
    (h1 : nonEmptyCount (keptOf log none) ≤ 1) (n m : String) (hnm : n ≠ m) (hn : occurrences log n ≠ 0)
    (hm : occurrences log m ≠ 0) : ∃ v, nextPosIndirect untouchable log = .ok (none, v) := by
  obtain ⟨r, hr, hcase⟩ := pos_choice_cases untouchable log
  rcases hcase with ⟨h2, _⟩ | ⟨k, x, _, _, _, h6, _⟩
  · exact ⟨_, by rw [hr, h2]⟩
  · exfalso
    have hle : nonEmptyCount (keptOf (removeEvent log k) none) ≤ 1 := by
      rw [← removeEvents_single]; exact (nonEmptyCount_removeEvents log [k]).trans h1
    have : ∃ j, occurrences (removeEvent log k) j ≠ 0 := by
      by_cases hk : n = k
      · exact ⟨m, by rw [occurrences_removeEvent, if_neg (by rw [← hk]; exact hnm.symm)]; exact hm⟩
      · exact ⟨n, by rw [occurrences_removeEvent, if_neg hk]; exact hn⟩
    obtain ⟨j, hj⟩ := this
    rw [posTotal_nan _ hle j hj] at h6
    cases h6

/-- The condition of the following theorems is kept by the useless iterations. -/
theorem single_trace_compact (log : Log E) (h1 : nonEmptyCount (keptOf log none) ≤ 1) :
    nonEmptyCount (keptOf (removeEvents log []) none) ≤ 1 := (nonEmptyCount_removeEvents log []).trans h1

/-- The position entropy filter never returns on its own for such a log: it is still running after any number of iterations
below its budget `k + 1`, and then returns all events. -/
theorem C51_single_trace_stuck (threshold : ℝ) (untouchable : String → Bool) (log : Log E)
    (h1 : nonEmptyCount (keptOf log none) ≤ 1) (n m : String) (hnm : n ≠ m) (hn : occurrences log n ≠ 0)
    (hm : occurrences log m ≠ 0) (k : Nat) :
    (∀ fuel, fuel ≤ k → filterPosEntropyIndirect threshold ((k + 1 : Nat) : Int) untouchable fuel log = none) ∧
    filterPosEntropyIndirect threshold ((k + 1 : Nat) : Int) untouchable (k + 1) log =
      some (.ok (removeEvents log [])) := by
  have body : ∀ l c, (l = log ∨ l = removeEvents log []) →
      posIndirectBody threshold ((k + 1 : Nat) : Int) untouchable (l, c) =
        .ok (if ((c + 1 : Nat) : Int) ≥ ((k + 1 : Nat) : Int) then .ret (removeEvents log [])
          else .next (removeEvents log [], c + 1)) := by
    intro l c hl
    have g1 : nonEmptyCount (keptOf l none) ≤ 1 := by
      rcases hl with rfl | rfl
      · exact h1
      · exact single_trace_compact log h1
    have g2 : occurrences l n ≠ 0 := by rcases hl with rfl | rfl <;> simpa [compact_occurrences] using hn
    have g3 : occurrences l m ≠ 0 := by rcases hl with rfl | rfl <;> simpa [compact_occurrences] using hm
    have g4 : removeEventOpt l none = removeEvents log [] := by
      rw [removeEventOpt_none]
      rcases hl with rfl | rfl
      · rfl
      · exact compact_removeEvents log []
    obtain ⟨d, hd, _, hs⟩ := posTotal_spec l (some (createEventsPositions l)) (.inr rfl)
    rw [posTotal_nan l g1 n g2] at hs
    obtain ⟨v, hv⟩ := C51_single_trace_no_choice untouchable l g1 n m hnm g2 g3
    unfold posIndirectBody
    simp only [hd, bind, Except.bind, hs, Option.any_none, Bool.false_eq_true, if_false, hv, g4, pure, Except.pure]
    split <;> rfl
  have run : ∀ fuel l c, (l = log ∨ l = removeEvents log []) →
      (fuel + c ≤ k → runLoop (posIndirectBody threshold ((k + 1 : Nat) : Int) untouchable) fuel (l, c) = none) ∧
      (fuel + c = k → runLoop (posIndirectBody threshold ((k + 1 : Nat) : Int) untouchable) (fuel + 1) (l, c) =
        some (.ok (removeEvents log []))) := by
    intro fuel
    induction fuel with
    | zero =>
      intro l c hl
      refine ⟨fun _ => rfl, fun h => ?_⟩
      rw [runLoop_succ, body l c hl, if_pos (by push_cast; omega)]
    | succ fuel ih =>
      intro l c hl
      constructor
      · intro h
        rw [runLoop_succ, body l c hl, if_neg (by push_cast; omega)]
        exact (ih _ _ (.inr rfl)).1 (by omega)
      · intro h
        rw [runLoop_succ, body l c hl, if_neg (by push_cast; omega)]
        exact (ih _ _ (.inr rfl)).2 (by omega)
  exact ⟨fun fuel hf => (run fuel log 0 (.inl rfl)).1 (by omega), (run k log 0 (.inl rfl)).2 (by omega)⟩

/-- `filter_events_pos_entropy_indirect_till_end` does not terminate at all for such a log. -/
theorem C51_till_end_never_terminates (kind : TillEndKind) (untouchable : String → Bool) (log : Log E)
    (h1 : nonEmptyCount (keptOf log none) ≤ 1) (n m : String) (hnm : n ≠ m) (hn : occurrences log n ≠ 0)
    (hm : occurrences log m ≠ 0) (fuel : Nat) : filterPosEntropyIndirectTillEnd kind untouchable fuel log = none := by
  have key : ∀ (fuel : Nat) (l : Log E) (rs : List (Option String × Option ℝ)), nonEmptyCount (keptOf l none) ≤ 1 →
      occurrences l n ≠ 0 → occurrences l m ≠ 0 → runLoop (posIndirectTillEndBody kind untouchable) fuel (l, rs) = none := by
    intro fuel
    induction fuel with
    | zero => intro l rs _ _ _; rfl
    | succ fuel ih =>
      intro l rs g1 g2 g3
      rw [runLoop_succ]
      obtain ⟨d, hd, _, hs⟩ := posTotal_spec l (some (createEventsPositions l)) (.inr rfl)
      obtain ⟨v, hv⟩ := C51_single_trace_no_choice untouchable l g1 n m hnm g2 g3
      have hne : l.traces.length ≠ 0 := by
        have := traces_ne_nil_of_occurs l n g2; simpa using this
      unfold posIndirectTillEndBody
      simp only [hne, if_false, hd, bind, Except.bind, hv, pure, Except.pure, removeEventOpt_none]
      apply ih
      · exact single_trace_compact l g1
      · rw [compact_occurrences]; exact g2
      · rw [compact_occurrences]; exact g3
  exact key fuel log [] h1 hn hm

/-- A log for the examples: one trace with events and an empty one. -/
def exSingleLog : Log String := Log.ofEvs [["a", "b", "a"], []]

example : nonEmptyCount (keptOf exSingleLog none) ≤ 1 ∧ "a" ≠ "b" ∧ occurrences exSingleLog "a" ≠ 0 ∧
    occurrences exSingleLog "b" ≠ 0 := by decide

/-- `C51_runs` on this log: three choices of no event. -/
example : ∃ (ns : List (Option String)) (log' : Log String),
    filterPosEntropyIndirect 0 3 (fun _ => false) 3 exSingleLog = some (.ok log') ∧
      PosRun 0 (fun _ => false) exSingleLog ns log' ∧ (ns.length : Int) ≤ 3 ∧ log' = removeEvents exSingleLog [] := by
  obtain ⟨ns, log', h1, h2, h3, _⟩ := C51_runs 0 3 (fun _ => false) exSingleLog 3 (by decide)
  refine ⟨ns, log', h1, h2, by simpa using h3, ?_⟩
  have := (C51_single_trace_stuck 0 (fun _ => false) exSingleLog (by decide) "a" "b" (by decide) (by decide) (by decide) 2).2
  rw [show (((2 + 1 : Nat) : Int)) = 3 from rfl, h1] at this
  simpa using this

/-- C51 in part, for the logs that are not covered by the refutation: when some touchable event leads to a total that is a
number below `1e10`, one iteration of the filter removes exactly one name that occurs and is touchable, with the smallest
resulting total. Missing: the filter as a whole, which can reach a log of the kind above. -/
theorem C51_progress_partial (threshold : ℝ) (maxEvents : Int) (untouchable : String → Bool) (log : Log E) (c : Nat)
    (habove : ∀ x, posTotal log = some x → threshold < x)
    (hex : ∃ k x, occurrences log k ≠ 0 ∧ untouchable k = false ∧ posTotal (removeEvent log k) = some x ∧ x < 10000000000) :
    ∃ n x, occurrences log n ≠ 0 ∧ untouchable n = false ∧ posTotal (removeEvent log n) = some x ∧
      (∀ k, occurrences log k ≠ 0 → untouchable k = false → ∀ y, posTotal (removeEvent log k) = some y → x ≤ y) ∧
      posIndirectBody threshold maxEvents untouchable (log, c) =
        .ok (if ((c + 1 : Nat) : Int) ≥ maxEvents then .ret (removeEvent log n) else .next (removeEvent log n, c + 1)) := by
  obtain ⟨r, hr, hcase⟩ := pos_choice_cases untouchable log
  rcases hcase with ⟨_, h2⟩ | ⟨n, x, h3, h4, h5, h6, _, h7⟩
  · exfalso
    obtain ⟨k, x, g1, g2, g3, g4⟩ := hex
    have := h2 k g1 g2 x g3
    linarith
  · refine ⟨n, x, h3, h4, h6, h7, ?_⟩
    obtain ⟨d, hd, _, hs⟩ := posTotal_spec log (some (createEventsPositions log)) (.inr rfl)
    have hnot : (posTotal log).any (fun x => decide (x ≤ threshold)) = false := by
      cases hp : posTotal log with
      | none => rfl
      | some y => have := habove y hp; simpa using this
    unfold posIndirectBody
    simp only [hd, bind, Except.bind, hs, hnot, Bool.false_eq_true, if_false, hr, h5, removeEventOpt_some, pure, Except.pure]
    split <;> rfl

/-- With at least two non-empty traces the total is a number between 0 and the number of event classes. -/
theorem C51_total_range (log : Log E) (h2 : 2 ≤ nonEmptyCount (keptOf log none)) :
    ∃ x, posTotal log = some x ∧ 0 ≤ x ∧ x ≤ distinctNames log := by
  obtain ⟨d, _, hfast, _, hr⟩ := C19_all_entropies_range log none trivial h2
  obtain ⟨d', hd', hk, hs⟩ := posTotal_spec log none (.inl rfl)
  rw [hfast] at hd'; cases hd'
  have hlen : d.length ≤ distinctNames log := by
    have := eventsCount_length_le log
    rw [← hk] at this
    simpa [Dict.keys] using this
  have key : ∀ d : List (String × Option ℝ), (∀ n v, (n, v) ∈ d → ∃ e, v = some e ∧ 0 ≤ e ∧ e ≤ 1) →
      ∃ l : List ℝ, d.map Prod.snd = l.map some ∧ 0 ≤ l.sum ∧ l.sum ≤ d.length := by
    intro d
    induction d with
    | nil => intro _; exact ⟨[], by simp⟩
    | cons y ys ih =>
      intro h
      obtain ⟨e, h1, h2, h3⟩ := h y.1 y.2 (by simp)
      obtain ⟨l, g1, g2, g3⟩ := ih (fun n v hv => h n v (by simp [hv]))
      refine ⟨e :: l, by simp [h1, g1], ?_, ?_⟩
      · rw [List.sum_cons]; linarith
      · rw [List.sum_cons, List.length_cons]; push_cast; linarith
  obtain ⟨l, h3, h4, h5⟩ := key d hr
  rw [h3, sumNan_some] at hs
  refine ⟨l.sum, hs.symm, h4, h5.trans ?_⟩
  exact_mod_cast hlen

/-- A log for the example. -/
def exThreeLog : Log String := Log.ofEvs [["a", "b"], ["b", "a"], ["c"]]

example : (∀ x, posTotal exThreeLog = some x → -1 < x) ∧
    ∃ k x, occurrences exThreeLog k ≠ 0 ∧ (fun _ : String => false) k = false ∧ posTotal (removeEvent exThreeLog k) = some x ∧
      x < 10000000000 := by
  constructor
  · intro x hx
    obtain ⟨y, hy, h0, _⟩ := C51_total_range exThreeLog (by decide)
    rw [hy] at hx; cases hx; linarith
  · obtain ⟨y, hy, _, h1⟩ := C51_total_range (removeEvent exThreeLog "c") (by decide)
    have : distinctNames (removeEvent exThreeLog "c") = 2 := by decide
    rw [this] at h1
    exact ⟨"c", y, by decide, rfl, hy, by norm_num at h1; linarith⟩

/-! ### C52 -/

/-- Direct removal till the end, for a metric with an entry for every touchable name: it terminates within
`distinct names + 1` iterations. When an untouchable name occurs, or the log consists of empty traces, it raises
`ValueError`; otherwise it returns the record of the removal of every name of the log, each exactly once. -/
theorem C52_direct_till_end (gt : M → M → Bool) (threshold : M) (total : List M → M) (minus : M → M → M) (kind : TillEndKind)
    (metric : Metric E M) (untouchable : String → Bool) (hg : GoodMetric gt threshold metric)
    (hfull : ∀ log d, metric log = .ok d → ∀ n, n ∈ d.keys ↔ occurrences log n ≠ 0 ∧ untouchable n = false)
    (log : Log E) (fuel : Nat) (hfuel : distinctNames log < fuel) :
    ((log.traces = [] ∨ ∃ n, occurrences log n ≠ 0) → (∀ n, occurrences log n ≠ 0 → untouchable n = false) →
      ∃ rs, filterDirectTillEnd gt total minus kind metric fuel log = some (.ok rs) ∧
        TillEndRecord gt total minus metric kind log rs ∧ (rs.map Prod.fst).Nodup ∧
        ∀ n, n ∈ rs.map Prod.fst ↔ occurrences log n ≠ 0) ∧
    (((∃ n, occurrences log n ≠ 0 ∧ untouchable n = true) ∨ (log.traces ≠ [] ∧ ∀ n, occurrences log n = 0)) →
      filterDirectTillEnd gt total minus kind metric fuel log = some (.error .valueError)) := by
  have body : ∀ (l : Log E) (acc : List (String × M)), l.traces ≠ [] → (∃ n, occurrences l n ≠ 0 ∧ untouchable n = false) →
      ∃ d d' n v x, metric l = .ok d ∧ metric (removeEvent l n) = .ok d' ∧ IsFirstMax gt d n v ∧ occurrences l n ≠ 0 ∧
        untouchable n = false ∧
        (kind = .beforeOnly → x = total (d.map Prod.snd)) ∧
        (kind = .afterBeforeDelta → x = minus (total (d.map Prod.snd)) (total (d'.map Prod.snd))) ∧
        tillEndBody gt total minus kind metric (l, acc) = .ok (.next (removeEvent l n, acc ++ [(n, x)])) := by
    intro l acc hne ⟨n0, hn0, hu0⟩
    obtain ⟨d, hd, hwf, hk, hc⟩ := hg l
    have hdn : d ≠ [] := by
      rintro rfl
      have := (hfull l [] hd n0).2 ⟨hn0, hu0⟩
      simp [Dict.keys] at this
    obtain ⟨n, v, hmax, hfirst⟩ := maxEntry_spec gt threshold d hdn hc
    obtain ⟨d', hd', _⟩ := hg (removeEvent l n)
    have hocc := (hfull l d hd n).1 hfirst.key
    have hl : ¬ l.traces.length = 0 := by simpa using hne
    cases kind with
    | beforeOnly =>
      refine ⟨d, d', n, v, total (d.map Prod.snd), hd, hd', hfirst, hocc.1, hocc.2, fun _ => rfl, fun h => (by cases h), ?_⟩
      simp only [tillEndBody, hl, if_false, nextDirect, hd, bind, Except.bind, hmax, pure, Except.pure]
    | afterBeforeDelta =>
      refine ⟨d, d', n, v, minus (total (d.map Prod.snd)) (total (d'.map Prod.snd)), hd, hd', hfirst, hocc.1, hocc.2,
        fun h => (by cases h), fun _ => rfl, ?_⟩
      simp only [tillEndBody, hl, if_false, nextDirect, hd, hd', bind, Except.bind, hmax, pure, Except.pure]
  have good : ∀ (fuel : Nat) (l : Log E) (acc : List (String × M)), distinctNames l < fuel →
      (l.traces = [] ∨ ∃ n, occurrences l n ≠ 0) → (∀ n, occurrences l n ≠ 0 → untouchable n = false) →
      ∃ rs, runLoop (tillEndBody gt total minus kind metric) fuel (l, acc) = some (.ok (acc ++ rs)) ∧
        TillEndRecord gt total minus metric kind l rs ∧ (rs.map Prod.fst).Nodup ∧
        ∀ n, n ∈ rs.map Prod.fst ↔ occurrences l n ≠ 0 := by
    intro fuel
    induction fuel with
    | zero => intro l acc h; omega
    | succ fuel ih =>
      intro l acc hf hocc hall
      rw [runLoop_succ]
      by_cases hne : l.traces = []
      · refine ⟨[], ?_, .nil hne, by simp, ?_⟩
        · simp [tillEndBody, hne]
        · intro n; simp [occurrences, Log.evs, hne]
      · obtain ⟨n0, hn0⟩ := hocc.resolve_left hne
        obtain ⟨d, d', n, v, x, hd, hd', hfirst, hn, hu, hx1, hx2, hb⟩ := body l acc hne ⟨n0, hn0, hall n0 hn0⟩
        rw [hb]
        have hdn := distinctNames_removeEvent l n hn
        have hocc' : (removeEvent l n).traces = [] ∨ ∃ m, occurrences (removeEvent l n) m ≠ 0 := by
          by_cases h : (removeEvent l n).traces = []
          · exact .inl h
          · exact .inr (exists_occurs _ (C06_remove_event_no_empty_trace l n) h)
        obtain ⟨rs, h1, h2, h3, h4⟩ := ih (removeEvent l n) (acc ++ [(n, x)]) (by omega) hocc' (by
          intro m hm
          rw [occurrences_removeEvent] at hm
          apply hall m
          intro h0; apply hm; split <;> simp_all)
        refine ⟨(n, x) :: rs, by simp only; rw [h1]; simp, .cons hne hd hfirst hd' hx1 hx2 h2, ?_, ?_⟩
        · rw [List.map_cons, List.nodup_cons]
          refine ⟨fun hm => ?_, h3⟩
          have := (h4 n).1 hm
          rw [occurrences_removeEvent] at this; simp at this
        · intro m
          rw [List.map_cons, List.mem_cons, h4, occurrences_removeEvent]
          by_cases hmn : m = n
          · subst hmn; simp [hn]
          · simp [hmn]
  have bad : ∀ (fuel : Nat) (l : Log E) (acc : List (String × M)), distinctNames l < fuel →
      (∃ n, occurrences l n ≠ 0 ∧ untouchable n = true) →
      runLoop (tillEndBody gt total minus kind metric) fuel (l, acc) = some (.error .valueError) := by
    intro fuel
    induction fuel with
    | zero => intro l acc h; omega
    | succ fuel ih =>
      intro l acc hf ⟨m, hm, hmu⟩
      rw [runLoop_succ]
      have hne := traces_ne_nil_of_occurs l m hm
      by_cases hex : ∃ n, occurrences l n ≠ 0 ∧ untouchable n = false
      · obtain ⟨d, d', n, v, x, _, _, _, hn, hu, _, _, hb⟩ := body l acc hne hex
        rw [hb]
        have hdn := distinctNames_removeEvent l n hn
        apply ih _ _ (by omega)
        refine ⟨m, ?_, hmu⟩
        rw [occurrences_removeEvent, if_neg]
        · exact hm
        · rintro rfl; rw [hu] at hmu; cases hmu
      · obtain ⟨d, hd, _⟩ := hg l
        have hdn : d = [] := by
          cases d with
          | nil => rfl
          | cons y ys => exact absurd ⟨y.1, (hfull l _ hd y.1).1 (by simp [Dict.keys])⟩ hex
        subst hdn
        have hl : ¬ l.traces.length = 0 := by simpa using hne
        simp only [tillEndBody, hl, if_false, nextDirect, hd, bind, Except.bind, maxEntry]
  have empty : log.traces ≠ [] → (∀ n, occurrences log n = 0) →
      runLoop (tillEndBody gt total minus kind metric) fuel (log, []) = some (.error .valueError) := by
    intro hne hno
    obtain ⟨fuel, rfl⟩ : ∃ k, fuel = k + 1 := ⟨fuel - 1, by omega⟩
    rw [runLoop_succ]
    obtain ⟨d, hd, _⟩ := hg log
    have hdn : d = [] := by
      cases d with
      | nil => rfl
      | cons y ys => exact absurd (hno y.1) ((hfull log _ hd y.1).1 (by simp [Dict.keys])).1
    subst hdn
    have hl : ¬ log.traces.length = 0 := by simpa using hne
    simp only [tillEndBody, hl, if_false, nextDirect, hd, bind, Except.bind, maxEntry]
  refine ⟨fun h1 h2 => ?_, fun h => h.elim (bad fuel log [] hfuel) (fun h => empty h.1 h.2)⟩
  obtain ⟨rs, g1, g2⟩ := good fuel log [] hfuel h1 h2
  exact ⟨rs, by simpa [filterDirectTillEnd] using g1, g2⟩

/-- `filter_events_pos_entropy_direct_till_end`: the instance for position entropies. -/
theorem C52_pos_entropy_direct_till_end (kind : TillEndKind) (untouchable : String → Bool) (log : Log E) (fuel : Nat)
    (hfuel : distinctNames log < fuel) :
    ((log.traces = [] ∨ ∃ n, occurrences log n ≠ 0) → (∀ n, occurrences log n ≠ 0 → untouchable n = false) →
      ∃ rs, filterPosEntropyDirectTillEnd kind untouchable fuel log = some (.ok rs) ∧
        TillEndRecord gtNan sumNan subNan (touchableMetric (fun l => calculatePositionEntropiesFast l) untouchable) kind log rs ∧
        (rs.map Prod.fst).Nodup ∧ ∀ n, n ∈ rs.map Prod.fst ↔ occurrences log n ≠ 0) ∧
    (((∃ n, occurrences log n ≠ 0 ∧ untouchable n = true) ∨ (log.traces ≠ [] ∧ ∀ n, occurrences log n = 0)) →
      filterPosEntropyDirectTillEnd kind untouchable fuel log = some (.error .valueError)) := by
  apply C52_direct_till_end gtNan (some 0) sumNan subNan kind _ untouchable ((goodMetric_pos 0).touchable untouchable) _ log fuel
    hfuel
  intro l d hd n
  unfold touchableMetric at hd
  obtain ⟨d0, hd0, hk0, _⟩ := posEntropies_ok l
  simp only [hd0, Except.map, Except.ok.injEq] at hd
  subst hd
  rw [removeUntouchable_eq]
  have hkey := mem_keys_iff l none n
  rw [← hk0] at hkey
  constructor
  · intro h
    obtain ⟨x, hx, rfl⟩ := List.mem_map.1 h
    have hx' := List.mem_filter.1 hx
    have := hkey.1 (List.mem_map_of_mem (f := Prod.fst) hx'.1)
    exact ⟨this.2, by simpa using hx'.2⟩
  · rintro ⟨h1, h2⟩
    obtain ⟨x, hx, rfl⟩ := List.mem_map.1 (hkey.2 ⟨by simp, h1⟩)
    exact List.mem_map_of_mem (f := Prod.fst) (List.mem_filter.2 ⟨hx, by simpa using h2⟩)

/-- A log of two empty traces: the record cannot be made. -/
example : filterPosEntropyDirectTillEnd .beforeOnly (fun _ => false) 1 (Log.ofEvs [[], []] : Log String) =
    some (.error .valueError) :=
  (C52_pos_entropy_direct_till_end .beforeOnly (fun _ => false) _ 1 (by decide)).2
    (.inr ⟨by simp [Log.ofEvs], fun n => by simp [occurrences, Log.ofEvs, Log.evs]⟩)
example : (exFilterLog.traces = [] ∨ ∃ n, occurrences exFilterLog n ≠ 0) ∧ distinctNames exFilterLog < 5 :=
  ⟨.inr ⟨"a", by decide⟩, by decide⟩
example : filterDirectTillEnd gtNat List.sum (· - ·) .beforeOnly countMetric 5 exFilterLog =
    some (.ok [("a", 9), ("b", 6), ("c", 3), ("d", 1)]) := by decide
example : filterDirectTillEnd gtNat List.sum (· - ·) .afterBeforeDelta countMetric 5 exFilterLog =
    some (.ok [("a", 3), ("b", 3), ("c", 2), ("d", 1)]) := by decide

end Ficus
