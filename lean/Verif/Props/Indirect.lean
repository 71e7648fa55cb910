import Verif.Props.Filters
import Mathlib.Data.List.Perm.Subperm

/-! Properties C23, C51, C52: the indirect filters and the filters that remove all events. -/

namespace Ficus
open Spec
variable {E : Type} [HasName E] {M : Type}

/-! ### Removing nothing -/

theorem removeEventOpt_none (log : Log E) : removeEventOpt log none = removeEvents log [] := by
  simp [removeEventOpt, removeEvents]

theorem removeEventOpt_some (log : Log E) (n : String) : removeEventOpt log (some n) = removeEvent log n := by
  unfold removeEventOpt removeEvent
  congr 1; funext e; simp

theorem removeEvents_single (log : Log E) (n : String) : removeEvents log [n] = removeEvent log n := by
  unfold removeEvents removeEvent
  congr 1; funext e; simp

/-- Removing nothing keeps the events and drops the empty traces. -/
theorem compact_evs (log : Log E) : (removeEvents log []).evs = log.evs.filter (fun t => decide (t ≠ [])) := by
  unfold removeEvents
  rw [filterEvents_evs]
  simp

theorem compact_removeEvents (log : Log E) (ns : List String) :
    removeEvents (removeEvents log []) ns = removeEvents log ns := by
  unfold removeEvents
  rw [filterEvents_comp]
  congr 1

theorem compact_occurrences (log : Log E) (n : String) : occurrences (removeEvents log []) n = occurrences log n := by
  unfold occurrences removeEvents
  rw [filterEvents_flatten, List.filter_eq_self.2 (by simp)]

theorem info_some_nil (log : Log E) (fake : Bool) :
    createLogInformation log (some []) fake = createLogInformation log none fake := by
  rw [createLogInformation_eq, createLogInformation_eq, keptNames_eq, keptNames_eq]
  rfl

theorem compact_entropies (laplace : Bool) (log : Log E) :
    calculateEntropies laplace (removeEvents log []) = calculateEntropies laplace log := by
  rw [← C18_entropies]
  unfold calculateEntropies
  rw [info_some_nil]

theorem entropies_single (laplace : Bool) (log : Log E) (n : String) :
    defaultEntropyAverage laplace log (some [n]) = defaultEntropyAverage laplace (removeEvent log n) none := by
  unfold defaultEntropyAverage
  rw [C18_entropies, removeEvents_single]

theorem compact_next (laplace : Bool) (p : ℚ) (untouchable : String → Bool) (log : Log E) :
    nextDefaultIndirect laplace p untouchable (removeEvents log []) = nextDefaultIndirect laplace p untouchable log := by
  unfold nextDefaultIndirect
  rw [compact_entropies]
  have : (fun key => defaultEntropyAverage laplace (removeEvents log []) (some [key])) =
      (fun key => defaultEntropyAverage laplace log (some [key])) := by
    funext key
    unfold defaultEntropyAverage
    rw [C18_entropies, C18_entropies, compact_removeEvents]
  rw [this]

/-! ### The search for the smallest value -/

/-- The result of the search over the keys: nothing when no touchable key has a value below the start value, otherwise a
touchable key with the smallest value. -/
theorem minSearch_spec (lt : M → M → Bool) (htrans : ∀ a b c, lt a b = true → lt b c = true → lt a c = true)
    (hirr : ∀ a, lt a a = false)
    (value : String → Except PyErr M) (g : String → M) (untouchable : String → Bool) (init : M) (ks : List String)
    (hv : ∀ k ∈ ks, value k = .ok (g k)) :
    ∃ r, ks.foldlM (minStep lt value untouchable) (none, init) = .ok r ∧
      ((r = (none, init) ∧ ∀ k ∈ ks, untouchable k = false → lt (g k) init = false) ∨
        ∃ n ∈ ks, untouchable n = false ∧ r = (some n, g n) ∧ lt (g n) init = true ∧
          ∀ k ∈ ks, untouchable k = false → lt (g k) (g n) = false) := by
  induction ks using List.reverseRecOn with
  | nil => exact ⟨(none, init), rfl, .inl ⟨rfl, by simp⟩⟩
  | append_singleton ks k ih =>
    obtain ⟨r, hr, hcase⟩ := ih (fun x hx => hv x (by simp [hx]))
    rw [List.foldlM_append, hr]
    have hvk := hv k (by simp)
    by_cases hkeep : untouchable k = true ∨ lt (g k) r.2 = false
    · refine ⟨r, ?_, ?_⟩
      · rcases hkeep with hu | hlt
        · simp [minStep, hu, bind, Except.bind, pure, Except.pure]
        · by_cases hu : untouchable k = true
          · simp [minStep, hu, bind, Except.bind, pure, Except.pure]
          · simp [minStep, hu, hvk, hlt, bind, Except.bind, pure, Except.pure]
      · rcases hcase with ⟨h1, h2⟩ | ⟨n, h1, h2, h3, h4, h5⟩
        · refine .inl ⟨h1, fun x hx hxu => ?_⟩
          rcases List.mem_append.1 hx with hx | hx
          · exact h2 x hx hxu
          · rw [List.mem_singleton] at hx; subst hx
            rcases hkeep with hu | hlt
            · rw [hu] at hxu; cases hxu
            · rw [h1] at hlt; exact hlt
        · refine .inr ⟨n, by simp [h1], h2, h3, h4, fun x hx hxu => ?_⟩
          rcases List.mem_append.1 hx with hx | hx
          · exact h5 x hx hxu
          · rw [List.mem_singleton] at hx; subst hx
            rcases hkeep with hu | hlt
            · rw [hu] at hxu; cases hxu
            · rw [h3] at hlt; exact hlt
    · rw [not_or] at hkeep
      have hu : untouchable k = false := by simpa using hkeep.1
      have hlt : lt (g k) r.2 = true := by simpa using hkeep.2
      refine ⟨(some k, g k), by simp [minStep, hu, hvk, hlt, bind, Except.bind, pure, Except.pure], .inr ?_⟩
      refine ⟨k, by simp, hu, rfl, ?_, ?_⟩
      · rcases hcase with ⟨h1, _⟩ | ⟨n, _, _, h3, h4, _⟩
        · rw [h1] at hlt; exact hlt
        · rw [h3] at hlt; exact htrans _ _ _ hlt h4
      · intro x hx hxu
        by_contra hx2
        have hx2 : lt (g x) (g k) = true := by simpa using hx2
        have h6 := htrans _ _ _ hx2 hlt
        rcases List.mem_append.1 hx with hx | hx
        · rcases hcase with ⟨h1, h2⟩ | ⟨n, _, _, h3, _, h5⟩
          · rw [h1] at h6; rw [h2 x hx hxu] at h6; cases h6
          · rw [h3] at h6; rw [h5 x hx hxu] at h6; cases h6
        · rw [List.mem_singleton] at hx; subst hx; rw [hirr] at hx2; cases hx2

/-! ### C23 -/

/-- The average entropy of a log, as a number. -/
theorem average_ok (laplace : Bool) (log : Log E) : ∃ a, defaultEntropyAverage laplace log none = .ok a := by
  obtain ⟨d, hd, _⟩ := entropies_ok laplace log none
  exact ⟨entropyAvg d, by simp [defaultEntropyAverage, hd, Except.map]⟩

theorem mem_sliceFrom {A : Type} {l : List A} {i : Int} {x : A} (h : x ∈ sliceFrom l i) : x ∈ l := by
  unfold sliceFrom at h
  split at h <;> exact List.mem_of_mem_drop h

theorem topEntries_mem {p : ℚ} {d : Dict String ℝ} {k : String} (h : k ∈ (topEntries p d).keys) : k ∈ d.keys := by
  obtain ⟨x, hx, rfl⟩ := List.mem_map.1 h
  exact List.mem_map_of_mem ((List.perm_insertionSort _ d).subset (mem_sliceFrom hx))

theorem insertionSort_sorted (d : Dict String ℝ) :
    (d.insertionSort (fun a b => a.2 ≤ b.2)).Pairwise (fun a b => a.2 ≤ b.2) := by
  have : Std.Total (fun a b : String × ℝ => a.2 ≤ b.2) := ⟨fun a b => le_total _ _⟩
  have : IsTrans (String × ℝ) (fun a b => a.2 ≤ b.2) := ⟨fun _ _ _ => le_trans⟩
  exact List.pairwise_insertionSort _ d

theorem pyInt_floor (q : ℚ) (h : 0 ≤ q) : pyInt q = ⌊q⌋ := by
  unfold pyInt
  rw [Int.tdiv_eq_ediv_of_nonneg (Rat.num_nonneg.2 h), Rat.floor_def']

theorem topEntries_highest (p : ℚ) (d : Dict String ℝ) : HighestPart p d (topEntries p d) := by
  have hdrop : ∀ i : Int, ∃ n, sliceFrom (d.insertionSort (fun a b => a.2 ≤ b.2)) i =
      (d.insertionSort (fun a b => a.2 ≤ b.2)).drop n := by
    intro i
    unfold sliceFrom
    split
    · exact ⟨_, rfl⟩
    · exact ⟨_, rfl⟩
  refine ⟨?_, ?_⟩
  · obtain ⟨n, hn⟩ := hdrop ((d.length : Int) - pyInt (d.length * p))
    refine ⟨(d.insertionSort (fun a b => a.2 ≤ b.2)).take n, ?_, ?_⟩
    · unfold topEntries
      rw [hn, List.take_append_drop]
      exact List.perm_insertionSort _ d
    · intro x hx y hy
      unfold topEntries at hy
      rw [hn] at hy
      have := insertionSort_sorted d
      rw [← List.take_append_drop n (d.insertionSort (fun a b => a.2 ≤ b.2)), List.pairwise_append] at this
      exact this.2.2 x hx y hy
  · intro h0 h1
    have hq : (0 : ℚ) ≤ (d.length : ℚ) * p := mul_nonneg (Nat.cast_nonneg _) h0
    have hle : ⌊(d.length : ℚ) * p⌋ ≤ (d.length : Int) := by
      have h2 : (d.length : ℚ) * p ≤ d.length := by
        have : (0 : ℚ) ≤ (d.length : ℚ) := Nat.cast_nonneg _
        nlinarith
      have h3 : ⌊(d.length : ℚ) * p⌋ ≤ ⌊(d.length : ℚ)⌋ := Int.floor_le_floor h2
      rwa [Int.floor_natCast] at h3
    have hnn : 0 ≤ ⌊(d.length : ℚ) * p⌋ := Int.floor_nonneg.2 hq
    unfold topEntries
    rw [pyInt_floor _ hq]
    unfold sliceFrom
    rw [if_pos (by omega), List.length_drop, List.length_insertionSort]
    omega

/-- The choice in terms of `topEntries`: either no event, and then no touchable event among the `top_percent` last ones (by
increasing entropy) leads to an average below `1e10`; or one of them whose removal leads to the smallest average. -/
theorem choice_of_top (laplace : Bool) (p : ℚ) (untouchable : String → Bool) (log : Log E) :
    ∃ d r, calculateEntropies laplace log = .ok d ∧ nextDefaultIndirect laplace p untouchable log = .ok r ∧
      ((r.1 = none ∧ ∀ k ∈ (topEntries p d).keys, untouchable k = false → ∀ a,
          defaultEntropyAverage laplace (removeEvent log k) none = .ok a → 10000000000 ≤ a) ∨
        ∃ n ∈ (topEntries p d).keys, untouchable n = false ∧ occurrences log n ≠ 0 ∧ r.1 = some n ∧
          defaultEntropyAverage laplace (removeEvent log n) none = .ok r.2 ∧ r.2 < 10000000000 ∧
          ∀ k ∈ (topEntries p d).keys, untouchable k = false → ∀ a,
            defaultEntropyAverage laplace (removeEvent log k) none = .ok a → r.2 ≤ a) := by
  obtain ⟨d, hd, hk⟩ := entropies_ok laplace log none
  choose g hg using fun k => average_ok laplace (removeEvent log k)
  obtain ⟨r, hr, hcase⟩ := minSearch_spec (fun a b => gtReal b a)
    (by intro a b c h1 h2; simp only [gtReal, decide_eq_true_eq] at *; linarith) (by intro a; simp [gtReal])
    (fun key => defaultEntropyAverage laplace log (some [key])) g untouchable 10000000000 (topEntries p d).keys
    (fun k _ => by rw [entropies_single]; exact hg k)
  refine ⟨d, r, hd, ?_, ?_⟩
  · unfold nextDefaultIndirect; rw [hd]; exact hr
  · rcases hcase with ⟨h1, h2⟩ | ⟨n, h1, h2, h3, h4, h5⟩
    · left
      refine ⟨by rw [h1], fun k hk' hu a ha => ?_⟩
      rw [hg k] at ha; cases ha
      simpa [gtReal] using h2 k hk' hu
    · right
      refine ⟨n, h1, h2, ?_, by rw [h3], by rw [h3]; exact hg n, by rw [h3]; simpa [gtReal] using h4,
        fun k hk' hu a ha => ?_⟩
      · have := topEntries_mem h1
        rw [hk, mem_keys_iff] at this
        exact this.2
      · rw [hg k] at ha; cases ha
        rw [h3]
        simpa [gtReal] using h5 k hk' hu

/-- C23, choice: the indirect choice never raises, and it chooses among the events of highest entropy, as many as the given
share of all event classes, a touchable one whose removal leads to the smallest average entropy. -/
theorem C23_choice (laplace : Bool) (p : ℚ) (untouchable : String → Bool) (log : Log E) :
    ∃ r, nextDefaultIndirect laplace p untouchable log = .ok r ∧ IndirectChoice laplace p untouchable log r.1 := by
  obtain ⟨d, r, hd, hr, hcase⟩ := choice_of_top laplace p untouchable log
  refine ⟨r, hr, d, topEntries p d, hd, topEntries_highest p d, ?_⟩
  rcases hcase with h | ⟨n, h1, h2, h3, h4, h5, h6, h7⟩
  · exact .inl h
  · exact .inr ⟨n, h1, h4, h2, h3, r.2, h5, h6, h7⟩

theorem removeEventOpt_choice (log : Log E) (n : Option String) : removeEventOpt log n = withoutChoice log n := by
  cases n with
  | none => exact removeEventOpt_none log
  | some n => exact removeEventOpt_some log n

/-- C23, runs: whatever the parameters, the indirect filter ends after at most `max_events_to_remove` iterations (one, if that
is less) without raising. It makes choices as in `C23_choice`, one after the other, each in a log that is not empty and
whose average is above the threshold, and ends when the log is empty, the average is not above the threshold or the
number of choices has reached `max_events_to_remove`. (A choice of no event counts as well.) -/
theorem C23_runs (laplace : Bool) (threshold : ℝ) (p : ℚ) (maxEvents : Int) (untouchable : String → Bool) (log : Log E)
    (fuel : Nat) (hfuel : max 1 maxEvents ≤ (fuel : Int)) :
    ∃ (ns : List (Option String)) (log' : Log E),
      filterDefaultEntropyIndirect laplace threshold p maxEvents untouchable fuel log = some (.ok log') ∧
      IndirectRun laplace threshold p untouchable log ns log' ∧ (ns.length : Int) ≤ max 1 maxEvents ∧
      (log'.traces = [] ∨ (∃ a, defaultEntropyAverage laplace log' none = .ok a ∧ a ≤ threshold) ∨
        (ns ≠ [] ∧ maxEvents ≤ (ns.length : Int))) := by
  have key : ∀ (fuel : Nat) (log : Log E) (c : Nat), max 1 maxEvents ≤ ((fuel + c : Nat) : Int) → (c : Int) < max 1 maxEvents →
      ∃ (ns : List (Option String)) (log' : Log E),
        runLoop (defaultIndirectBody laplace threshold p maxEvents untouchable) fuel (log, c) = some (.ok log') ∧
        IndirectRun laplace threshold p untouchable log ns log' ∧ ((c + ns.length : Nat) : Int) ≤ max 1 maxEvents ∧
        (log'.traces = [] ∨ (∃ a, defaultEntropyAverage laplace log' none = .ok a ∧ a ≤ threshold) ∨
          (ns ≠ [] ∧ maxEvents ≤ ((c + ns.length : Nat) : Int))) := by
    intro fuel
    induction fuel with
    | zero => intro log c h1 h2; simp only [Nat.zero_add] at h1; omega
    | succ fuel ih =>
      intro log c h1 h2
      rw [runLoop_succ]
      by_cases hne : log.traces.length = 0
      · refine ⟨[], log, ?_, .nil log, by simp; omega, .inl (List.length_eq_zero_iff.1 hne)⟩
        unfold defaultIndirectBody; simp only [hne, if_true]
      · obtain ⟨a, ha⟩ := average_ok laplace log
        by_cases hle : a ≤ threshold
        · refine ⟨[], log, ?_, .nil log, by simp; omega, .inr (.inl ⟨a, ha, hle⟩)⟩
          unfold defaultIndirectBody
          simp only [hne, if_false, ha, bind, Except.bind, hle, if_true, pure, Except.pure]
        · obtain ⟨r, hr, hch⟩ := C23_choice laplace p untouchable log
          have hbody : defaultIndirectBody laplace threshold p maxEvents untouchable (log, c) =
              .ok (if ((c + 1 : Nat) : Int) ≥ maxEvents then .ret (withoutChoice log r.1)
                else .next (withoutChoice log r.1, c + 1)) := by
            unfold defaultIndirectBody
            simp only [hne, if_false, ha, bind, Except.bind, hle, hr, removeEventOpt_choice, pure, Except.pure]
            split <;> rfl
          rw [hbody]
          have hne' : log.traces ≠ [] := fun h => hne (by rw [h]; rfl)
          by_cases hmax : ((c + 1 : Nat) : Int) ≥ maxEvents
          · rw [if_pos hmax]
            refine ⟨[r.1], _, rfl, .cons hne' ha (not_le.1 hle) hch (.nil _), ?_, .inr (.inr ⟨by simp, by simpa using hmax⟩)⟩
            simp only [List.length_singleton]
            push_cast
            omega
          · rw [if_neg hmax]
            have h3 : ((c + 1 : Nat) : Int) < max 1 maxEvents := by omega
            obtain ⟨ns, log', i1, i2, i3, i4⟩ := ih (withoutChoice log r.1) (c + 1) (by push_cast at h1 ⊢; omega) h3
            refine ⟨r.1 :: ns, log', i1, .cons hne' ha (not_le.1 hle) hch i2, ?_, ?_⟩
            · simp only [List.length_cons]
              push_cast at i3 ⊢
              omega
            · refine i4.imp id (Or.imp id (fun h => ⟨by simp, ?_⟩))
              have := h.2
              simp only [List.length_cons]
              push_cast at this ⊢
              omega
  obtain ⟨ns, log', h1, h2, h3, h4⟩ := key fuel log 0 (by simpa using hfuel) (by simp)
  exact ⟨ns, log', h1, h2, by simpa using h3, by simpa using h4⟩

/-- A log in which something occurs has a trace. -/
theorem compact_traces_ne (log : Log E) (n : String) (h : occurrences log n ≠ 0) : (removeEvents log []).traces ≠ [] :=
  traces_ne_nil_of_occurs _ n (by rw [compact_occurrences]; exact h)

theorem no_candidate_no_progress (laplace : Bool) (threshold : ℝ) (p : ℚ) (untouchable : String → Bool) (log : Log E)
    (n : String) (hn : occurrences log n ≠ 0)
    (havg : ∀ a, defaultEntropyAverage laplace log none = .ok a → threshold < a)
    (hnone : ∀ d, calculateEntropies laplace log = .ok d → ∀ m ∈ (topEntries p d).keys, untouchable m = true) (k : Nat) :
    (∀ fuel, fuel ≤ k → filterDefaultEntropyIndirect laplace threshold p ((k + 1 : Nat) : Int) untouchable fuel log = none) ∧
    filterDefaultEntropyIndirect laplace threshold p ((k + 1 : Nat) : Int) untouchable (k + 1) log =
      some (.ok (removeEvents log [])) := by
  obtain ⟨a, ha⟩ := average_ok laplace log
  have hlt := havg a ha
  have hnext : nextDefaultIndirect laplace p untouchable log = .ok (none, 10000000000) := by
    obtain ⟨d, hd, _⟩ := entropies_ok laplace log none
    have key : ∀ ks : List String, (∀ m ∈ ks, untouchable m = true) → ks.foldlM (minStep (fun a b => gtReal b a)
        (fun key => defaultEntropyAverage laplace log (some [key])) untouchable) (none, (10000000000 : ℝ)) =
        .ok (none, 10000000000) := by
      intro ks
      induction ks with
      | nil => intro _; rfl
      | cons m ks ih =>
        intro h
        rw [List.foldlM_cons]
        have : minStep (fun a b => gtReal b a) (fun key => defaultEntropyAverage laplace log (some [key])) untouchable
            (none, (10000000000 : ℝ)) m = .ok (none, 10000000000) := by
          unfold minStep; rw [if_pos (h m (by simp))]
        rw [this]
        exact ih (fun x hx => h x (by simp [hx]))
    unfold nextDefaultIndirect
    rw [hd]
    exact key _ (hnone d hd)
  have body : ∀ l c, (l = log ∨ l = removeEvents log []) →
      defaultIndirectBody laplace threshold p ((k + 1 : Nat) : Int) untouchable (l, c) =
        .ok (if ((c + 1 : Nat) : Int) ≥ ((k + 1 : Nat) : Int) then .ret (removeEvents log [])
          else .next (removeEvents log [], c + 1)) := by
    intro l c hl
    have h1 : l.traces.length ≠ 0 := by
      rcases hl with rfl | rfl
      · have := traces_ne_nil_of_occurs _ n hn; simpa using this
      · have := compact_traces_ne log n hn; simpa using this
    have h2 : defaultEntropyAverage laplace l none = .ok a := by
      rcases hl with rfl | rfl
      · exact ha
      · rw [← ha]; unfold defaultEntropyAverage; rw [compact_entropies]
    have h3 : nextDefaultIndirect laplace p untouchable l = .ok (none, 10000000000) := by
      rcases hl with rfl | rfl
      · exact hnext
      · rw [compact_next]; exact hnext
    have h4 : removeEventOpt l none = removeEvents log [] := by
      rw [removeEventOpt_none]
      rcases hl with rfl | rfl
      · rfl
      · exact compact_removeEvents log []
    unfold defaultIndirectBody
    simp only [h1, if_false, h2, bind, Except.bind, not_le.2 hlt, h3, h4, pure, Except.pure]
    split <;> rfl
  have run : ∀ fuel l c, (l = log ∨ l = removeEvents log []) →
      (fuel + c ≤ k → runLoop (defaultIndirectBody laplace threshold p ((k + 1 : Nat) : Int) untouchable) fuel (l, c) = none) ∧
      (fuel + c = k → runLoop (defaultIndirectBody laplace threshold p ((k + 1 : Nat) : Int) untouchable) (fuel + 1) (l, c) =
        some (.ok (removeEvents log []))) := by
    intro fuel
    induction fuel with
    | zero =>
      intro l c hl
      refine ⟨fun _ => rfl, fun h => ?_⟩
      rw [runLoop_succ, body l c hl, if_pos (by push_cast; omega)]
    | succ fuel ih =>
      intro l c hl
      constructor
      · intro h
        rw [runLoop_succ, body l c hl, if_neg (by push_cast; omega)]
        exact (ih _ _ (.inr rfl)).1 (by omega)
      · intro h
        rw [runLoop_succ, body l c hl, if_neg (by push_cast; omega)]
        exact (ih _ _ (.inr rfl)).2 (by omega)
  exact ⟨fun fuel hf => (run fuel log 0 (.inl rfl)).1 (by omega), (run k log 0 (.inl rfl)).2 (by omega)⟩

/-- The full property fails: when the average is above the threshold and no event can be chosen, because all are untouchable
or the share of the events is less than one event, the loop only counts up to its budget; the result has the same events
as the input. With `max_events_to_remove = k` it is still running after any number of iterations below `k`. -/
theorem C23_no_candidate_no_progress (laplace : Bool) (threshold : ℝ) (p : ℚ) (untouchable : String → Bool) (log : Log E)
    (n : String) (hn : occurrences log n ≠ 0)
    (havg : ∀ a, defaultEntropyAverage laplace log none = .ok a → threshold < a)
    (hnone : (∀ m, occurrences log m ≠ 0 → untouchable m = true) ∨
      (0 ≤ p ∧ ∀ d, calculateEntropies laplace log = .ok d → (d.length : ℚ) * p < 1)) (k : Nat) :
    (∀ fuel, fuel ≤ k → filterDefaultEntropyIndirect laplace threshold p ((k + 1 : Nat) : Int) untouchable fuel log = none) ∧
    filterDefaultEntropyIndirect laplace threshold p ((k + 1 : Nat) : Int) untouchable (k + 1) log =
      some (.ok (removeEvents log [])) := by
  refine no_candidate_no_progress laplace threshold p untouchable log n hn havg ?_ k
  intro d hd m hm
  obtain ⟨d', hd', hk⟩ := entropies_ok laplace log none
  rw [hd] at hd'; cases hd'
  rcases hnone with h | ⟨h0, h1⟩
  · have := topEntries_mem hm
    rw [hk, mem_keys_iff] at this
    exact h m this.2
  · exfalso
    have hlt := h1 d hd
    have hlen : d.length ≠ 0 := by
      intro h
      have := topEntries_mem hm
      rw [List.length_eq_zero_iff.1 h] at this
      cases this
    have hp : p ≤ 1 := by
      have h3 : (1 : ℚ) ≤ d.length := by exact_mod_cast Nat.one_le_iff_ne_zero.2 hlen
      nlinarith
    have h4 := (topEntries_highest p d).2 h0 hp
    have h5 : ⌊(d.length : ℚ) * p⌋ = 0 := Int.floor_eq_zero_iff.2 ⟨mul_nonneg (Nat.cast_nonneg _) h0, hlt⟩
    rw [h5] at h4
    have h6 : topEntries p d = [] := List.length_eq_zero_iff.1 (by exact_mod_cast h4)
    rw [h6] at hm
    cases hm

theorem eventsCount_length_le (log : Log E) : (createLogInformation log).eventsCount.keys.length ≤ distinctNames log := by
  unfold distinctNames
  apply List.Subperm.length_le
  apply List.Nodup.subperm (C09_wellformed log none true).2
  intro x hx
  rw [mem_keys_iff] at hx
  rw [List.mem_dedup]
  exact List.count_pos_iff.1 (Nat.pos_of_ne_zero hx.2)

/-- In particular with the default `top_percent = 0.05` every log with fewer than 20 event classes and an average above the
threshold is returned with all its events after `max_events_to_remove` (by default 10^9) useless iterations. -/
theorem C23_default_percent_stuck (laplace : Bool) (threshold : ℝ) (untouchable : String → Bool) (log : Log E)
    (n : String) (hn : occurrences log n ≠ 0) (hsmall : distinctNames log < 20)
    (havg : ∀ a, defaultEntropyAverage laplace log none = .ok a → threshold < a) (k : Nat) :
    (∀ fuel, fuel ≤ k →
      filterDefaultEntropyIndirect laplace threshold (1 / 20) ((k + 1 : Nat) : Int) untouchable fuel log = none) ∧
    filterDefaultEntropyIndirect laplace threshold (1 / 20) ((k + 1 : Nat) : Int) untouchable (k + 1) log =
      some (.ok (removeEvents log [])) := by
  apply C23_no_candidate_no_progress laplace threshold (1 / 20) untouchable log n hn havg
  refine .inr ⟨by norm_num, fun d hd => ?_⟩
  obtain ⟨d', hd', hk⟩ := entropies_ok laplace log none
  rw [hd] at hd'; cases hd'
  have hlen : d.length < 20 := by
    have h1 := eventsCount_length_le log
    rw [← hk] at h1
    simp only [Dict.keys, List.length_map] at h1
    omega
  have : (d.length : ℚ) < 20 := by exact_mod_cast hlen
  linarith

/-- For the examples: the average entropy is positive as soon as one probability is strictly between 0 and 1. -/
theorem average_pos (laplace : Bool) (log : Log E) (hf : NoFakeNames log) (a : String) (ha : occurrences log a ≠ 0)
    (f : List ℚ) (hfv : dfrVector laplace (createLogInformation log) a = .ok f) (q : ℚ) (hq : q ∈ f) (h0 : 0 < q) (h1 : q < 1)
    (avg : ℝ) (havg : defaultEntropyAverage laplace log none = .ok avg) : 0 < avg := by
  obtain ⟨d, hd, hk, hv, hb⟩ := C16_entropies laplace log none hf
  obtain ⟨f', hf', hfp⟩ := C16_dfr_probability laplace log none a hf (by simp) ha
  obtain ⟨p', hp', hpp⟩ := C16_dpr_probability laplace log none a hf (by simp) ha
  rw [hfv] at hf'; cases hf'
  have hmem : a ∈ d.keys := by rw [hk, mem_keys_iff]; exact ⟨by simp, ha⟩
  obtain ⟨⟨a', e⟩, hx, rfl⟩ := List.mem_map.1 hmem
  have hterm : ∀ x : ℚ, 0 ≤ x ∧ x ≤ 1 → 0 ≤ -((x : ℝ) * Real.logb 2 x) := by
    intro x ⟨hx0, hx1⟩
    have h2 : Real.logb 2 (x : ℝ) ≤ 0 := Real.logb_nonpos (by norm_num) (by exact_mod_cast hx0) (by exact_mod_cast hx1)
    have h3 : (0 : ℝ) ≤ x := by exact_mod_cast hx0
    nlinarith
  have hqpos : 0 < -((q : ℝ) * Real.logb 2 q) := by
    have h2 : Real.logb 2 (q : ℝ) < 0 := Real.logb_neg (by norm_num) (by exact_mod_cast h0) (by exact_mod_cast h1)
    have h3 : (0 : ℝ) < q := by exact_mod_cast h0
    nlinarith
  have hepos : 0 < e := by
    obtain ⟨f1, p1, hf1, hp1, he⟩ := hv a' e hx
    rw [hfv] at hf1; cases hf1
    simp only at hp'
    rw [hp'] at hp1; cases hp1
    have s1 : -((q : ℝ) * Real.logb 2 q) ≤ (f.map (fun q : ℚ => -((q : ℝ) * Real.logb 2 q))).sum := by
      apply List.single_le_sum
      · intro x hx; obtain ⟨y, hy, rfl⟩ := List.mem_map.1 hx; exact hterm y (hfp.1 y hy)
      · exact List.mem_map_of_mem (f := fun q : ℚ => -((q : ℝ) * Real.logb 2 q)) hq
    have s2 : 0 ≤ (p'.map (fun q : ℚ => -((q : ℝ) * Real.logb 2 q))).sum := by
      apply List.sum_nonneg
      intro x hx; obtain ⟨y, hy, rfl⟩ := List.mem_map.1 hx; exact hterm y (hpp.1 y hy)
    linarith
  have hne : d.length ≠ 0 := by
    intro h; rw [List.length_eq_zero_iff] at h; subst h; simp at hx
  unfold defaultEntropyAverage at havg
  rw [hd] at havg
  simp only [Except.map, Except.ok.injEq] at havg
  subst havg
  unfold entropyAvg
  rw [if_neg hne]
  apply div_pos
  · have : e ≤ entropySum d := by
      unfold entropySum
      apply List.single_le_sum
      · intro x hx; obtain ⟨y, hy, rfl⟩ := List.mem_map.1 hx; exact (hb y.1 y.2 hy).1
      · exact List.mem_map_of_mem (f := Prod.snd) hx
    linarith
  · exact_mod_cast Nat.pos_of_ne_zero hne

/-- A log for the examples. -/
def exIndirectLog : Log String := Log.ofEvs [["a", "b"], ["b", "a"], ["c"]]

example : occurrences exIndirectLog "a" ≠ 0 ∧ distinctNames exIndirectLog < 20 ∧
    ∀ a, defaultEntropyAverage true exIndirectLog none = .ok a → 0 < a := by
  refine ⟨by decide, by decide, fun a ha => ?_⟩
  exact average_pos true exIndirectLog (by constructor <;> decide) "a" (by decide) [1 / 8, 3 / 8, 1 / 8, 3 / 8]
    (by decide +kernel) (1 / 8) (by simp) (by norm_num) (by norm_num) a ha

/-- `C23_runs` with all events as candidates and at most three removals. -/
example : ∃ (ns : List (Option String)) (log' : Log String),
    filterDefaultEntropyIndirect true 0 1 3 (fun _ => false) 3 exIndirectLog = some (.ok log') ∧
      IndirectRun true 0 1 (fun _ => false) exIndirectLog ns log' ∧ (ns.length : Int) ≤ 3 ∧ ns ≠ [] := by
  obtain ⟨ns, log', h1, h2, h3, h4⟩ := C23_runs true 0 1 3 (fun _ => false) exIndirectLog 3 (by decide)
  refine ⟨ns, log', h1, h2, by simpa using h3, fun hns => ?_⟩
  subst hns
  cases h2
  rcases h4 with h | ⟨a, ha, hle⟩ | ⟨h, _⟩
  · exact absurd h (by decide)
  · have := average_pos true exIndirectLog (by constructor <;> decide) "a" (by decide) [1 / 8, 3 / 8, 1 / 8, 3 / 8]
      (by decide +kernel) (1 / 8) (by simp) (by norm_num) (by norm_num) a ha
    linarith
  · exact h rfl

/-! Progress: with all events as candidates and none untouchable the filter terminates. -/

theorem topEntries_one (d : Dict String ℝ) : (topEntries 1 d).keys.Perm d.keys := by
  unfold topEntries
  have : pyInt ((d.length : ℚ) * 1) = d.length := by
    rw [mul_one]; unfold pyInt
    rw [Rat.num_natCast, Rat.den_natCast]; simp
  rw [this, sub_self]
  unfold sliceFrom
  rw [if_pos (le_refl _)]
  simp only [Int.toNat_zero, List.drop_zero]
  exact (List.perm_insertionSort _ d).map _

theorem average_le (laplace : Bool) (log : Log E) (hf : NoFakeNames log) (B : ℝ) (hB : 0 ≤ B)
    (hb : 2 * Real.logb 2 (distinctNames log + 1) ≤ B) (a : ℝ) (ha : defaultEntropyAverage laplace log none = .ok a) :
    a ≤ B := by
  obtain ⟨d, hd, hk, _, hbd⟩ := C16_entropies laplace log none hf
  unfold defaultEntropyAverage at ha
  rw [hd] at ha
  simp only [Except.map, Except.ok.injEq] at ha
  subst ha
  unfold entropyAvg
  split
  · exact hB
  · rename_i hne
    have hlen : d.length ≤ distinctNames log := by
      have := eventsCount_length_le log
      rw [← hk] at this
      simpa [Dict.keys] using this
    have hsum : entropySum d ≤ d.length * B := by
      unfold entropySum
      have : ∀ x ∈ d.map Prod.snd, x ≤ B := by
        intro x hx
        obtain ⟨y, hy, rfl⟩ := List.mem_map.1 hx
        have h1 := (hbd y.1 y.2 hy).2
        have h2 : Real.logb 2 (d.length + 1) ≤ Real.logb 2 (distinctNames log + 1) := by
          apply Real.logb_le_logb_of_le (by norm_num) (by positivity)
          have : (d.length : ℝ) ≤ distinctNames log := by exact_mod_cast hlen
          linarith
        linarith
      have := List.sum_le_card_nsmul (d.map Prod.snd) B this
      simpa using this
    have hpos : (0 : ℝ) < d.length := by exact_mod_cast Nat.pos_of_ne_zero hne
    rw [div_le_iff₀ hpos]
    linarith

theorem NoFakeNames.removeEvent {log : Log E} (h : NoFakeNames log) (n : String) : NoFakeNames (removeEvent log n) := by
  constructor
  · rw [occurrences_removeEvent]; split <;> simp [h.1]
  · rw [occurrences_removeEvent]; split <;> simp [h.2]

/-- C23 in part: with `top_percent = 1`, no untouchable events, a threshold of at least 0, and fewer than `2^(5*10^9)` event
classes (so that averages stay below the start value `1e10`) every iteration removes an event that occurs; the filter ends
after at most `distinct names + 1` iterations, with an empty log, an average not above the threshold or a used-up budget.
Missing for the full property: smaller `top_percent` and untouchable events, for which it fails (see above). -/
theorem C23_terminates_partial (laplace : Bool) (threshold : ℝ) (hthr : 0 ≤ threshold) (maxEvents : Int) (log : Log E)
    (hf : NoFakeNames log) (hsize : Real.logb 2 (distinctNames log + 1) < 5000000000) (fuel : Nat)
    (hfuel : distinctNames log < fuel) :
    ∃ (ns : List String) (log' : Log E), filterDefaultEntropyIndirect laplace threshold 1 maxEvents (fun _ => false) fuel log = some (.ok log') ∧
      log' = ns.foldl removeEvent log ∧ ns.Nodup ∧ (∀ n ∈ ns, occurrences log n ≠ 0) ∧
      (1 ≤ maxEvents → (ns.length : Int) ≤ maxEvents) ∧
      (log'.traces = [] ∨ (∃ a, defaultEntropyAverage laplace log' none = .ok a ∧ a ≤ threshold) ∨
        (0 < ns.length ∧ (ns.length : Int) ≥ maxEvents)) := by
  have key : ∀ (fuel : Nat) (log : Log E) (c : Nat), NoFakeNames log → Real.logb 2 (distinctNames log + 1) < 5000000000 →
      distinctNames log < fuel → (1 ≤ maxEvents → (c : Int) < maxEvents) →
      ∃ (ns : List String) (log' : Log E), runLoop (defaultIndirectBody laplace threshold 1 maxEvents (fun _ => false)) fuel (log, c) = some (.ok log') ∧
        log' = ns.foldl removeEvent log ∧ ns.Nodup ∧ (∀ n ∈ ns, occurrences log n ≠ 0) ∧
        (1 ≤ maxEvents → ((c + ns.length : Nat) : Int) ≤ maxEvents) ∧
        (log'.traces = [] ∨ (∃ a, defaultEntropyAverage laplace log' none = .ok a ∧ a ≤ threshold) ∨
          (0 < ns.length ∧ ((c + ns.length : Nat) : Int) ≥ maxEvents)) := by
    intro fuel
    induction fuel with
    | zero => intro log c _ _ h; omega
    | succ fuel ih =>
      intro log c hf hsize hfuel hc
      rw [runLoop_succ]
      by_cases hne : log.traces.length = 0
      · refine ⟨[], log, ?_, rfl, by simp, by simp, fun h => ?_, .inl (List.length_eq_zero_iff.1 hne)⟩
        · unfold defaultIndirectBody; simp only [hne, if_true]
        · have := hc h; simp; omega
      · obtain ⟨a, ha⟩ := average_ok laplace log
        by_cases hle : a ≤ threshold
        · refine ⟨[], log, ?_, rfl, by simp, by simp, fun h => ?_, .inr (.inl ⟨a, ha, hle⟩)⟩
          · unfold defaultIndirectBody
            simp only [hne, if_false, ha, bind, Except.bind, hle, if_true, pure, Except.pure]
          · have := hc h; simp; omega
        · obtain ⟨d, r, hd, hr, hcase⟩ := choice_of_top laplace 1 (fun _ => false) log
          have hex : ∃ n v, (n, v) ∈ d := by
            cases hd0 : d with
            | nil =>
              exfalso
              subst hd0
              unfold defaultEntropyAverage at ha
              rw [hd] at ha
              simp [Except.map, entropyAvg] at ha
              rw [← ha] at hle; exact hle hthr
            | cons x xs => exact ⟨x.1, x.2, by simp⟩
          have hstep : ∃ n, occurrences log n ≠ 0 ∧ r.1 = some n := by
            rcases hcase with ⟨h1, h2⟩ | ⟨n, _, _, h3, h4, _⟩
            · exfalso
              obtain ⟨n, v, hnv⟩ := hex
              have hn : n ∈ d.keys := List.mem_map_of_mem (f := Prod.fst) hnv
              obtain ⟨b, hb⟩ := average_ok laplace (removeEvent log n)
              have h3 := h2 n ((topEntries_one d).mem_iff.2 hn) rfl b hb
              have hocc : occurrences log n ≠ 0 := by
                obtain ⟨d', hd', hk⟩ := entropies_ok laplace log none
                rw [hd] at hd'; cases hd'
                rw [hk, mem_keys_iff] at hn; exact hn.2
              have hdn := distinctNames_removeEvent log n hocc
              have h4 : Real.logb 2 (distinctNames (removeEvent log n) + 1) ≤ Real.logb 2 (distinctNames log + 1) := by
                apply Real.logb_le_logb_of_le (by norm_num) (by positivity)
                have : (distinctNames (removeEvent log n) : ℝ) ≤ distinctNames log := by exact_mod_cast hdn.le
                linarith
              have h6 : 0 ≤ Real.logb 2 ((distinctNames log : ℝ) + 1) := by
                apply Real.logb_nonneg (by norm_num)
                have : (0 : ℝ) ≤ distinctNames log := by positivity
                linarith
              have h5 := average_le laplace (removeEvent log n) (hf.removeEvent n)
                (2 * Real.logb 2 (distinctNames log + 1)) (by linarith) (by linarith) b hb
              linarith
            · exact ⟨n, h3, h4⟩
          obtain ⟨n, hocc, hrn⟩ := hstep
          have hbody : defaultIndirectBody laplace threshold 1 maxEvents (fun _ => false) (log, c) =
              .ok (if ((c + 1 : Nat) : Int) ≥ maxEvents then .ret (removeEvent log n) else .next (removeEvent log n, c + 1)) := by
            unfold defaultIndirectBody
            simp only [hne, if_false, ha, bind, Except.bind, hle, hr, hrn, removeEventOpt_some, pure, Except.pure]
            split <;> rfl
          rw [hbody]
          have hdn := distinctNames_removeEvent log n hocc
          by_cases hmax : ((c + 1 : Nat) : Int) ≥ maxEvents
          · rw [if_pos hmax]
            refine ⟨[n], _, rfl, rfl, by simp, by simpa using hocc, fun h => ?_, .inr (.inr ⟨by simp, by simpa using hmax⟩)⟩
            have := hc h; simp only [List.length_singleton]; omega
          · rw [if_neg hmax]
            have h4 : Real.logb 2 (distinctNames (removeEvent log n) + 1) ≤ Real.logb 2 (distinctNames log + 1) := by
              apply Real.logb_le_logb_of_le (by norm_num) (by positivity)
              have : (distinctNames (removeEvent log n) : ℝ) ≤ distinctNames log := by exact_mod_cast hdn.le
              linarith
            obtain ⟨ns, log', g1, g2, g3, g4, g5, g6⟩ := ih (removeEvent log n) (c + 1) (hf.removeEvent n) (by linarith)
              (by omega) (fun h => by omega)
            refine ⟨n :: ns, log', g1, g2, ?_, ?_, ?_, ?_⟩
            · rw [List.nodup_cons]
              refine ⟨fun hm => ?_, g3⟩
              have := g4 n hm
              rw [occurrences_removeEvent] at this; simp at this
            · intro m hm
              rcases List.mem_cons.1 hm with rfl | hm
              · exact hocc
              · have := g4 m hm
                rw [occurrences_removeEvent] at this
                intro h0; apply this; split <;> simp_all
            · intro h; have := g5 h; simp only [List.length_cons]; omega
            · rcases g6 with h | h | ⟨h, h'⟩
              · exact .inl h
              · exact .inr (.inl h)
              · refine .inr (.inr ⟨by simp, ?_⟩)
                simp only [List.length_cons]; omega
  obtain ⟨ns, log', h1, h2, h3, h4, h5, h6⟩ := key fuel log 0 hf hsize hfuel (fun h => by omega)
  exact ⟨ns, log', h1, h2, h3, h4, by simpa using h5, by simpa using h6⟩

example : NoFakeNames exIndirectLog ∧ Real.logb 2 (distinctNames exIndirectLog + 1) < 5000000000 := by
  refine ⟨⟨by decide, by decide⟩, ?_⟩
  have : distinctNames exIndirectLog = 3 := by decide
  rw [this, show ((3 : Nat) : ℝ) + 1 = 2 ^ (2 : ℝ) by norm_num, Real.logb_rpow (by norm_num) (by norm_num)]
  norm_num

end Ficus
