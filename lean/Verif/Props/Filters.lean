import Verif.Proofs.Filters
import Verif.Props.Position

/-! Properties C20, C21, C22: the direct metric filter. -/

namespace Ficus
open Spec
variable {E : Type} [HasName E] {M : Type}

/-! ### C20 -/

/-- The direct filter terminates within `distinct names + 1` iterations for every metric whose keys are names of the log; it
performs a legal removal sequence without repetitions of names that occur in the log, and ends in one of the four described
ways. -/
theorem C20_direct_filter (gt : M → M → Bool) (metric : Metric E M) (threshold : M) (maxEvents : Int)
    (hg : GoodMetric gt threshold metric) (log : Log E) (fuel : Nat) (hfuel : distinctNames log < fuel) :
    ∃ ns log' r, filterDirect gt metric threshold maxEvents fuel log = some r ∧
      Removals gt metric threshold log ns log' ∧ ns.Nodup ∧ (∀ n ∈ ns, occurrences log n ≠ 0) ∧
      DirectEnd gt metric threshold maxEvents ns.length log' r := by
  obtain ⟨ns, log', r, h1, h2, _, h4⟩ := filterDirect_run gt metric threshold maxEvents hg fuel log 0 hfuel (by omega)
  exact ⟨ns, log', r, h1, h2, h2.nodup hg, h2.occurs hg, by simpa using h4⟩

/-- The log reached by a removal sequence is the input with exactly these names removed. -/
theorem C20_result_is_removal {gt : M → M → Bool} {metric : Metric E M} {threshold : M} {log log' : Log E}
    {ns : List String} (h : Removals gt metric threshold log ns log') :
    (ns = [] → log' = log) ∧ (ns ≠ [] → log' = removeEvents log ns) ∧
    (∀ m, occurrences log' m = if m ∈ ns then 0 else occurrences log m) := by
  refine ⟨?_, ?_, ?_⟩
  · rintro rfl; cases h; rfl
  · intro hne
    obtain ⟨n, ns', rfl⟩ := List.exists_cons_of_ne_nil hne
    rw [h.result, C07_remove_events_eq_fold]
  · intro m
    rw [h.result]
    clear h
    induction ns generalizing log with
    | nil => simp
    | cons n ns ih =>
      rw [List.foldl_cons, ih, occurrences_removeEvent]
      by_cases h1 : m = n <;> by_cases h2 : m ∈ ns <;> simp [h1, h2]

/-- Names declared untouchable are never removed. -/
theorem C20_untouchable_kept {gt : M → M → Bool} {metric : Metric E M} {untouchable : String → Bool} {threshold : M}
    {log log' : Log E} {ns : List String} (h : Removals gt (touchableMetric metric untouchable) threshold log ns log') :
    (∀ n ∈ ns, untouchable n = false) ∧ ∀ n, untouchable n = true → occurrences log' n = occurrences log n := by
  have key : ∀ n ∈ ns, untouchable n = false := by
    induction h with
    | nil log => simp
    | @cons log log' n ns d v h1 h2 h3 h4 h5 ih =>
      intro m hm
      rcases List.mem_cons.1 hm with rfl | hm
      · unfold touchableMetric at h2
        cases hd : metric log with
        | error e => rw [hd] at h2; cases h2
        | ok d' =>
          rw [hd] at h2; cases h2
          have := h3.mem
          rw [removeUntouchable_eq] at this
          simpa using (List.mem_filter.1 this).2
      · exact ih m hm
  refine ⟨key, fun n hn => ?_⟩
  rw [(C20_result_is_removal h).2.2, if_neg]
  intro hm; rw [key n hm] at hn; cases hn

/-! The entropy metrics satisfy the hypothesis of `C20_direct_filter`. -/

theorem entropies_ok (laplace : Bool) (log : Log E) (ignored : Option (List String)) :
    ∃ d, calculateEntropies laplace log ignored = .ok d ∧ d.keys = (createLogInformation log ignored).eventsCount.keys := by
  have hwf : (createLogInformation log ignored).eventsCount.keys.Nodup := (C09_wellformed log ignored true).2
  have hr : ∀ a ∈ (createLogInformation log ignored).eventsCount.keys, ∃ c, 0 < c ∧
      ∀ p, ratioOf laplace (createLogInformation log ignored) a p =
        .ok (ratioValue laplace (createLogInformation log ignored).eventsCount.length c p) := by
    intro a ha
    rw [mem_keys_iff] at ha
    exact ⟨_, Nat.pos_of_ne_zero ha.2, fun p => ratioOf_ok laplace _ a p _ (eventsCount_get? log ignored a ha.1 ha.2)
      (Nat.pos_of_ne_zero ha.2)⟩
  have hv : ∀ a ∈ (createLogInformation log ignored).eventsCount.keys, ∃ e : ℝ, (do
      let f ← dfrVector laplace (createLogInformation log ignored) a
      let p ← dprVector laplace (createLogInformation log ignored) a
      return vectorEntropy f + vectorEntropy p : Except PyErr ℝ) = .ok e := by
    intro a ha
    obtain ⟨c, _, hc⟩ := hr a ha
    unfold dfrVector dprVector
    rw [mapM_ok_map _ _ _ (fun x _ => hc _), mapM_ok_map _ _ _ (fun x _ => hc _)]
    exact ⟨_, rfl⟩
  choose! g hgv using hv
  have := assign_loop _ hwf _ g hgv [] (by simp [Dict.keys])
  refine ⟨(createLogInformation log ignored).eventsCount.keys.map (fun k => (k, g k)), ?_, ?_⟩
  · unfold calculateEntropies
    simp only
    rw [List.nil_append] at this
    rw [← this]
    congr 1
    funext d a
    unfold entropyLoop
    cases dfrVector laplace (createLogInformation log ignored) a with
    | error e => rfl
    | ok f =>
      cases dprVector laplace (createLogInformation log ignored) a with
      | error e => rfl
      | ok p => rfl
  · unfold Dict.keys
    rw [List.map_map]
    exact List.map_id _

theorem comparable_real (thr : ℝ) (d : Dict String ℝ) : Comparable gtReal thr d where
  asymm x _ y _ h := by
    simp only [gtReal, decide_eq_true_eq, decide_eq_false_iff_not] at *; linarith
  neg x _ z _ b _ h := by
    simp only [gtReal, decide_eq_true_eq] at *
    by_cases h2 : x.2 > z.2
    · exact .inl h2
    · right; linarith

theorem goodMetric_default (laplace : Bool) (thr : ℝ) :
    GoodMetric gtReal thr (fun l : Log E => calculateEntropies laplace l) := by
  intro log
  obtain ⟨d, hd, hk⟩ := entropies_ok laplace log none
  refine ⟨d, hd, ?_, ?_, comparable_real thr d⟩
  · unfold Dict.WF; rw [hk]; exact (C09_wellformed log none true).2
  · intro k hk'
    rw [hk, mem_keys_iff] at hk'
    exact hk'.2

theorem comparable_nan (thr : ℝ) (d : Dict String (Option ℝ)) (h : (∀ x ∈ d, x.2 = none) ∨ ∀ x ∈ d, ∃ v, x.2 = some v) :
    Comparable gtNan (some thr) d := by
  rcases h with h | h
  · constructor
    · intro x hx y _ hg; rw [h x hx] at hg; simp [gtNan] at hg
    · intro x hx z _ b _ hg; rw [h x hx] at hg; simp [gtNan] at hg
  · constructor
    · intro x hx y hy hg
      obtain ⟨v, hv⟩ := h x hx
      obtain ⟨w, hw⟩ := h y hy
      rw [hv, hw] at hg ⊢
      simp only [gtNan, decide_eq_true_eq, decide_eq_false_iff_not] at *; linarith
    · intro x hx z hz b hb hg
      obtain ⟨v, hv⟩ := h x hx
      obtain ⟨u, hu⟩ := h z hz
      obtain ⟨w, rfl⟩ : ∃ w, b = some w := by
        rcases hb with rfl | ⟨y, hy, rfl⟩
        · exact ⟨thr, rfl⟩
        · exact h y hy
      rw [hv] at hg ⊢
      rw [hu]
      simp only [gtNan, decide_eq_true_eq] at *
      by_cases h2 : v > u
      · exact .inl h2
      · right; linarith

/-- The dictionary of position entropies: computed for every log, with the occurring names as keys; all values are `nan`
or all are numbers. -/
theorem posEntropies_ok (log : Log E) : ∃ d, calculatePositionEntropiesFast log = .ok d ∧
    d.keys = (createLogInformation log).eventsCount.keys ∧
    ((nonEmptyCount (keptOf log none) ≤ 1 ∧ ∀ x ∈ d, x.2 = none) ∨
      (2 ≤ nonEmptyCount (keptOf log none) ∧ ∀ x ∈ d, ∃ v, x.2 = some v)) := by
  have h1 := C17_slow_entropies log none trivial
  refine ⟨_, (C17_entropies_equal log none trivial none (.inl rfl)).trans h1, ?_, ?_⟩
  · unfold Dict.keys; rw [List.map_map]; exact List.map_id _
  · by_cases h2 : nonEmptyCount (keptOf log none) ≤ 1
    · exact .inl ⟨h2, fun x hx => C19_single_trace_nan log none trivial h2 x.1 x.2 _ h1 hx⟩
    · right
      refine ⟨by omega, fun x hx => ?_⟩
      obtain ⟨d, hd, _, _, hr⟩ := C19_all_entropies_range log none trivial (by omega)
      rw [h1] at hd; cases hd
      obtain ⟨e, he, _⟩ := hr x.1 x.2 hx
      exact ⟨e, he⟩

theorem goodMetric_pos (thr : ℝ) :
    GoodMetric gtNan (some thr) (fun l : Log E => calculatePositionEntropiesFast l) := by
  intro log
  obtain ⟨d, hd, hk, hv⟩ := posEntropies_ok log
  refine ⟨d, hd, ?_, ?_, comparable_nan thr d (hv.imp (·.2) (·.2))⟩
  · unfold Dict.WF; rw [hk]; exact (C09_wellformed log none true).2
  · intro k hk'
    rw [hk, mem_keys_iff] at hk'
    exact hk'.2

/-- `filter_events_default_entropy_direct` on every log, for every threshold, budget and set of untouchable names. -/
theorem C20_default_entropy_direct (laplace : Bool) (threshold : ℝ) (maxEvents : Int) (untouchable : String → Bool)
    (log : Log E) (fuel : Nat) (hfuel : distinctNames log < fuel) :
    ∃ ns log' r, filterDefaultEntropyDirect laplace threshold maxEvents untouchable fuel log = some r ∧
      Removals gtReal (touchableMetric (fun l => calculateEntropies laplace l) untouchable) threshold log ns log' ∧
      ns.Nodup ∧ (∀ n ∈ ns, occurrences log n ≠ 0 ∧ untouchable n = false) ∧
      DirectEnd gtReal (touchableMetric (fun l => calculateEntropies laplace l) untouchable) threshold maxEvents ns.length
        log' r := by
  obtain ⟨ns, log', r, h1, h2, h3, h4, h5⟩ := C20_direct_filter gtReal _ threshold maxEvents
    ((goodMetric_default laplace threshold).touchable untouchable) log fuel hfuel
  exact ⟨ns, log', r, h1, h2, h3, fun n hn => ⟨h4 n hn, (C20_untouchable_kept h2).1 n hn⟩, h5⟩

/-- `filter_events_pos_entropy_direct` on every log, for every threshold, budget and set of untouchable names. -/
theorem C20_pos_entropy_direct (threshold : ℝ) (maxEvents : Int) (untouchable : String → Bool)
    (log : Log E) (fuel : Nat) (hfuel : distinctNames log < fuel) :
    ∃ ns log' r, filterPosEntropyDirect threshold untouchable maxEvents fuel log = some r ∧
      Removals gtNan (touchableMetric (fun l => calculatePositionEntropiesFast l) untouchable) (some threshold) log ns log' ∧
      ns.Nodup ∧ (∀ n ∈ ns, occurrences log n ≠ 0 ∧ untouchable n = false) ∧
      DirectEnd gtNan (touchableMetric (fun l => calculatePositionEntropiesFast l) untouchable) (some threshold) maxEvents
        ns.length log' r := by
  obtain ⟨ns, log', r, h1, h2, h3, h4, h5⟩ := C20_direct_filter gtNan _ (some threshold) maxEvents
    ((goodMetric_pos threshold).touchable untouchable) log fuel hfuel
  exact ⟨ns, log', r, h1, h2, h3, fun n hn => ⟨h4 n hn, (C20_untouchable_kept h2).1 n hn⟩, h5⟩

/-- A computable metric for the examples: the number of occurrences. -/
def countMetric : Metric String Nat := fun log => .ok (createLogInformation log).eventsCount

/-- `>` on natural numbers. -/
def gtNat (a b : Nat) : Bool := decide (a > b)

theorem goodMetric_count (thr : Nat) : GoodMetric gtNat thr countMetric := by
  intro log
  refine ⟨_, rfl, (C09_wellformed log none true).2, fun k hk => ((mem_keys_iff log none k).1 hk).2, ?_, ?_⟩
  · intro x _ y _ h; simp only [gtNat, decide_eq_true_eq, decide_eq_false_iff_not] at *; omega
  · intro x _ z _ b _ h; simp only [gtNat, decide_eq_true_eq] at *; omega

/-- A log for the examples. -/
def exFilterLog : Log String := Log.ofEvs [["a", "b", "a", "c"], ["b", "a"], ["c", "d"], ["b"]]

example : distinctNames exFilterLog < 5 ∧ filterDirect gtNat countMetric 1 10 5 exFilterLog =
    some (.ok (Log.ofEvs [["d"]])) := by decide
example : filterDirect gtNat countMetric 2 10 5 exFilterLog = some (.ok (Log.ofEvs [["c"], ["c", "d"]])) := by decide
example : filterDirect gtNat countMetric 0 1 5 exFilterLog = some (.ok (Log.ofEvs [["b", "c"], ["b"], ["c", "d"], ["b"]])) := by
  decide

/-! ### C21 -/

/-- For a budget of at least one the number of removed names is at most the budget. -/
theorem C21_budget_partial (gt : M → M → Bool) (metric : Metric E M) (threshold : M) (maxEvents : Int)
    (hmax : 1 ≤ maxEvents) (hg : GoodMetric gt threshold metric) (log : Log E) (fuel : Nat)
    (hfuel : distinctNames log < fuel) :
    ∃ ns log' r, filterDirect gt metric threshold maxEvents fuel log = some r ∧
      Removals gt metric threshold log ns log' ∧ (ns.length : Int) ≤ maxEvents ∧ ∀ l, r = .ok l → l = log' := by
  obtain ⟨ns, log', r, h1, h2, h3, h4⟩ := filterDirect_run gt metric threshold maxEvents hg fuel log 0 hfuel (by omega)
  refine ⟨ns, log', r, h1, h2, by simpa using h3 hmax, ?_⟩
  intro l hl; subst hl; cases h4 <;> rfl

/-- A budget of zero (or less) is no budget at all: the run is the same as with any budget that exceeds the number of
names of the log. -/
theorem C21_zero_budget_unlimited (gt : M → M → Bool) (metric : Metric E M) (threshold : M) (maxEvents big : Int)
    (hmax : maxEvents ≤ 0) (hg : GoodMetric gt threshold metric) (log : Log E) (hbig : (distinctNames log : Int) < big)
    (fuel : Nat) (hfuel : distinctNames log < fuel) :
    filterDirect gt metric threshold maxEvents fuel log = filterDirect gt metric threshold big fuel log := by
  have key : ∀ (fuel : Nat) (log : Log E) (c : Nat), distinctNames log < fuel → ((distinctNames log + c : Nat) : Int) < big →
      runLoop (directBody gt metric threshold maxEvents) fuel (log, c) =
      runLoop (directBody gt metric threshold big) fuel (log, c) := by
    intro fuel
    induction fuel with
    | zero => intro log c h; omega
    | succ fuel ih =>
      intro log c h1 h2
      rw [runLoop_succ, runLoop_succ]
      by_cases hne : log.traces = []
      · simp [directBody, hne]
      · obtain ⟨d, hd, hwf, hk, hc⟩ := hg log
        by_cases hdn : d = []
        · subst hdn
          have hl : ¬ log.traces.length = 0 := by simpa using hne
          simp only [directBody, hl, if_false, nextDirect, hd, bind, Except.bind, maxEntry]
        · obtain ⟨n, v, hm, hb⟩ := directBody_step gt metric threshold maxEvents log c hne hd hc hdn
          obtain ⟨n', v', hm', hb'⟩ := directBody_step gt metric threshold big log c hne hd hc hdn
          obtain ⟨rfl, rfl⟩ := hm.unique hm'
          have hlt := distinctNames_removeEvent log n (hk n hm.key)
          rw [hb, hb']
          by_cases hgt : gt v threshold = true
          · rw [if_pos hgt, if_pos hgt, if_neg (by omega), if_neg (by omega)]
            exact ih _ _ (by omega) (by omega)
          · rw [if_neg hgt, if_neg hgt]
  exact key fuel log 0 hfuel (by simpa using hbig)

/-- The full property fails: with budget 0 the filter removes names (here all of them). -/
theorem C21_zero_budget_removes : ∃ (log : Log String) (ns : List String) (log' : Log String),
    GoodMetric gtNat 0 countMetric ∧ filterDirect gtNat countMetric 0 0 5 log = some (.ok log') ∧
    Removals gtNat countMetric 0 log ns log' ∧ ¬ ((ns.length : Int) ≤ 0) := by
  obtain ⟨ns, log', r, h1, h2, _, _, h5⟩ := C20_direct_filter gtNat countMetric 0 0 (goodMetric_count 0) exFilterLog 5
    (by decide)
  have he : filterDirect gtNat countMetric 0 0 5 exFilterLog = some (.ok (Log.ofEvs [])) := by decide
  rw [he] at h1
  cases h1
  refine ⟨exFilterLog, ns, _, goodMetric_count 0, he, ?_, ?_⟩
  · cases h5 <;> exact h2
  · intro hle
    have : ns = [] := List.length_eq_zero_iff.1 (by omega)
    subst this
    have h6 := (C20_result_is_removal h2).1 rfl
    cases h5 <;> (revert h6; decide)

example : (1 : Int) ≤ 2 ∧ filterDirect gtNat countMetric 0 2 5 exFilterLog = some (.ok (Log.ofEvs [["c"], ["c", "d"]])) := by
  decide

/-! ### C22 -/

/-- The exact condition for the failure: the filter raises if and only if some legal removal sequence within the budget leads
to a non-empty log for which the metric has no entry; the exception is `ValueError`. -/
theorem C22_failure_condition (gt : M → M → Bool) (metric : Metric E M) (threshold : M) (maxEvents : Int)
    (hg : GoodMetric gt threshold metric) (log : Log E) (fuel : Nat) (hfuel : distinctNames log < fuel) :
    (∃ e, filterDirect gt metric threshold maxEvents fuel log = some (.error e)) ↔
      ∃ ns log', Removals gt metric threshold log ns log' ∧ (maxEvents ≤ 0 ∨ (ns.length : Int) < maxEvents) ∧
        log'.traces ≠ [] ∧ metric log' = .ok [] := by
  constructor
  · rintro ⟨e, he⟩
    obtain ⟨ns, log', r, h1, h2, h3, h4⟩ := filterDirect_run gt metric threshold maxEvents hg fuel log 0 hfuel (by omega)
    unfold filterDirect at he
    rw [h1] at he
    cases he
    cases h4 with
    | noCandidate h5 h6 =>
      by_cases hm : maxEvents ≤ 0
      · exact ⟨ns, log', h2, .inl hm, h5, h6⟩
      · refine ⟨ns, log', h2, .inr ?_, h5, h6⟩
        have h7 := h3 (by omega)
        -- the budget cannot be used up exactly, or the loop would have returned
        by_contra hcon
        have heq : (ns.length : Int) = maxEvents := by omega
        have hpos : ns ≠ [] := by rintro rfl; simp at heq; omega
        obtain ⟨m, n, rfl⟩ : ∃ m n, ns = m ++ [n] := ⟨_, _, (List.dropLast_append_getLast hpos).symm⟩
        have hsplit : ∀ {l l' : Log E} {as bs : List String}, Removals gt metric threshold l (as ++ bs) l' →
            ∃ k, Removals gt metric threshold l as k ∧ Removals gt metric threshold k bs l' := by
          intro l l' as
          induction as generalizing l with
          | nil => intro bs h; exact ⟨l, .nil l, h⟩
          | cons a as ih =>
            intro bs h
            cases h with
            | cons a1 a2 a3 a4 a5 =>
              obtain ⟨k, hk1, hk2⟩ := ih a5
              exact ⟨k, .cons a1 a2 a3 a4 hk1, hk2⟩
        obtain ⟨k, hk1, hk2⟩ := hsplit h2
        cases hk2 with
        | cons a1 a2 a3 a4 a5 =>
          obtain ⟨d', hd', _, _, hc⟩ := hg k
          rw [a2] at hd'; cases hd'
          have hdn : ∀ (d : Dict String M) (v : M), IsFirstMax gt d n v → d ≠ [] := by
            rintro d v h rfl; simpa using h.mem
          have hrun := filterDirect_follows gt metric threshold maxEvents hg hk1 1 0 (by
            right; simp only [List.length_append, List.length_singleton] at heq; push_cast at heq ⊢; omega)
          obtain ⟨n', v', hm', hbody⟩ := directBody_step gt metric threshold maxEvents k (0 + m.length) a1 a2 hc (hdn _ _ a3)
          obtain ⟨rfl, rfl⟩ := hm'.unique a3
          rw [runLoop_succ 
            (directBody gt metric threshold maxEvents) 0, hbody, if_pos a4, if_pos (by
              simp only [List.length_append, List.length_singleton] at heq; push_cast at heq ⊢; omega)] at hrun
          simp only at hrun
          have e1 := runLoop_mono _ _ fuel _ _ hrun
          have e2 := runLoop_mono _ _ (1 + m.length) _ _ h1
          rw [Nat.add_comm] at e2
          rw [e1] at e2; cases e2
  · rintro ⟨ns, log', h1, h2, h3, h4⟩
    have hrun := filterDirect_follows gt metric threshold maxEvents hg h1 1 0 (by simpa using h2)
    have hl : ¬ log'.traces.length = 0 := by simpa using h3
    have hb : directBody gt metric threshold maxEvents (log', 0 + ns.length) = .error .valueError := by
      simp only [directBody, hl, if_false, nextDirect, h4, bind, Except.bind, maxEntry]
    rw [runLoop_succ (directBody gt metric threshold maxEvents) 0, hb] at hrun
    simp only at hrun
    obtain ⟨_, _, r, g1, _⟩ := C20_direct_filter gt metric threshold maxEvents hg log fuel hfuel
    have e1 := runLoop_mono _ _ fuel _ _ hrun
    have e2 := runLoop_mono _ _ (1 + ns.length) _ _ g1
    rw [Nat.add_comm] at e2
    rw [e1] at e2; cases e2
    exact ⟨_, g1⟩

theorem C22_failure_is_value_error (gt : M → M → Bool) (metric : Metric E M) (threshold : M) (maxEvents : Int)
    (hg : GoodMetric gt threshold metric) (log : Log E) (fuel : Nat) (hfuel : distinctNames log < fuel) (e : PyErr)
    (h : filterDirect gt metric threshold maxEvents fuel log = some (.error e)) : e = .valueError := by
  obtain ⟨ns, log', r, h1, h2, _, _, h4⟩ := C20_direct_filter gt metric threshold maxEvents hg log fuel hfuel
  rw [h1] at h; cases h; cases h4; rfl

/-- The metrics that have an entry for every name of the log. -/
def FullMetric (metric : Metric E M) : Prop :=
  ∀ log d, metric log = .ok d → ∀ n, n ∈ d.keys ↔ occurrences log n ≠ 0

theorem fullMetric_default (laplace : Bool) : FullMetric (fun l : Log E => calculateEntropies laplace l) := by
  intro log d hd n
  obtain ⟨d', hd', hk⟩ := entropies_ok laplace log none
  simp only at hd
  rw [hd] at hd'; cases hd'
  rw [hk, mem_keys_iff]; simp

theorem fullMetric_pos : FullMetric (fun l : Log E => calculatePositionEntropiesFast l) := by
  intro log d hd n
  obtain ⟨d', hd', hk, _⟩ := posEntropies_ok log
  simp only at hd
  rw [hd] at hd'; cases hd'
  rw [hk, mem_keys_iff]; simp

theorem exists_occurs (log : Log E) (h : [] ∉ log.evs) (hne : log.traces ≠ []) : ∃ n, occurrences log n ≠ 0 := by
  obtain ⟨t, ts, ht⟩ := List.exists_cons_of_ne_nil hne
  have hev : t.events ≠ [] := by
    intro he; apply h; unfold Log.evs; rw [ht]; simp [he]
  obtain ⟨e, es, he⟩ := List.exists_cons_of_ne_nil hev
  refine ⟨name e, ?_⟩
  unfold occurrences Log.evs
  rw [ht]; simp [he]

/-- A log without empty traces and without untouchable events is always filtered successfully. -/
theorem C22_success_without_untouchable (gt : M → M → Bool) (metric : Metric E M) (threshold : M) (maxEvents : Int)
    (hg : GoodMetric gt threshold metric) (hf : FullMetric metric) (log : Log E) (hempty : [] ∉ log.evs) (fuel : Nat)
    (hfuel : distinctNames log < fuel) : ∃ l, filterDirect gt metric threshold maxEvents fuel log = some (.ok l) := by
  obtain ⟨_, _, r, h1, _⟩ := C20_direct_filter gt metric threshold maxEvents hg log fuel hfuel
  cases r with
  | ok l => exact ⟨l, h1⟩
  | error e =>
    exfalso
    obtain ⟨ns, log', h2, _, h3, h4⟩ := (C22_failure_condition gt metric threshold maxEvents hg log fuel hfuel).1 ⟨e, h1⟩
    have h5 : [] ∉ log'.evs := by
      by_cases hns : ns = []
      · rw [(C20_result_is_removal h2).1 hns]; exact hempty
      · rw [(C20_result_is_removal h2).2.1 hns]
        unfold removeEvents
        rw [filterEvents_evs]; simp
    obtain ⟨n, hn⟩ := exists_occurs log' h5 h3
    have := (hf log' [] h4 n).2 hn
    simp [Dict.keys] at this

/-- The full property fails: a non-empty log whose events are all untouchable makes both entropy filters raise. -/
theorem C22_all_untouchable_raises (laplace : Bool) (threshold : ℝ) (maxEvents : Int) (untouchable : String → Bool)
    (log : Log E) (hne : log.traces ≠ []) (hall : ∀ n, occurrences log n ≠ 0 → untouchable n = true) (fuel : Nat) :
    filterDefaultEntropyDirect laplace threshold maxEvents untouchable (fuel + 1) log = some (.error .valueError) ∧
    filterPosEntropyDirect threshold untouchable maxEvents (fuel + 1) log = some (.error .valueError) := by
  have hl : ¬ log.traces.length = 0 := by simpa using hne
  constructor
  · obtain ⟨d, hd, hk⟩ := entropies_ok laplace log none
    have h0 : removeUntouchable untouchable d = [] := by
      rw [removeUntouchable_eq, List.filter_eq_nil_iff]
      intro x hx
      have : x.1 ∈ d.keys := List.mem_map_of_mem hx
      rw [hk, mem_keys_iff] at this
      simp [hall x.1 this.2]
    simp only [filterDefaultEntropyDirect, filterDirect, runLoop_succ, directBody, hl, if_false, nextDirect,
      touchableMetric, hd, Except.map, h0, bind, Except.bind, maxEntry]
  · obtain ⟨d, hd, hk, _⟩ := posEntropies_ok log
    have h0 : removeUntouchable untouchable d = [] := by
      rw [removeUntouchable_eq, List.filter_eq_nil_iff]
      intro x hx
      have : x.1 ∈ d.keys := List.mem_map_of_mem hx
      rw [hk, mem_keys_iff] at this
      simp [hall x.1 this.2]
    simp only [filterPosEntropyDirect, filterDirect, runLoop_succ, directBody, hl, if_false, nextDirect,
      touchableMetric, hd, Except.map, h0, bind, Except.bind, maxEntry]

example : exFilterLog.traces ≠ [] ∧ ∀ n, occurrences exFilterLog n ≠ 0 → (fun _ : String => true) n = true :=
  ⟨by decide, fun _ _ => rfl⟩
example : filterDirect gtNat (touchableMetric countMetric (fun n => decide (n = "a"))) 0 10 9 exFilterLog =
    some (.error .valueError) := by decide
example : [] ∉ exFilterLog.evs := by decide

end Ficus
