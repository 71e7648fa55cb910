import Verif.Props.TillEnd
import Verif.Model.Curves
import Verif.Spec.Curves

/-! Property C106: the curves that are drawn for the removal of all events. -/

namespace Ficus
open Spec
variable {E : Type} [HasName E] {I : Type}

/-! ### Facts about the specification -/

theorem nonEmptyCount_tracesLeft (log : Log E) : nonEmptyCount (keptOf log none) = tracesLeft log := by
  rw [keptOf_none]
  unfold nonEmptyCount tracesLeft
  rw [List.filter_map, List.length_map]
  congr 1
  apply List.filter_congr
  intro t _
  simp

theorem posTotal_empty (log : Log E) (h : ∀ n, occurrences log n = 0) : posTotal log = some 0 := by
  have hk : (createLogInformation log).eventsCount.keys = [] := by
    rw [List.eq_nil_iff_forall_not_mem]
    intro k hk
    exact ((mem_keys_iff log none k).1 hk).2 (h k)
  unfold posTotal
  rw [hk]; rfl

theorem isCurve_nil (kind : TillEndKind) (log : Log E) : IsCurve kind log [] [] :=
  ⟨rfl, fun i h => absurd h (by simp)⟩

theorem isCurve_cons {kind : TillEndKind} {log : Log E} {n : String} {ns : List String} {points : List (Option ℝ)} {x : Option ℝ}
    (hx : x = curvePoint kind log (removeEvent log n)) (h : IsCurve kind (removeEvent log n) ns points) :
    IsCurve kind log (n :: ns) (x :: points) := by
  refine ⟨by simp [h.1], fun i hi => ?_⟩
  cases i with
  | zero => simp [afterRemovals, hx]
  | succ i =>
    have := h.2 i (by simpa using hi)
    simpa [afterRemovals] using this

theorem lists_nil {log : Log E} (h : log.traces = []) : Lists log [] :=
  ⟨by simp, fun n => by simp [occurrences, Log.evs, h]⟩

theorem lists_cons {log : Log E} {n : String} {ns : List String} (hn : occurrences log n ≠ 0) (h : Lists (removeEvent log n) ns) :
    Lists log (n :: ns) := by
  refine ⟨List.nodup_cons.2 ⟨fun hm => ?_, h.1⟩, fun m => ?_⟩
  · have := (h.2 n).1 hm
    rw [occurrences_removeEvent] at this; simp at this
  · rw [List.mem_cons, h.2, occurrences_removeEvent]
    by_cases hmn : m = n
    · subst hmn; simp [hn]
    · simp [hmn]

theorem occurrences_afterRemovals (ns : List String) (log : Log E) (m : String) :
    occurrences (afterRemovals log ns) m = if m ∈ ns then 0 else occurrences log m := by
  induction ns generalizing log with
  | nil => simp [afterRemovals]
  | cons n ns ih =>
    show occurrences (afterRemovals (removeEvent log n) ns) m = _
    rw [ih, occurrences_removeEvent]
    by_cases h1 : m ∈ ns <;> by_cases h2 : m = n <;> simp [h1, h2]

/-- The classes that are left after the first `i` removals are the other ones. -/
theorem Spec.Lists.drop {log : Log E} {ns : List String} (h : Lists log ns) (i : Nat) :
    Lists (afterRemovals log (ns.take i)) (ns.drop i) := by
  refine ⟨h.1.sublist (List.drop_sublist i ns), fun m => ?_⟩
  rw [occurrences_afterRemovals]
  have hd : m ∈ ns.take i → m ∉ ns.drop i := by
    have := h.1
    rw [← List.take_append_drop i ns, List.nodup_append] at this
    exact fun h1 h2 => this.2.2 m h1 m h2 rfl
  have hm : m ∈ ns ↔ m ∈ ns.take i ∨ m ∈ ns.drop i := by
    rw [← List.mem_append, List.take_append_drop]
  by_cases ht : m ∈ ns.take i
  · simp [ht, hd ht]
  · rw [if_neg ht, ← h.2 m, hm]
    simp [ht]

theorem Spec.Lists.length {log : Log E} {ns : List String} (h : Lists log ns) : distinctNames log = ns.length := by
  unfold distinctNames
  apply List.Perm.length_eq
  rw [List.perm_ext_iff_of_nodup (List.nodup_dedup _) h.1]
  intro m
  rw [List.mem_dedup, h.2]
  unfold occurrences
  rw [← List.count_pos_iff]; omega

theorem tracesLeft_removeEvent (log : Log E) (n : String) : tracesLeft (removeEvent log n) ≤ tracesLeft log := by
  rw [← nonEmptyCount_tracesLeft, ← nonEmptyCount_tracesLeft, ← removeEvents_single]
  exact nonEmptyCount_removeEvents log [n]

theorem tracesLeft_afterRemovals (ns : List String) (log : Log E) : tracesLeft (afterRemovals log ns) ≤ tracesLeft log := by
  induction ns generalizing log with
  | nil => exact Nat.le_refl _
  | cons n ns ih => exact (ih _).trans (tracesLeft_removeEvent log n)

theorem afterRemovals_append (log : Log E) (ns ms : List String) :
    afterRemovals log (ns ++ ms) = afterRemovals (afterRemovals log ns) ms := List.foldl_append

/-- The total of a log with events: no number if only one trace with events is left, otherwise a number. -/
theorem posTotal_cases (log : Log E) (n : String) (hn : occurrences log n ≠ 0) :
    (tracesLeft log ≤ 1 ∧ posTotal log = none) ∨
      (2 ≤ tracesLeft log ∧ ∃ x, posTotal log = some x ∧ 0 ≤ x ∧ x ≤ distinctNames log) := by
  rw [← nonEmptyCount_tracesLeft]
  rcases Nat.lt_or_ge 1 (nonEmptyCount (keptOf log none)) with h | h
  · exact .inr ⟨h, C51_total_range log h⟩
  · exact .inl ⟨h, posTotal_nan log h n hn⟩

/-! ### C106, direct removal -/

theorem touchable_none (log : Log E) :
    touchableMetric (fun l => calculatePositionEntropiesFast l) LogPart.noneUntouchable log = calculatePositionEntropiesFast log := by
  show (calculatePositionEntropiesFast log).map (removeUntouchable LogPart.noneUntouchable) = _
  cases calculatePositionEntropiesFast log with
  | error e => rfl
  | ok d =>
    refine congrArg Except.ok ?_
    rw [removeUntouchable_eq]
    exact List.filter_eq_self.2 (by simp [LogPart.noneUntouchable])

theorem record_curve {kind : TillEndKind} {log : Log E} {rs : List (String × Option ℝ)}
    (h : TillEndRecord gtNan sumNan subNan
      (touchableMetric (fun l => calculatePositionEntropiesFast l) LogPart.noneUntouchable) kind log rs) :
    IsCurve kind log (rs.map Prod.fst) (rs.map (fun x => x.2)) := by
  induction h with
  | nil h => exact isCurve_nil _ _
  | @cons log n v x d d' rs hne hd hfirst hd' hx1 hx2 _ ih =>
    refine isCurve_cons ?_ ih
    rw [touchable_none] at hd hd'
    obtain ⟨c, hc, _, hs⟩ := posTotal_spec log none (.inl rfl)
    obtain ⟨c', hc', _, hs'⟩ := posTotal_spec (removeEvent log n) none (.inl rfl)
    rw [hd] at hc; cases hc
    rw [hd'] at hc'; cases hc'
    cases kind with
    | beforeOnly => rw [hx1 rfl, hs]; rfl
    | afterBeforeDelta => rw [hx2 rfl, hs, hs']; rfl

/-- C106, direct removal: for a log with events (or without traces) the part ends, after one iteration for each event class. It
plots the curve for an order of all classes, one point for each, and returns its input. -/
theorem C106_direct (readLog : I → Except PyErr (Log E)) (kind : TillEndKind) (fuel : Nat) (input : I) (log : Log E)
    (hlog : readLog input = .ok log) (h : log.traces = [] ∨ ∃ n, occurrences log n ≠ 0) (hfuel : distinctNames log < fuel) :
    ∃ ns p, Lists log ns ∧ drawDirectCurve readLog kind fuel input = some (.ok p) ∧ IsCurve kind log ns p.points ∧
      p.result = input ∧ p.xLabel = "Iteration number" ∧ p.yLabel = "Metric value" := by
  obtain ⟨rs, h1, h2, h3, h4⟩ := (C52_pos_entropy_direct_till_end kind LogPart.noneUntouchable log fuel hfuel).1 h
    (fun n _ => rfl)
  refine ⟨rs.map Prod.fst, plotRemovals input rs, ⟨h3, h4⟩, ?_, record_curve h2, rfl, rfl, rfl⟩
  unfold drawDirectCurve
  rw [hlog]
  simp only [h1, plotOutcome, Option.map_some, Except.map]

/-- C106, direct removal: a log of empty traces cannot be drawn. -/
theorem C106_direct_fails (readLog : I → Except PyErr (Log E)) (kind : TillEndKind) (fuel : Nat) (input : I) (log : Log E)
    (hlog : readLog input = .ok log) (hne : log.traces ≠ []) (h : ∀ n, occurrences log n = 0) (hfuel : 0 < fuel) :
    drawDirectCurve readLog kind fuel input = some (.error .valueError) := by
  have hd : distinctNames log = 0 := (Lists.length (log := log) (ns := []) ⟨by simp, fun n => by simp [h n]⟩)
  have := (C52_pos_entropy_direct_till_end kind LogPart.noneUntouchable log fuel (by omega)).2 (.inr ⟨hne, h⟩)
  unfold drawDirectCurve
  rw [hlog]
  simp only [this, plotOutcome, Option.map_some, Except.map]

/-- C106, the curve of totals: the point before the removal of the class number `i` is no number exactly if at most one trace with
events is left by then; otherwise it is between 0 and the number of classes that are left. -/
theorem C106_totals (log : Log E) (ns : List String) (points : List (Option ℝ)) (hl : Lists log ns)
    (hc : IsCurve .beforeOnly log ns points) (i : Nat) (hi : i < ns.length) :
    (tracesLeft (afterRemovals log (ns.take i)) ≤ 1 ∧ points[i]? = some none) ∨
      (2 ≤ tracesLeft (afterRemovals log (ns.take i)) ∧
        ∃ x : ℝ, points[i]? = some (some x) ∧ 0 ≤ x ∧ x ≤ (ns.length : ℝ) - i) := by
  have hd := hl.drop i
  have hn : ns[i] ∈ ns.drop i :=
    (List.drop_eq_getElem_cons hi).symm ▸ List.mem_cons_self
  have hlen := hd.length
  rw [List.length_drop] at hlen
  rw [hc.2 i hi]
  simp only [curvePoint]
  rcases posTotal_cases _ _ ((hd.2 _).1 hn) with ⟨h1, h2⟩ | ⟨h1, x, h2, h3, h4⟩
  · exact .inl ⟨h1, by rw [h2]⟩
  · refine .inr ⟨h1, x, by rw [h2], h3, ?_⟩
    rw [hlen, Nat.cast_sub hi.le] at h4
    exact h4

/-- C106, gaps: once a curve of totals has a point that is no number, all later points are none. -/
theorem C106_gaps (log : Log E) (ns : List String) (points : List (Option ℝ)) (hl : Lists log ns)
    (hc : IsCurve .beforeOnly log ns points) (i j : Nat) (hij : i ≤ j) (hj : j < ns.length) (hi : points[i]? = some none) :
    points[j]? = some none := by
  rcases C106_totals log ns points hl hc i (by omega) with ⟨h, _⟩ | ⟨_, x, h, _⟩
  · rcases C106_totals log ns points hl hc j hj with ⟨_, h'⟩ | ⟨h', _⟩
    · exact h'
    · exfalso
      have := tracesLeft_afterRemovals ((ns.take j).drop i) (afterRemovals log (ns.take i))
      rw [← afterRemovals_append] at this
      have e : ns.take i ++ (ns.take j).drop i = ns.take j := by
        rw [show ns.take i = (ns.take j).take i by rw [List.take_take, Nat.min_eq_left hij], List.take_append_drop]
      rw [e] at this
      omega
  · rw [hi] at h; cases h

/-- C106, the curve of differences: as long as the points are numbers, they add up to what the removals so far have taken from the
total position entropy of the log. -/
theorem C106_differences (log : Log E) (ns : List String) (points : List (Option ℝ))
    (hc : IsCurve .afterBeforeDelta log ns points) (xs : List ℝ) (i : Nat) (hi : i ≤ ns.length) (h0 : 0 < i)
    (hx : points.take i = xs.map some) :
    ∃ a b, posTotal log = some a ∧ posTotal (afterRemovals log (ns.take i)) = some b ∧ xs.sum = a - b := by
  induction i generalizing xs with
  | zero => omega
  | succ i ih =>
    have hpt := hc.2 i (by omega)
    have hilen : i < points.length := by rw [hc.1]; omega
    rw [List.take_succ_eq_append_getElem hilen] at hx
    obtain ⟨ys, zs, rfl, hy, hz⟩ := List.append_eq_map_iff.1 hx
    obtain ⟨z, rfl, hz'⟩ : ∃ z, zs = [z] ∧ some z = points[i] := by
      cases zs with
      | nil => simp at hz
      | cons z zs =>
        cases zs with
        | nil => exact ⟨z, rfl, by simpa using hz⟩
        | cons w ws => simp at hz
    rw [List.getElem?_eq_getElem hilen, ← hz'] at hpt
    simp only [curvePoint, Option.some.injEq] at hpt
    obtain ⟨a, b, ha, hb, hab⟩ : ∃ a b, posTotal (afterRemovals log (ns.take i)) = some a ∧
        posTotal (afterRemovals log (ns.take (i + 1))) = some b ∧ z = a - b := by
      cases h1 : posTotal (afterRemovals log (ns.take i)) with
      | none => rw [h1] at hpt; simp [subNan] at hpt
      | some a =>
        cases h2 : posTotal (afterRemovals log (ns.take (i + 1))) with
        | none => rw [h1, h2] at hpt; simp [subNan] at hpt
        | some b => rw [h1, h2] at hpt; exact ⟨a, b, rfl, rfl, by simpa [subNan] using hpt⟩
    rcases Nat.eq_zero_or_pos i with rfl | hpos
    · have : ys = [] := by simpa using hy.symm
      subst this
      exact ⟨a, b, by simpa [afterRemovals] using ha, hb, by simp [hab]⟩
    · obtain ⟨a0, b0, h1, h2, h3⟩ := ih ys (by omega) hpos hy.symm
      rw [ha] at h2; cases h2
      refine ⟨a0, b, h1, hb, ?_⟩
      rw [List.sum_append, h3, hab]; simp

/-- C106, the whole curve of differences: if all points are numbers, they add up to the total position entropy of the log. -/
theorem C106_differences_total (log : Log E) (ns : List String) (points : List (Option ℝ)) (hl : Lists log ns)
    (hc : IsCurve .afterBeforeDelta log ns points) (xs : List ℝ) (hx : points = xs.map some) :
    posTotal log = some xs.sum := by
  rcases Nat.eq_zero_or_pos ns.length with h0 | h0
  · have hn : ns = [] := List.length_eq_zero_iff.1 h0
    have : xs = [] := by
      have := hc.1
      rw [hx, h0] at this
      simpa using this
    subst this hn
    rw [posTotal_empty log (fun n => by by_contra h; have := (hl.2 n).2 h; simp at this)]
    simp
  · obtain ⟨a, b, ha, hb, hab⟩ := C106_differences log ns points hc xs ns.length (Nat.le_refl _) h0
      (by rw [← hc.1, List.take_length]; exact hx)
    have hd := hl.drop ns.length
    rw [List.drop_length] at hd
    rw [posTotal_empty _ (fun n => by by_contra h; have := (hd.2 n).2 h; simp at this)] at hb
    cases hb
    rw [ha, hab, sub_zero]

/-! ### C106, indirect removal -/

theorem compact_removeEvent (log : Log E) (k : String) : removeEvent (removeEvents log []) k = removeEvent log k := by
  rw [← removeEvents_single, ← removeEvents_single, compact_removeEvents]

/-- A log with events in which nothing is chosen: no sequence of choices leads to a log without traces. -/
theorem stuck_forever {kind : TillEndKind} {untouchable : String → Bool} {log log' : Log E} {rs : List (Option String × Option ℝ)}
    (h : PosTillEnd kind untouchable log rs log') (hno : ∀ k, occurrences log k ≠ 0 → untouchable k = false → ∀ x,
      posTotal (removeEvent log k) = some x → 10000000000 ≤ x) (n : String) (hn : occurrences log n ≠ 0) : log'.traces ≠ [] := by
  induction h with
  | nil log => exact traces_ne_nil_of_occurs log n hn
  | @cons log log' m total x rs hne hch _ _ _ ih =>
    rcases hch with ⟨rfl, _, _⟩ | ⟨k, y, rfl, rfl, h1, h2, h3, h4, _⟩
    · apply ih
      · intro k hk hu y hy
        rw [withoutChoice, compact_removeEvent] at hy
        rw [withoutChoice, compact_occurrences] at hk
        exact hno k hk hu y hy
      · rw [withoutChoice, compact_occurrences]; exact hn
    · have := hno k h1 h2 y h3
      linarith

/-- A record that ends with a log without traces, for a log with events or without traces, consists of removals of all classes. -/
theorem ended_curve {kind : TillEndKind} {log log' : Log E} {rs : List (Option String × Option ℝ)}
    (h : PosTillEnd kind LogPart.noneUntouchable log rs log') (hend : log'.traces = [])
    (hlog : log.traces = [] ∨ ∃ n, occurrences log n ≠ 0) :
    ∃ ns, Lists log ns ∧ rs.map Prod.fst = ns.map some ∧ IsCurve kind log ns (rs.map (fun x => x.2)) ∧
      ∀ i, 0 < i → i ≤ ns.length → (posTotal (afterRemovals log (ns.take i))).isSome := by
  induction h with
  | nil log => exact ⟨[], lists_nil hend, rfl, isCurve_nil _ _, fun i h1 h2 => absurd h2 (by simp; omega)⟩
  | @cons log log' m total x rs hne hch hx1 hx2 hrest ih =>
    obtain ⟨n0, hn0⟩ := hlog.resolve_left hne
    rcases hch with ⟨rfl, _, hno⟩ | ⟨k, y, rfl, rfl, h1, h2, h3, h4, _⟩
    · exfalso
      refine stuck_forever hrest ?_ n0 ?_ hend
      · intro k hk hu y hy
        rw [withoutChoice, compact_removeEvent] at hy
        rw [withoutChoice, compact_occurrences] at hk
        exact hno k hk hu y hy
      · rw [withoutChoice, compact_occurrences]; exact hn0
    · have hocc : (withoutChoice log (some k)).traces = [] ∨ ∃ n, occurrences (withoutChoice log (some k)) n ≠ 0 := by
        by_cases h : (removeEvent log k).traces = []
        · exact .inl h
        · exact .inr (exists_occurs _ (C06_remove_event_no_empty_trace log k) h)
      obtain ⟨ns, g1, g2, g3, g4⟩ := ih hend hocc
      refine ⟨k :: ns, lists_cons h1 g1, by simp [g2], isCurve_cons ?_ g3, ?_⟩
      · cases kind with
        | beforeOnly => exact hx1 rfl
        | afterBeforeDelta => rw [hx2 rfl, curvePoint, h3]
      · intro i hi hle
        cases i with
        | zero => omega
        | succ i =>
          rcases Nat.eq_zero_or_pos i with rfl | hpos
          · show (posTotal (removeEvent log k)).isSome
            rw [h3]; rfl
          · exact g4 i hpos (by simpa using hle)

/-- C106, indirect removal, in part: if the part ends for a log with events (or without traces), it has plotted the curve for an
order of all classes, one point for each, and returns its input. All totals after the first removal are numbers then. Missing: that it
ends (see below). -/
theorem C106_indirect_partial (readLog : I → Except PyErr (Log E)) (kind : TillEndKind) (fuel : Nat) (input : I) (log : Log E)
    (hlog : readLog input = .ok log) (h : log.traces = [] ∨ ∃ n, occurrences log n ≠ 0)
    (hends : drawIndirectCurve readLog kind fuel input ≠ none) :
    ∃ ns p, Lists log ns ∧ drawIndirectCurve readLog kind fuel input = some (.ok p) ∧ IsCurve kind log ns p.points ∧
      p.result = input ∧ p.xLabel = "Iteration number" ∧ p.yLabel = "Metric value" ∧
      ∀ i, 0 < i → i ≤ ns.length → (posTotal (afterRemovals log (ns.take i))).isSome := by
  obtain ⟨rs, log', h1, ⟨h2, _, h3⟩ | ⟨_, h3⟩⟩ := C51_till_end_runs kind LogPart.noneUntouchable log fuel
  · obtain ⟨ns, g1, _, g3, g4⟩ := ended_curve h1 h2 h
    refine ⟨ns, plotRemovals input rs, g1, ?_, g3, rfl, rfl, rfl, g4⟩
    unfold drawIndirectCurve
    rw [hlog]
    simp only [h3, plotOutcome, Option.map_some, Except.map]
  · exfalso; apply hends
    unfold drawIndirectCurve
    rw [hlog]
    simp only [h3, plotOutcome, Option.map_none]

theorem tracesWith_removeEvent (log : Log E) (n m : String) : tracesWith (removeEvent log n) m ≤ tracesWith log m := by
  have key : ∀ ts : List (List String), ((ts.filter (fun t => decide (t ≠ []))).filter (fun t => decide (m ∈ t))).length ≤
      (ts.filter (fun t => decide (m ∈ t))).length := by
    intro ts
    exact List.Sublist.length_le (List.Sublist.filter _ List.filter_sublist)
  have cast : ∀ l : Log E, tracesWith l m = ((l.evs.map (fun t => t.map name)).filter (fun t => decide (m ∈ t))).length := by
    intro l
    unfold tracesWith
    rw [List.filter_map, List.length_map]; rfl
  rw [cast, cast, ← removeEvents_single, removeEvents_kept]
  refine (key _).trans ?_
  induction log.evs with
  | nil => simp
  | cons t ts ih =>
    simp only [List.map_cons, List.filter_cons]
    have : m ∈ kept [n] t → m ∈ t.map name := by
      intro h
      unfold kept at h
      exact (List.mem_filter.1 h).1
    by_cases h1 : m ∈ kept [n] t
    · simp only [h1, this h1, decide_true, if_true, List.length_cons]; omega
    · by_cases h2 : m ∈ t.map name <;> simp only [h1, h2, decide_true, decide_false, if_true, if_false, Bool.false_eq_true,
        List.length_cons] <;> omega

theorem tracesWith_afterRemovals (ns : List String) (log : Log E) (m : String) :
    tracesWith (afterRemovals log ns) m ≤ tracesWith log m := by
  induction ns generalizing log with
  | nil => exact Nat.le_refl _
  | cons n ns ih => exact (ih _).trans (tracesWith_removeEvent log n m)

/-- If only one class is left, it occurs in every trace with events. -/
theorem tracesLeft_single (log : Log E) (m : String) (h : ∀ n, occurrences log n ≠ 0 → n = m) :
    tracesLeft log ≤ tracesWith log m := by
  unfold tracesLeft tracesWith
  refine List.Sublist.length_le ?_
  have : log.evs.filter (fun t => decide (t ≠ [])) = (log.evs.filter (fun t => decide (m ∈ t.map name))).filter
      (fun t => decide (t ≠ [])) := by
    rw [List.filter_filter]
    apply List.filter_congr
    intro t ht
    cases t with
    | nil => simp
    | cons e es =>
      have : name e = m := by
        apply h
        unfold occurrences
        rw [← Nat.pos_iff_ne_zero, List.count_pos_iff]
        exact List.mem_map_of_mem (List.mem_flatten.2 ⟨_, ht, by simp⟩)
      simp [this]
  rw [this]
  exact List.filter_sublist

/-- C106, indirect removal: a log with two event classes can only be drawn if some class occurs in two traces. For other logs the
part never ends. -/
theorem C106_indirect_never_ends (readLog : I → Except PyErr (Log E)) (kind : TillEndKind) (fuel : Nat) (input : I) (log : Log E)
    (hlog : readLog input = .ok log) (n m : String) (hnm : n ≠ m) (hn : occurrences log n ≠ 0) (hm : occurrences log m ≠ 0)
    (hone : ∀ k, tracesWith log k ≤ 1) : drawIndirectCurve readLog kind fuel input = none := by
  by_contra hne
  obtain ⟨ns, p, hl, _, _, _, _, _, hsome⟩ := C106_indirect_partial readLog kind fuel input log hlog (.inr ⟨n, hn⟩) hne
  have hlen : 2 ≤ ns.length := by
    have h1 := (hl.2 n).2 hn
    have h2 := (hl.2 m).2 hm
    match ns, h1, h2 with
    | [a], h1, h2 => simp at h1 h2; exact absurd (h1.trans h2.symm) hnm
    | _ :: _ :: _, _, _ => simp
  have hlast := hsome (ns.length - 1) (by omega) (by omega)
  have hd := hl.drop (ns.length - 1)
  obtain ⟨k, hk⟩ : ∃ k, ns.drop (ns.length - 1) = [k] := by
    apply List.length_eq_one_iff.1
    rw [List.length_drop]; omega
  rw [hk] at hd
  have hocc := (hd.2 k).1 (by simp)
  have h1 := tracesLeft_single _ k (fun j hj => by simpa using (hd.2 j).2 hj)
  have h2 := (tracesWith_afterRemovals (ns.take (ns.length - 1)) log k).trans (hone k)
  rcases posTotal_cases _ k hocc with ⟨_, h3⟩ | ⟨h3, _⟩
  · rw [h3] at hlast; cases hlast
  · omega

/-- C106, indirect removal: for a log of empty traces one point is plotted although there is nothing to remove; as a difference it is
`-1e10`. -/
theorem C106_indirect_empty_traces (readLog : I → Except PyErr (Log E)) (kind : TillEndKind) (fuel : Nat) (input : I) (log : Log E)
    (hlog : readLog input = .ok log) (hne : log.traces ≠ []) (h : ∀ n, occurrences log n = 0) :
    (drawIndirectCurve readLog kind (fuel + 2) input).map (fun r => r.map (fun p => p.points)) =
      some (.ok [some (if kind = .beforeOnly then 0 else -10000000000)]) := by
  obtain ⟨rs, log', h1, h2⟩ := C51_till_end_runs kind LogPart.noneUntouchable log (fuel + 2)
  have hnil : (removeEvents log []).traces = [] := by
    by_contra hne'
    obtain ⟨k, hk⟩ := exists_occurs (removeEvents log []) (by rw [compact_evs]; simp) hne'
    rw [compact_occurrences] at hk
    exact hk (h k)
  have step : ∀ {rs' : List (Option String × Option ℝ)} {l l' : Log E}, PosTillEnd kind LogPart.noneUntouchable l rs' l' →
      l.traces = [] → rs' = [] := by
    intro rs' l l' hp hl
    cases hp with
    | nil => rfl
    | cons h0 _ _ _ _ => exact absurd hl h0
  have hrs : (rs = [] ∧ log' = log) ∨ rs.map (fun x => x.2) =
      [some (if kind = .beforeOnly then 0 else -10000000000)] := by
    cases h1 with
    | nil => exact .inl ⟨rfl, rfl⟩
    | @cons _ _ c total x rs' _ hch hx1 hx2 hrest =>
      right
      rcases hch with ⟨rfl, ht, _⟩ | ⟨k, y, _, _, hk, _⟩
      · have := step hrest hnil
        subst this
        cases kind with
        | beforeOnly => simp [hx1 rfl, posTotal_empty log h]
        | afterBeforeDelta => simp [hx2 rfl, posTotal_empty log h, ht, subNan]
      · exact absurd (h k) hk
  unfold drawIndirectCurve
  rw [hlog]
  rcases hrs with ⟨rfl, rfl⟩ | hrs
  · rcases h2 with ⟨h2, _⟩ | ⟨h2, _⟩
    · exact absurd h2 hne
    · simp at h2
  · rcases h2 with ⟨_, _, h3⟩ | ⟨h2, _⟩
    · simp only [h3, plotOutcome, Option.map_some, Except.map, plotRemovals, hrs]
    · exfalso
      have := congrArg List.length hrs
      simp [h2] at this

/-! ### Examples -/

/-- A log that can be drawn both ways. -/
def exCurveLog : Log String := Log.ofEvs [["a", "b"], ["b", "a"], ["b", "c"]]
/-- A log of traces without common classes. -/
def exApartLog : Log String := Log.ofEvs [["a", "b"], ["c"]]

example : ∃ ns p, Lists exCurveLog ns ∧ drawDirectCurve (fun (l : Log String) => .ok l) .beforeOnly 4 exCurveLog = some (.ok p) ∧
    IsCurve .beforeOnly exCurveLog ns p.points ∧ p.points.length = 3 := by
  obtain ⟨ns, p, h1, h2, h3, _⟩ := C106_direct (fun (l : Log String) => .ok l) .beforeOnly 4 exCurveLog exCurveLog rfl
    (.inr ⟨"a", by decide⟩) (by decide)
  refine ⟨ns, p, h1, h2, h3, ?_⟩
  rw [h3.1, ← h1.length]; decide
/-- Two equal traces: nothing is uncertain, the only difference is 0. -/
example : ∃ ns p, Lists (Log.ofEvs [["a"], ["a"]] : Log String) ns ∧
    drawDirectCurve (fun (l : Log String) => .ok l) .afterBeforeDelta 2 (Log.ofEvs [["a"], ["a"]]) = some (.ok p) ∧
    IsCurve .afterBeforeDelta (Log.ofEvs [["a"], ["a"]] : Log String) ns p.points ∧ p.points = [0].map some := by
  obtain ⟨ns, p, h1, h2, h3, _⟩ := C106_direct (fun (l : Log String) => .ok l) .afterBeforeDelta 2 (Log.ofEvs [["a"], ["a"]]) _ rfl
    (.inr ⟨"a", by decide⟩) (by decide)
  refine ⟨ns, p, h1, h2, h3, ?_⟩
  have hlen : ns.length = 1 := by rw [← h1.length]; decide
  have hns : ns = ["a"] := by
    obtain ⟨x, rfl⟩ := List.length_eq_one_iff.1 hlen
    have := (h1.2 "a").2 (by decide)
    simp at this; rw [← this]
  subst hns
  have e1 : posTotal (Log.ofEvs [["a"], ["a"]] : Log String) = some 0 := by
    have hk : (createLogInformation (Log.ofEvs [["a"], ["a"]] : Log String)).eventsCount.keys = ["a"] := by decide
    have ht : positionTable (keptOf (Log.ofEvs [["a"], ["a"]] : Log String) none) "a" = [2] := by decide
    have hn : nonEmptyCount (keptOf (Log.ofEvs [["a"], ["a"]] : Log String) none) = 2 := by decide
    unfold posTotal
    rw [hk, List.map_cons, ht, hn]
    simp [positionEntropy, sumNan, addNan]
  have e2 : posTotal (afterRemovals (Log.ofEvs [["a"], ["a"]] : Log String) ["a"]) = some 0 :=
    posTotal_empty _ (fun n => by simp [afterRemovals, occurrences, removeEvent, filterEvents, Log.ofEvs, Log.evs, HasName.name])
  obtain ⟨x, hx⟩ := List.length_eq_one_iff.1 (h3.1.trans hlen)
  have := h3.2 0 (by simp)
  rw [hx] at this ⊢
  simp only [List.take_zero, List.take_succ_cons, Nat.zero_add, curvePoint, List.getElem?_cons_zero, Option.some.injEq] at this
  rw [this, e2, show afterRemovals (Log.ofEvs [["a"], ["a"]] : Log String) [] = Log.ofEvs [["a"], ["a"]] from rfl, e1]
  simp [subNan]
example : drawIndirectCurve (fun (l : Log String) => .ok l) .beforeOnly 100 exApartLog = none :=
  C106_indirect_never_ends (fun l => .ok l) .beforeOnly 100 exApartLog exApartLog rfl "a" "b" (by decide) (by decide) (by decide) (by
    intro k
    by_cases h1 : k = "c"
    · subst h1; decide
    · simp [tracesWith, exApartLog, Log.ofEvs, Log.evs, HasName.name, List.filter_cons, h1]
      split <;> simp)
example : drawDirectCurve (fun (l : Log String) => .ok l) .beforeOnly 1 (Log.ofEvs [[], []]) = some (.error .valueError) :=
  C106_direct_fails _ _ _ _ _ rfl (by simp [Log.ofEvs]) (fun n => by simp [occurrences, Log.ofEvs, Log.evs]) (by decide)

end Ficus
