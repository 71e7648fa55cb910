import Verif.Proofs.Abstraction
import Verif.Props.Extract

/-! Properties C32 to C37 and C40: decomposition of traces, abstraction, unattached events, counting, segmentation. -/

namespace Ficus
open Spec
variable {E : Type}

/-! ### C32 -/

/-- C32a: the processing visits a decomposition of the trace: every position exactly once and in order, the instances
in their order, and the maximal gaps. Whatever the callbacks do, they are called along that same decomposition. -/
theorem C32_visits_decompose (n : Nat) (insts : List Instance) (hw : WellPlaced n (insts.map span)) :
    ∃ vs, Decomposition n insts vs ∧
      processTrace n insts (fun s e acc => .ok (acc ++ [Visit.gap s e])) (fun i acc => .ok (acc ++ [Visit.act i])) [] =
        .ok vs ∧
      ∀ (S : Type) (onGap : Nat → Nat → S → Except PyErr S) (onActivity : Instance → S → Except PyErr S) (st : S),
        processTrace n insts onGap onActivity st =
          vs.foldlM (fun st v => perVisit (fun s e => onGap s e st) (fun i => onActivity i st) v) st := by
  refine ⟨visitsFrom n 0 insts, decomposition n insts hw, ?_, ?_⟩
  · rw [processTrace_append n insts _ _ (fun v => [v]) (fun s e _ acc => rfl) (fun i acc => rfl)]
    simp
  · intro S onGap onActivity st
    unfold processTrace
    rw [processTraceLoop_eq]
    have : applyVisit onGap onActivity = (fun st v =>
        perVisit (fun s e => onGap s e st) (fun i => onActivity i st) v) := by funext st v; cases v <;> rfl
    rw [this]

theorem decomposition_unique_aux (n : Nat) (C : Nat → Prop) (vs ws : List Visit) (lo k : Nat) (hn : lo + k = n)
    (hv : vs.flatMap Visit.positions = List.range' lo k) (hw : ws.flatMap Visit.positions = List.range' lo k)
    (hi : vs.filterMap Visit.inst? = ws.filterMap Visit.inst?)
    (hvg : ∀ s e, Visit.gap s e ∈ vs → s < e ∧ (∀ i, s ≤ i → i < e → ¬ C i) ∧ (e = n ∨ C e))
    (hwg : ∀ s e, Visit.gap s e ∈ ws → s < e ∧ (∀ i, s ≤ i → i < e → ¬ C i) ∧ (e = n ∨ C e))
    (hva : ∀ i, Visit.act i ∈ vs → 0 < i.length ∧ C i.startPos)
    (hwa : ∀ i, Visit.act i ∈ ws → 0 < i.length ∧ C i.startPos) : vs = ws := by
  induction vs generalizing ws lo k with
  | nil =>
    cases ws with
    | nil => rfl
    | cons w ws =>
      exfalso
      rw [← hv, List.flatMap_nil, List.flatMap_cons] at hw
      have hp : w.positions = [] := (List.append_eq_nil_iff.1 hw).1
      cases w with
      | gap s e => have := (hwg s e (by simp)).1; simp [Visit.positions] at hp; omega
      | act i => have := (hwa i (by simp)).1; simp [Visit.positions] at hp; omega
  | cons v vs ih =>
    cases ws with
    | nil =>
      exfalso
      rw [← hw, List.flatMap_nil, List.flatMap_cons] at hv
      have hp : v.positions = [] := (List.append_eq_nil_iff.1 hv).1
      cases v with
      | gap s e => have := (hvg s e (by simp)).1; simp [Visit.positions] at hp; omega
      | act i => have := (hva i (by simp)).1; simp [Visit.positions] at hp; omega
    | cons w ws =>
      -- the head of a list of positions that begins with an interval
      have hhead : ∀ (a b : Nat) (rest : List Nat), 0 < b → List.range' a b ++ rest = List.range' lo k →
          a = lo ∧ b ≤ k ∧ rest = List.range' (lo + b) (k - b) := by
        intro a b rest hb he
        have hlen : b + rest.length = k := by simpa using congrArg List.length he
        have h1 : List.range' lo k = List.range' lo b ++ List.range' (lo + b) (k - b) := by
          rw [List.range'_append_1]; congr 1; omega
        rw [h1] at he
        obtain ⟨h2, h3⟩ := List.append_inj he (by simp)
        refine ⟨?_, by omega, h3⟩
        cases b with
        | zero => omega
        | succ b => rw [List.range'_succ, List.range'_succ] at h2; exact (List.cons.inj h2).1
      rw [List.flatMap_cons] at hv hw
      have hvw : v = w ∧ ∃ b, 0 < b ∧ b ≤ k ∧ vs.flatMap Visit.positions = List.range' (lo + b) (k - b) ∧
          ws.flatMap Visit.positions = List.range' (lo + b) (k - b) := by
        cases v with
        | gap s e =>
          have g1 := hvg s e (by simp)
          obtain ⟨rfl, hbk, hr⟩ := hhead s (e - s) _ (by omega) hv
          cases w with
          | gap s' e' =>
            have g2 := hwg s' e' (by simp)
            obtain ⟨rfl, hbk', hr'⟩ := hhead s' (e' - s') _ (by omega) hw
            have : e = e' := by
              rcases Nat.lt_trichotomy e e' with h | h | h
              · rcases g1.2.2 with h' | h'
                · omega
                · exact absurd h' (g2.2.1 e (by omega) h)
              · exact h
              · rcases g2.2.2 with h' | h'
                · omega
                · exact absurd h' (g1.2.1 e' (by omega) h)
            subst this
            exact ⟨rfl, _, by omega, hbk, hr, hr'⟩
          | act i =>
            have g2 := hwa i (by simp)
            obtain ⟨h1, _, _⟩ := hhead i.startPos i.length _ g2.1 hw
            exact absurd (h1 ▸ g2.2) (g1.2.1 s (le_refl _) g1.1)
        | act i =>
          have g1 := hva i (by simp)
          obtain ⟨h1, hbk, hr⟩ := hhead i.startPos i.length _ g1.1 hv
          cases w with
          | gap s' e' =>
            have g2 := hwg s' e' (by simp)
            obtain ⟨rfl, _, _⟩ := hhead s' (e' - s') _ (by omega) hw
            exact absurd (h1 ▸ g1.2) (g2.2.1 s' (le_refl _) g2.1)
          | act j =>
            have : i = j := by
              simp only [List.filterMap_cons, Visit.inst?] at hi
              exact (List.cons.inj hi).1
            subst this
            obtain ⟨_, _, hr'⟩ := hhead i.startPos i.length _ g1.1 hw
            exact ⟨rfl, _, g1.1, hbk, hr, hr'⟩
      obtain ⟨rfl, b, hb, hbk, hr, hr'⟩ := hvw
      have htail : vs = ws := by
        apply ih ws (lo + b) (k - b) (by omega) hr hr'
        · cases v with
          | gap s e => simpa [List.filterMap_cons, Visit.inst?] using hi
          | act i => simpa [List.filterMap_cons, Visit.inst?] using hi
        · exact fun s e h => hvg s e (by simp [h])
        · exact fun s e h => hwg s e (by simp [h])
        · exact fun i h => hva i (by simp [h])
        · exact fun i h => hwa i (by simp [h])
      rw [htail]

/-- C32b: a trace has only one decomposition for the given instances, so C32a determines the visits. -/
theorem C32_decomposition_unique (n : Nat) (insts : List Instance) (hw : WellPlaced n (insts.map span))
    (vs ws : List Visit) (hv : Decomposition n insts vs) (hv' : Decomposition n insts ws) : vs = ws := by
  have hact : ∀ us : List Visit, us.filterMap Visit.inst? = insts → ∀ i, Visit.act i ∈ us →
      0 < i.length ∧ Covered (insts.map span) i.startPos := by
    intro us hus i hi
    rw [← act_mem_of_inst, hus] at hi
    have h := hw.1 (span i) (List.mem_map.2 ⟨i, hi, rfl⟩)
    simp only [span] at h
    exact ⟨h.1, span i, List.mem_map.2 ⟨i, hi, rfl⟩, by simp [span], by simp only [span]; omega⟩
  refine decomposition_unique_aux n (Covered (insts.map span)) vs ws 0 n (by omega)
    (by rw [hv.tiles, List.range_eq_range']) (by rw [hv'.tiles, List.range_eq_range'])
    (hv.instances.trans hv'.instances.symm) ?_ ?_ (hact vs hv.instances) (hact ws hv'.instances)
  · exact fun s e h => ⟨(hv.gaps s e h).1, (hv.gaps s e h).2.1, (hv.gaps s e h).2.2.2⟩
  · exact fun s e h => ⟨(hv'.gaps s e h).1, (hv'.gaps s e h).2.1, (hv'.gaps s e h).2.2.2⟩

theorem visitsFrom_of_decomposition (n : Nat) (insts : List Instance) (hw : WellPlaced n (insts.map span))
    (vs : List Visit) (hv : Decomposition n insts vs) : visitsFrom n 0 insts = vs :=
  C32_decomposition_unique n insts hw _ _ (decomposition n insts hw) hv

theorem zip_mapM_ok {A B C : Type} (R : A → B → Prop) (f : A × B → Except PyErr C) (g : A → B → C) (as : List A)
    (bs : List B) (h : List.Forall₂ R as bs) (hf : ∀ a b, R a b → f (a, b) = .ok (g a b)) :
    (as.zip bs).mapM f = .ok (List.zipWith g as bs) := by
  induction h with
  | nil => rfl
  | cons hab _ ih =>
    rw [List.zip_cons_cons, List.mapM_cons, hf _ _ hab, ih]; rfl

theorem zipWith_right {A B C : Type} (R : A → B → Prop) (g : A → B → C) (k : B → C) (as : List A) (bs : List B)
    (h : List.Forall₂ R as bs) (hg : ∀ a b, R a b → g a b = k b) : List.zipWith g as bs = bs.map k := by
  induction h with
  | nil => rfl
  | cons hab _ ih => rw [List.zipWith_cons_cons, hg _ _ hab, ih]; rfl

/-! ### C33 and C34 -/

theorem leaves_newTrace_all (names : Bool) (insts : List Instance) (t : List NEvent)
    (hw : WellPlaced t.length (insts.map span)) :
    leavesL ((visitsFrom t.length 0 insts).flatMap (visitImage names .insertAllEvents t)) = leavesL t := by
  have hd := decomposition t.length insts hw
  rw [leavesL_flatMap]
  have : (fun v => leavesL (visitImage names .insertAllEvents t v)) = fun v => leavesL (pick t v.positions) := by
    funext v
    cases v with
    | gap s e => simp only [visitImage, Visit.positions, pick_range']
    | act i => simp only [visitImage, Visit.positions, pick_range', leaves_activityEvent]
  rw [this, ← leavesL_flatMap, ← pick_flatMap, hd.tiles, pick_range]

theorem createNewLog_all (log : Log NEvent) (insts : List (List Instance)) (names : Bool) (h : FitsLog log insts) :
    createNewLog log insts names .insertAllEvents = .ok (Log.ofEvs (List.zipWith
      (fun is (t : Trace NEvent) =>
        (visitsFrom t.events.length 0 is).flatMap (visitImage names .insertAllEvents t.events)) insts log.traces)) := by
  unfold createNewLog
  rw [zip_mapM_ok _ _ _ _ _ h (fun is t hw => newTrace_eq names .insertAllEvents (by simp) is t.events hw)]
  rfl

/-- C33a: one round of abstraction with 'insert all events' succeeds for fitting instance lists, and substituting the
original events gives for every trace what it gives for the trace before the round. -/
theorem C33_one_round (log : Log NEvent) (insts : List (List Instance)) (names : Bool) (h : FitsLog log insts) :
    ∃ next, createNewLog log insts names .insertAllEvents = .ok next ∧
      next.evs.map substituteOriginalEvents = log.evs.map substituteOriginalEvents := by
  refine ⟨_, createNewLog_all log insts names h, ?_⟩
  simp only [Log.evs, Log.ofEvs, List.map_map]
  rw [List.map_zipWith]
  exact zipWith_right _ _ _ _ _ h (fun is t hw => by
    simp only [Function.comp_def, substituteOriginalEvents_eq]
    exact leaves_newTrace_all names is t.events hw)

/-- C33b: the same after any number of nested rounds. -/
theorem C33_any_number_of_rounds (log final : Log NEvent) (h : Rounds log final) :
    final.evs.map substituteOriginalEvents = log.evs.map substituteOriginalEvents := by
  induction h with
  | start => rfl
  | round insts names _ hf hc ih =>
    obtain ⟨next, h1, h2⟩ := C33_one_round _ insts names hf
    rw [hc] at h1
    rw [Except.ok.inj h1, h2, ih]

theorem leavesL_of_leaves (es : List NEvent) (h : ∀ e ∈ es, ∃ p a, e = .leaf p a) : leavesL es = es := by
  induction es with
  | nil => simp [leavesL]
  | cons e es ih =>
    obtain ⟨p, a, rfl⟩ := h e (by simp)
    simp [leavesL, leaves, ih (fun x hx => h x (by simp [hx]))]

/-- C33c: if the log had only original events, any number of rounds followed by substitution gives back exactly its
events. -/
theorem C33_original_log_restored (log final : Log NEvent) (h : Rounds log final)
    (ho : ∀ t ∈ log.evs, ∀ e ∈ t, ∃ p a, e = .leaf p a) : final.evs.map substituteOriginalEvents = log.evs := by
  rw [C33_any_number_of_rounds log final h]
  conv_rhs => rw [← List.map_id log.evs]
  apply List.map_congr_left
  intro t ht
  rw [substituteOriginalEvents_eq, leavesL_of_leaves t (ho t ht)]
  rfl

theorem calculateUnderlyingCount_eq (log : Log NEvent) :
    calculateUnderlyingCount log = some (leavesL log.evs.flatten).length := by
  unfold calculateUnderlyingCount
  have : ∀ (l : List NEvent) (c : Nat),
      l.foldlM (fun c e => (countUnderlying e).map (c + ·)) c = some (c + (leavesL l).length) := by
    intro l
    induction l with
    | nil => intro c; simp [leavesL]
    | cons e l ih =>
      intro c
      obtain ⟨ls, hp, he⟩ := underlyingLoop_spec (fun n _ => n + 1) e.weight [e] 0 (by simp [NEvent.weightL])
      have hlen : ls.foldl (fun n (_ : NEvent) => n + 1) 0 = ls.length := by
        have : ∀ (l : List NEvent) (n : Nat), l.foldl (fun n (_ : NEvent) => n + 1) n = n + l.length := by
          intro l; induction l with
          | nil => simp
          | cons a l ih => intro n; simp [ih]; omega
        have := this ls 0
        rwa [Nat.zero_add] at this
      rw [List.foldlM_cons]
      unfold countUnderlying
      rw [he, hlen, hp.length_eq]
      simp only [Option.map_some, Option.bind_eq_bind, Option.bind_some, leavesL, List.append_nil, List.length_append]
      have := ih (c + (leaves e).length)
      unfold countUnderlying at this
      rw [this, Nat.add_assoc]
  rw [this]; simp

/-- C33d: the number of underlying events is the same after any number of rounds. -/
theorem C33_count_preserved (log final : Log NEvent) (h : Rounds log final) :
    calculateUnderlyingCount final = calculateUnderlyingCount log := by
  rw [calculateUnderlyingCount_eq, calculateUnderlyingCount_eq]
  have h1 := C33_any_number_of_rounds log final h
  have : ∀ l : List (List NEvent), leavesL l.flatten = (l.map substituteOriginalEvents).flatten := by
    intro l
    induction l with
    | nil => simp [leavesL]
    | cons t l ih => rw [List.flatten_cons, leavesL_append, ih, List.map_cons, List.flatten_cons, substituteOriginalEvents_eq]
  rw [this, this, h1]

/-- C34a: the new trace is the concatenation of the images of the visits of the decomposition. -/
theorem C34_new_trace_shape (names : Bool) (strategy : Strategy) (hs : strategy ≠ .unknown) (insts : List Instance)
    (t : List NEvent) (hw : WellPlaced t.length (insts.map span)) (vs : List Visit)
    (hv : Decomposition t.length insts vs) :
    newTrace names strategy insts t = .ok (vs.flatMap (image names strategy t)) := by
  rw [newTrace_eq names strategy hs insts t hw, visitsFrom_of_decomposition t.length insts hw vs hv]
  rfl

theorem flatMap_inst {X : Type} (vs : List Visit) (f : Instance → List X) :
    vs.flatMap (perVisit (fun _ _ => []) f) = (vs.filterMap Visit.inst?).flatMap f := by
  induction vs with
  | nil => rfl
  | cons v vs ih => cases v <;> simp [List.filterMap_cons, Visit.inst?, perVisit, ih]

/-- C34b: with "don't insert" there is one event per instance, and its underlying events are exactly those inside the
instances, in order. -/
theorem C34_dont_insert (names : Bool) (insts : List Instance) (t : List NEvent)
    (hw : WellPlaced t.length (insts.map span)) :
    ∃ r, newTrace names .dontInsert insts t = .ok r ∧ r.length = insts.length ∧
      substituteOriginalEvents r =
        substituteOriginalEvents (insts.flatMap (fun i => (t.drop i.startPos).take i.length)) := by
  have hd := decomposition t.length insts hw
  refine ⟨_, newTrace_eq names .dontInsert (by simp) insts t hw, ?_, ?_⟩
  · have : visitImage names .dontInsert t = perVisit (fun _ _ => []) (fun i => [activityEvent names t i]) := by
      funext v; cases v <;> rfl
    rw [this, flatMap_inst, hd.instances]
    simp [List.length_flatMap]
  · rw [substituteOriginalEvents_eq, substituteOriginalEvents_eq, leavesL_flatMap, leavesL_flatMap]
    have : (fun v => leavesL (visitImage names .dontInsert t v)) =
        perVisit (fun _ _ => []) (fun i => leavesL ((t.drop i.startPos).take i.length)) := by
      funext v
      cases v with
      | gap s e => simp [visitImage, perVisit, leavesL]
      | act i => simp only [visitImage, perVisit, leaves_activityEvent]; rfl
    rw [this, flatMap_inst, hd.instances]

/-- C34c: with 'insert as single event' the new trace has exactly one event per visit of the decomposition: one per
instance and one per maximal gap. -/
theorem C34_single_event_per_gap (names : Bool) (insts : List Instance) (t : List NEvent)
    (hw : WellPlaced t.length (insts.map span)) (vs : List Visit) (hv : Decomposition t.length insts vs) :
    ∃ r, newTrace names .insertAsSingleEvent insts t = .ok r ∧ r.length = vs.length := by
  refine ⟨_, newTrace_eq names .insertAsSingleEvent (by simp) insts t hw, ?_⟩
  rw [visitsFrom_of_decomposition t.length insts hw vs hv]
  have : ∀ v, (visitImage names .insertAsSingleEvent t v).length = 1 := by intro v; cases v <;> rfl
  simp [List.length_flatMap, this]

/-- C34d: an unknown strategy raises `ValueError` for the first gap. -/
theorem C34_unknown_strategy (names : Bool) (insts : List Instance) (t : List NEvent)
    (vs : List Visit) (hw : WellPlaced t.length (insts.map span)) (hv : Decomposition t.length insts vs)
    (hg : ∃ s e, Visit.gap s e ∈ vs) : newTrace names .unknown insts t = .error .valueError := by
  unfold newTrace processTrace
  rw [processTraceLoop_eq, visitsFrom_of_decomposition t.length insts hw vs hv]
  obtain ⟨s, e, hg⟩ := hg
  clear hv
  suffices H : ∀ st : List NEvent, vs.foldlM (applyVisit (onUndefined .unknown t)
      (fun i acc => .ok (acc ++ [activityEvent names t i]))) st = .error .valueError from H []
  induction vs with
  | nil => simp at hg
  | cons v vs ih =>
    intro st
    rw [List.foldlM_cons]
    cases v with
    | gap a b => rfl
    | act i =>
      simp only [applyVisit, bind, Except.bind]
      exact ih (by simpa using hg) _

/-! ### C35 -/

theorem uncovered_eq (n : Nat) (insts : List Instance) (vs : List Visit) (hv : Decomposition n insts vs) :
    uncovered n (insts.map span) = vs.flatMap (perVisit (fun s e => List.range' s (e - s)) (fun _ => [])) := by
  have hcov : ∀ i, (insts.map span).any (fun p => decide (p.1 ≤ i) && decide (i < p.1 + p.2)) = true ↔
      Covered (insts.map span) i := by
    intro i; unfold Covered; simp only [List.any_eq_true, Bool.and_eq_true, decide_eq_true_eq]
  unfold uncovered
  rw [← hv.tiles, List.filter_flatMap]
  apply List.flatMap_congr
  intro v hvm
  cases v with
  | gap s e =>
    simp only [Visit.positions, perVisit]
    rw [List.filter_eq_self]
    intro i hi
    rw [List.mem_range'_1] at hi
    have := (hv.gaps s e hvm).2.1 i hi.1 (by omega)
    rw [← hcov] at this
    simpa using this
  | act j =>
    simp only [Visit.positions, perVisit]
    rw [List.filter_eq_nil_iff]
    intro i hi
    rw [List.mem_range'_1] at hi
    have hj : j ∈ insts := by rw [← hv.instances, act_mem_of_inst]; exact hvm
    have : Covered (insts.map span) i := ⟨span j, List.mem_map.2 ⟨j, hj, rfl⟩, by simpa [span] using hi⟩
    rw [← hcov] at this
    simp [this]

theorem unattached_eq (t : List E) (insts : List Instance) (hw : WellPlaced t.length (insts.map span)) :
    processTrace t.length insts (fun s e acc => .ok (acc ++ slice t s (e - s))) (fun _ acc => .ok acc) [] =
      .ok (pick t (uncovered t.length (insts.map span))) := by
  rw [processTrace_append t.length insts _ _ (perVisit (fun s e => slice t s (e - s)) (fun _ => []))
    ?_ (fun i acc => by simp [perVisit])]
  rotate_left
  · intro s e _ acc; rfl
  rw [uncovered_eq t.length insts _ (decomposition t.length insts hw), pick_flatMap, List.nil_append]
  congr 2
  funext v
  cases v with
  | gap s e => simp only [perVisit, pick_range']
  | act i => simp [perVisit, pick]

/-- C35a: the unattached events of every trace are exactly the events at the positions outside all instances, in
order. -/
theorem C35_unattached_exactly_outside (log : Log E) (insts : List (List Instance)) (h : FitsLog log insts) :
    ∃ r, createUnattachedLog log insts = .ok r ∧
      r.evs = List.zipWith (fun is (t : Trace E) => pick t.events (uncovered t.events.length (is.map span))) insts
        log.traces := by
  unfold createUnattachedLog
  rw [zip_mapM_ok _ _ (fun is (t : Trace E) => pick t.events (uncovered t.events.length (is.map span))) _ _ h
    (fun is t hw => unattached_eq t.events is hw)]
  refine ⟨_, rfl, ?_⟩
  simp [Log.evs, Log.ofEvs]

/-- C35b: the unattached events together with the events inside the instances are all events of the trace. -/
theorem C35_accounts_for_all (t : List E) (insts : List Instance) (hw : WellPlaced t.length (insts.map span)) :
    (pick t (uncovered t.length (insts.map span)) ++
      insts.flatMap (fun i => (t.drop i.startPos).take i.length)).Perm t := by
  have hd := decomposition t.length insts hw
  have hin : insts.flatMap (fun i => (t.drop i.startPos).take i.length) =
      (visitsFrom t.length 0 insts).flatMap
        (perVisit (fun _ _ => []) (fun i => (t.drop i.startPos).take i.length)) := by
    rw [flatMap_inst, hd.instances]
  have ht : t = (visitsFrom t.length 0 insts).flatMap (fun v => pick t v.positions) := by
    rw [← pick_flatMap, hd.tiles, pick_range]
  rw [uncovered_eq t.length insts _ hd, pick_flatMap, hin]
  suffices H : ∀ vs : List Visit, (vs.flatMap (fun v => pick t (perVisit (fun s e => List.range' s (e - s))
      (fun _ => []) v)) ++ vs.flatMap (perVisit (fun _ _ => []) (fun i => (t.drop i.startPos).take i.length))).Perm (vs.flatMap (fun v => pick t v.positions)) by
    have := H (visitsFrom t.length 0 insts)
    rwa [← ht] at this
  intro vs
  induction vs with
  | nil => simp
  | cons v vs ih =>
    cases v with
    | gap s e =>
      simp only [List.flatMap_cons, List.nil_append, perVisit, Visit.positions, List.append_assoc]
      exact ih.append_left _
    | act i =>
      simp only [List.flatMap_cons, perVisit, Visit.positions, pick_range']
      simp only [pick, List.filterMap_nil, List.nil_append]
      refine List.Perm.trans ?_ (ih.append_left _)
      show (_ ++ (slice t i.startPos i.length ++ _)).Perm _
      rw [← List.append_assoc, ← List.append_assoc]
      exact List.perm_append_comm.append_right _

/-! ### Concrete case: the trace x a b a c c a with the instances AB at 1-3, C at 4-5 -/

def exEvent (n : String) : NEvent := .leaf [("concept:name", .str n)] none

def exTrace : List NEvent := ["x", "a", "b", "a", "c", "c", "a"].map exEvent

def exInsts : List Instance := [⟨exNodes[0], 1, 3⟩, ⟨exNodes[1], 4, 2⟩]

theorem exInsts_placed : WellPlaced exTrace.length (exInsts.map span) :=
  ⟨by decide, by decide⟩

/-- The decomposition of this trace. -/
theorem exDecomposition : Decomposition exTrace.length exInsts
    [.gap 0 1, .act ⟨exNodes[0], 1, 3⟩, .act ⟨exNodes[1], 4, 2⟩, .gap 6 7] := by
  have h := decomposition exTrace.length exInsts exInsts_placed
  have : visitsFrom exTrace.length 0 exInsts =
      [.gap 0 1, .act ⟨exNodes[0], 1, 3⟩, .act ⟨exNodes[1], 4, 2⟩, .gap 6 7] := by
    simp [visitsFrom, exInsts, exTrace]
  rwa [this] at h

example : ∃ r, newTrace false .insertAsSingleEvent exInsts exTrace = .ok r ∧ r.length = 4 :=
  C34_single_event_per_gap false exInsts exTrace exInsts_placed _ exDecomposition

example : newTrace false .unknown exInsts exTrace = .error .valueError :=
  C34_unknown_strategy false exInsts exTrace _ exInsts_placed exDecomposition ⟨0, 1, by simp⟩

example : ∃ r, newTrace true .dontInsert exInsts exTrace = .ok r ∧ r.length = 2 ∧
    substituteOriginalEvents r = ["a", "b", "a", "c", "c"].map exEvent := by
  obtain ⟨r, h1, h2, h3⟩ := C34_dont_insert true exInsts exTrace exInsts_placed
  exact ⟨r, h1, h2, by rw [h3]; rfl⟩

/-- Two rounds of abstraction: first two instances, then one instance over the two new events. -/
theorem exRounds : ∃ final, Rounds (Log.ofEvs [exTrace]) final ∧
    final.evs.map List.length = [3] ∧ final.evs.map substituteOriginalEvents = [exTrace] := by
  have hf1 : FitsLog (Log.ofEvs [exTrace]) [exInsts] := .cons exInsts_placed .nil
  let mid : Log NEvent := Log.ofEvs [exEvent "x" :: activityEvent false exTrace ⟨exNodes[0], 1, 3⟩ ::
    activityEvent false exTrace ⟨exNodes[1], 4, 2⟩ :: [exEvent "a"]]
  have h1 : createNewLog (Log.ofEvs [exTrace]) [exInsts] false .insertAllEvents = .ok mid := rfl
  have hf2 : FitsLog mid [[⟨exNodes[0], 1, 2⟩]] := .cons ⟨by decide, by decide⟩ .nil
  obtain ⟨final, h2, _⟩ := C33_one_round mid [[⟨exNodes[0], 1, 2⟩]] true hf2
  have hr := Rounds.round _ _ (Rounds.round _ _ .start hf1 h1) hf2 h2
  refine ⟨final, hr, ?_, C33_original_log_restored _ _ hr ?_⟩
  · have h3 : createNewLog mid [[⟨exNodes[0], 1, 2⟩]] true .insertAllEvents = .ok (Log.ofEvs [exEvent "x" ::
        activityEvent true (mid.evs.headD []) ⟨exNodes[0], 1, 2⟩ :: [exEvent "a"]]) := rfl
    rw [h3] at h2
    rw [← Except.ok.inj h2]; rfl
  · intro t ht e he
    have : t = exTrace := by simpa [Log.evs, Log.ofEvs] using ht
    subst this
    simp only [exTrace, List.map_cons, List.map_nil, exEvent, List.mem_cons, List.not_mem_nil, or_false] at he
    rcases he with rfl | rfl | rfl | rfl | rfl | rfl | rfl <;> exact ⟨_, _, rfl⟩

example : ∃ r, createUnattachedLog (Log.ofEvs [["x", "a", "b", "a", "c", "c", "a"]]) [exInsts] = .ok r ∧
    r.evs = [["x", "a"]] := by
  obtain ⟨r, h1, h2⟩ := C35_unattached_exactly_outside (Log.ofEvs [["x", "a", "b", "a", "c", "c", "a"]]) [exInsts]
    (.cons exInsts_placed .nil)
  exact ⟨r, h1, by rw [h2]; rfl⟩

end Ficus
