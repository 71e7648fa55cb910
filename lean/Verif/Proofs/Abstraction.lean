import Verif.Spec.Abstraction
import Verif.Proofs.Scan
import Mathlib.Data.List.Range

/-! Processing a trace against its instances is a fold over a decomposition. -/

namespace Ficus
open Spec

/-- The visits of the loop from position `index`. -/
def visitsFrom (n : Nat) : Nat → List Instance → List Visit
  | index, [] => if index < n then [.gap index n] else []
  | index, i :: is =>
    (if index < i.startPos then [.gap index i.startPos] else []) ++ .act i :: visitsFrom n (i.startPos + i.length) is

/-- The callbacks applied to one visit. -/
def applyVisit {S : Type} (onGap : Nat → Nat → S → Except PyErr S) (onActivity : Instance → S → Except PyErr S)
    (st : S) : Visit → Except PyErr S
  | .gap s e => onGap s e st
  | .act i => onActivity i st

theorem processTraceLoop_eq {S : Type} (n : Nat) (onGap : Nat → Nat → S → Except PyErr S)
    (onActivity : Instance → S → Except PyErr S) (insts : List Instance) (index : Nat) (st : S) :
    processTraceLoop n onGap onActivity index insts st =
      (visitsFrom n index insts).foldlM (applyVisit onGap onActivity) st := by
  induction insts generalizing index st with
  | nil =>
    unfold processTraceLoop visitsFrom
    by_cases h : index < n
    · rw [if_pos h, if_pos h, List.foldlM_cons]
      simp only [applyVisit, List.foldlM_nil]
      cases onGap index n st <;> rfl
    · rw [if_neg h, if_neg h]; rfl
  | cons i is ih =>
    unfold processTraceLoop visitsFrom
    by_cases h : index < i.startPos
    · rw [if_pos h, if_pos h]
      simp only [List.cons_append, List.nil_append, List.foldlM_cons, applyVisit]
      cases onGap index i.startPos st with
      | error e => rfl
      | ok st1 =>
        simp only [bind, Except.bind]
        cases onActivity i st1 with
        | error e => rfl
        | ok st2 => exact ih _ _
    · rw [if_neg h, if_neg h]
      simp only [List.nil_append, List.foldlM_cons, applyVisit]
      simp only [bind, Except.bind]
      cases onActivity i st with
      | error e => rfl
      | ok st2 => exact ih _ _

theorem filterMap_visits (n : Nat) (insts : List Instance) (index : Nat) :
    (visitsFrom n index insts).filterMap Visit.inst? = insts := by
  induction insts generalizing index with
  | nil => unfold visitsFrom; split <;> simp [Visit.inst?]
  | cons i is ih => unfold visitsFrom; split <;> simp [List.filterMap_cons, Visit.inst?, ih]

theorem tiles_visits (n : Nat) (insts : List Instance) (index : Nat) (hn : index ≤ n)
    (hw : WellPlaced n (insts.map span)) (hlo : ∀ i ∈ insts, index ≤ i.startPos) :
    (visitsFrom n index insts).flatMap Visit.positions = List.range' index (n - index) := by
  induction insts generalizing index with
  | nil =>
    unfold visitsFrom
    by_cases h : index < n
    · rw [if_pos h]; simp [Visit.positions]
    · rw [if_neg h]; have : n - index = 0 := by omega
      simp [this]
  | cons i is ih =>
    have hi := hw.1 (span i) (by simp)
    simp only [span] at hi
    have hlo' := hlo i (by simp)
    have hw' : WellPlaced n (is.map span) :=
      ⟨fun p hp => hw.1 p (by simp only [List.map_cons, List.mem_cons]; exact Or.inr hp),
        (List.pairwise_cons.1 hw.2).2⟩
    have hnext : ∀ j ∈ is, i.startPos + i.length ≤ j.startPos := fun j hj =>
      (List.pairwise_cons.1 hw.2).1 (span j) (List.mem_map.2 ⟨j, hj, rfl⟩)
    have hrec := ih (i.startPos + i.length) (by omega) hw' hnext
    unfold visitsFrom
    have hact : (Visit.act i :: visitsFrom n (i.startPos + i.length) is).flatMap Visit.positions =
        List.range' i.startPos (n - i.startPos) := by
      rw [List.flatMap_cons, hrec]
      show List.range' i.startPos i.length ++ _ = _
      rw [List.range'_append_1]
      congr 1; omega
    by_cases h : index < i.startPos
    · rw [if_pos h, List.flatMap_append, hact]
      simp only [List.flatMap_cons, List.flatMap_nil, Visit.positions, List.append_nil]
      have := List.range'_append_1 (s := index) (m := i.startPos - index) (n := n - i.startPos)
      rw [show index + (i.startPos - index) = i.startPos by omega] at this
      rw [this]; congr 1; omega
    · have : index = i.startPos := by omega
      rw [if_neg h, List.nil_append, hact, this]

theorem gaps_visits (n : Nat) (insts : List Instance) (index : Nat) (s e : Nat)
    (h : Visit.gap s e ∈ visitsFrom n index insts) :
    s < e ∧ (s = index ∨ ∃ i ∈ insts, s = i.startPos + i.length) ∧ (e = n ∨ ∃ i ∈ insts, e = i.startPos) := by
  induction insts generalizing index with
  | nil =>
    unfold visitsFrom at h
    by_cases hc : index < n
    · rw [if_pos hc] at h
      simp only [List.mem_singleton, Visit.gap.injEq] at h
      obtain ⟨rfl, rfl⟩ := h
      exact ⟨hc, Or.inl rfl, Or.inl rfl⟩
    · rw [if_neg hc] at h; simp at h
  | cons i is ih =>
    unfold visitsFrom at h
    rw [List.mem_append, List.mem_cons] at h
    rcases h with h | h | h
    · by_cases hc : index < i.startPos
      · rw [if_pos hc] at h
        simp only [List.mem_singleton, Visit.gap.injEq] at h
        obtain ⟨rfl, rfl⟩ := h
        exact ⟨hc, Or.inl rfl, Or.inr ⟨i, by simp, rfl⟩⟩
      · rw [if_neg hc] at h; simp at h
    · cases h
    · obtain ⟨h1, h2, h3⟩ := ih _ h
      refine ⟨h1, Or.inr ?_, ?_⟩
      · rcases h2 with rfl | ⟨j, hj, rfl⟩
        · exact ⟨i, by simp, rfl⟩
        · exact ⟨j, by simp [hj], rfl⟩
      · rcases h3 with rfl | ⟨j, hj, rfl⟩
        · exact Or.inl rfl
        · exact Or.inr ⟨j, by simp [hj], rfl⟩

theorem act_mem_of_inst (vs : List Visit) (i : Instance) : i ∈ vs.filterMap Visit.inst? ↔ Visit.act i ∈ vs := by
  rw [List.mem_filterMap]
  constructor
  · rintro ⟨v, hv, h⟩
    cases v with
    | gap s e => simp [Visit.inst?] at h
    | act j => simp only [Visit.inst?, Option.some.injEq] at h; rwa [← h]
  · intro h; exact ⟨_, h, rfl⟩

/-- Two different visits of a tiling share no position. -/
theorem gap_uncovered (n : Nat) (vs : List Visit) (ht : vs.flatMap Visit.positions = List.range n) (s e : Nat)
    (hg : Visit.gap s e ∈ vs) (i : Nat) (h1 : s ≤ i) (h2 : i < e) :
    ¬ Covered ((vs.filterMap Visit.inst?).map span) i := by
  rintro ⟨p, hp, h3, h4⟩
  obtain ⟨j, hj, rfl⟩ := List.mem_map.1 hp
  rw [act_mem_of_inst] at hj
  have hnd : (vs.flatMap Visit.positions).Nodup := by rw [ht]; exact List.nodup_range
  rw [List.nodup_flatMap] at hnd
  have hpw := hnd.2
  have hsym : Std.Symm (fun a b : Visit => List.Disjoint a.positions b.positions) :=
    ⟨fun a b h => h.symm⟩
  have hd := hpw.forall hg hj (by simp)
  apply hd (a := i)
  · simp only [Visit.positions, List.mem_range'_1]; omega
  · simp only [Visit.positions, List.mem_range'_1, span] at *; omega

theorem decomposition (n : Nat) (insts : List Instance) (hw : WellPlaced n (insts.map span)) :
    Decomposition n insts (visitsFrom n 0 insts) := by
  have ht : (visitsFrom n 0 insts).flatMap Visit.positions = List.range n := by
    rw [tiles_visits n insts 0 (Nat.zero_le _) hw (fun _ _ => Nat.zero_le _), List.range_eq_range']; rfl
  refine ⟨ht, filterMap_visits _ _ _, ?_⟩
  intro s e hg
  obtain ⟨h1, h2, h3⟩ := gaps_visits n insts 0 s e hg
  refine ⟨h1, ?_, ?_, ?_⟩
  · intro i hi1 hi2
    have := gap_uncovered n _ ht s e hg i hi1 hi2
    rwa [filterMap_visits] at this
  · rcases h2 with h2 | ⟨i, hi, rfl⟩
    · exact Or.inl h2
    · right
      have := hw.1 (span i) (List.mem_map.2 ⟨i, hi, rfl⟩)
      simp only [span] at this
      exact ⟨span i, List.mem_map.2 ⟨i, hi, rfl⟩, by simp only [span]; omega, by simp only [span]; omega⟩
  · rcases h3 with h3 | ⟨i, hi, rfl⟩
    · exact Or.inl h3
    · right
      have := hw.1 (span i) (List.mem_map.2 ⟨i, hi, rfl⟩)
      simp only [span] at this
      exact ⟨span i, List.mem_map.2 ⟨i, hi, rfl⟩, by simp [span], by simp only [span]; omega⟩

/-- Callbacks that only append. -/
theorem foldlM_append {X : Type} (onGap : Nat → Nat → List X → Except PyErr (List X))
    (onActivity : Instance → List X → Except PyErr (List X)) (f : Visit → List X) (vs : List Visit)
    (hg : ∀ s e, Visit.gap s e ∈ vs → ∀ acc, onGap s e acc = .ok (acc ++ f (.gap s e)))
    (ha : ∀ i, Visit.act i ∈ vs → ∀ acc, onActivity i acc = .ok (acc ++ f (.act i))) (st : List X) :
    vs.foldlM (applyVisit onGap onActivity) st = .ok (st ++ vs.flatMap f) := by
  induction vs generalizing st with
  | nil => simp [pure, Except.pure]
  | cons v vs ih =>
    have hv : applyVisit onGap onActivity st v = .ok (st ++ f v) := by
      cases v with
      | gap s e => exact hg s e (by simp) st
      | act i => exact ha i (by simp) st
    rw [List.foldlM_cons, hv]
    simp only [bind, Except.bind]
    rw [ih (fun s e h => hg s e (by simp [h])) (fun i h => ha i (by simp [h]))]
    simp

theorem processTrace_append {X : Type} (n : Nat) (insts : List Instance)
    (onGap : Nat → Nat → List X → Except PyErr (List X)) (onActivity : Instance → List X → Except PyErr (List X))
    (f : Visit → List X)
    (hg : ∀ s e, Visit.gap s e ∈ visitsFrom n 0 insts → ∀ acc, onGap s e acc = .ok (acc ++ f (.gap s e)))
    (ha : ∀ i acc, onActivity i acc = .ok (acc ++ f (.act i))) (st : List X) :
    processTrace n insts onGap onActivity st = .ok (st ++ (visitsFrom n 0 insts).flatMap f) := by
  unfold processTrace
  rw [processTraceLoop_eq]
  exact foldlM_append _ _ f _ hg (fun i _ => ha i) st

theorem pick_range' {E : Type} (t : List E) (s len : Nat) : pick t (List.range' s len) = slice t s len := by
  unfold pick slice
  induction len generalizing s with
  | zero => simp
  | succ len ih =>
    rw [List.range'_succ, List.filterMap_cons]
    by_cases h : s < t.length
    · rw [List.getElem?_eq_getElem h, ih, List.drop_eq_getElem_cons h, List.take_succ_cons]
    · rw [List.getElem?_eq_none (by omega), ih]
      simp [List.drop_eq_nil_of_le (show t.length ≤ s by omega), List.drop_eq_nil_of_le (show t.length ≤ s + 1 by omega)]

theorem pick_range {E : Type} (t : List E) : pick t (List.range t.length) = t := by
  rw [List.range_eq_range', pick_range']; simp [slice]

theorem pick_flatMap {E V : Type} (t : List E) (vs : List V) (f : V → List Nat) :
    pick t (vs.flatMap f) = vs.flatMap (fun v => pick t (f v)) := by
  unfold pick
  rw [List.filterMap_flatMap]

theorem eventsAt_eq {E : Type} (t : List E) (s e : Nat) (h : e ≤ t.length) : eventsAt t s e = .ok (slice t s (e - s)) := by
  unfold eventsAt
  rw [← pick_range']
  unfold pick
  have : ∀ i ∈ List.range' s (e - s), i < t.length := by
    intro i hi; rw [List.mem_range'_1] at hi; omega
  generalize List.range' s (e - s) = l at this
  induction l with
  | nil => rfl
  | cons i l ih =>
    rw [List.mapM_cons, ih (fun j hj => this j (by simp [hj])), List.filterMap_cons,
      List.getElem?_eq_getElem (this i (by simp))]
    rfl

theorem gap_le (n : Nat) (insts : List Instance) (hw : WellPlaced n (insts.map span)) (s e : Nat)
    (hg : Visit.gap s e ∈ visitsFrom n 0 insts) : e ≤ n := by
  obtain ⟨_, _, h3⟩ := gaps_visits n insts 0 s e hg
  rcases h3 with h3 | ⟨i, hi, rfl⟩
  · omega
  · have := hw.1 (span i) (List.mem_map.2 ⟨i, hi, rfl⟩)
    simp only [span] at this
    omega

/-- The events of the new trace for one visit. -/
def visitImage (names : Bool) (strategy : Strategy) (t : List NEvent) : Visit → List NEvent
  | .gap s e =>
    match strategy with
    | .insertAsSingleEvent => [undefinedEvent]
    | .insertAllEvents => slice t s (e - s)
    | _ => []
  | .act i => [activityEvent names t i]

theorem newTrace_eq (names : Bool) (strategy : Strategy) (hs : strategy ≠ .unknown) (insts : List Instance)
    (t : List NEvent) (hw : WellPlaced t.length (insts.map span)) :
    newTrace names strategy insts t =
      .ok ((visitsFrom t.length 0 insts).flatMap (visitImage names strategy t)) := by
  unfold newTrace
  rw [processTrace_append t.length insts _ _ (visitImage names strategy t)]
  · simp
  · intro s e hg acc
    cases strategy with
    | dontInsert => simp [onUndefined, visitImage]
    | insertAsSingleEvent => simp [onUndefined, visitImage]
    | unknown => exact absurd rfl hs
    | insertAllEvents =>
      unfold onUndefined
      rw [eventsAt_eq t s e (gap_le _ _ hw s e hg)]
      rfl
  · intro i acc; rfl

theorem substitute_eq_leaves :
    ∀ n, (∀ e : NEvent, e.weight ≤ n → substituteEvent e = leaves e) ∧
      (∀ es : List NEvent, NEvent.weightL es ≤ n → substituteOriginalEvents es = leavesL es) := by
  intro n
  induction n with
  | zero =>
    constructor
    · intro e he; cases e <;> simp [NEvent.weight] at he
    · intro es hes
      cases es with
      | nil => simp [substituteOriginalEvents, leavesL]
      | cons e es => cases e <;> simp [NEvent.weightL, NEvent.weight] at hes
  | succ n ih =>
    have hE : ∀ e : NEvent, e.weight ≤ n + 1 → substituteEvent e = leaves e := by
      intro e he
      cases e with
      | leaf p a => simp [substituteEvent, leaves]
      | comp p u a =>
        simp only [NEvent.weight] at he
        simp only [substituteEvent, leaves]
        exact ih.2 u (by omega)
    refine ⟨hE, ?_⟩
    intro es
    induction es with
    | nil => intro _; simp [substituteOriginalEvents, leavesL]
    | cons e es ihe =>
      intro h
      simp only [NEvent.weightL] at h
      simp only [substituteOriginalEvents, leavesL]
      rw [hE e (by omega), ihe (by omega)]

theorem substituteOriginalEvents_eq (es : List NEvent) : substituteOriginalEvents es = leavesL es :=
  (substitute_eq_leaves _).2 es (le_refl _)

theorem leavesL_append (a b : List NEvent) : leavesL (a ++ b) = leavesL a ++ leavesL b := by
  induction a with
  | nil => simp [leavesL]
  | cons x a ih => simp [leavesL, ih]

theorem leavesL_eq_flatMap (a : List NEvent) : leavesL a = a.flatMap leaves := by
  induction a with
  | nil => simp [leavesL]
  | cons x a ih => simp [leavesL, ih]

theorem leavesL_flatMap {V : Type} (vs : List V) (f : V → List NEvent) :
    leavesL (vs.flatMap f) = vs.flatMap (fun v => leavesL (f v)) := by
  induction vs with
  | nil => simp [leavesL]
  | cons v vs ih => simp [leavesL_append, ih]

theorem leaves_activityEvent (names : Bool) (t : List NEvent) (i : Instance) :
    leavesL [activityEvent names t i] = leavesL (slice t i.startPos i.length) := by
  simp [leavesL, activityEvent, leaves]

theorem weightL_append (a b : List NEvent) : NEvent.weightL (a ++ b) = NEvent.weightL a + NEvent.weightL b := by
  induction a with
  | nil => simp [NEvent.weightL]
  | cons x a ih => simp [NEvent.weightL, ih]; omega

/-- The queue loop handles each leaf of the queue once. -/
theorem underlyingLoop_spec {S : Type} (action : S → NEvent → S) (fuel : Nat) (q : List NEvent) (st : S)
    (hf : NEvent.weightL q ≤ fuel) :
    ∃ l : List NEvent, l.Perm (leavesL q) ∧ underlyingLoop action fuel q st = some (l.foldl action st) := by
  induction fuel generalizing q st with
  | zero =>
    cases q with
    | nil => exact ⟨[], by simp [leavesL], by simp [underlyingLoop]⟩
    | cons e q => cases e <;> simp [NEvent.weightL, NEvent.weight] at hf
  | succ fuel ih =>
    cases q with
    | nil => exact ⟨[], by simp [leavesL], by simp [underlyingLoop]⟩
    | cons e q =>
      cases e with
      | leaf p a =>
        simp only [NEvent.weightL, NEvent.weight] at hf
        obtain ⟨l, hl, he⟩ := ih q (action st (.leaf p a)) (by omega)
        refine ⟨.leaf p a :: l, ?_, ?_⟩
        · simp only [leavesL, leaves]; exact hl.cons _
        · simp only [underlyingLoop, he, List.foldl_cons]
      | comp p u a =>
        simp only [NEvent.weightL, NEvent.weight] at hf
        obtain ⟨l, hl, he⟩ := ih (q ++ u) st (by rw [weightL_append]; omega)
        refine ⟨l, ?_, ?_⟩
        · simp only [leavesL, leaves]
          rw [leavesL_append] at hl
          exact hl.trans List.perm_append_comm
        · simp only [underlyingLoop, he]

end Ficus
