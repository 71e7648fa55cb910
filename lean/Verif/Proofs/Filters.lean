import Verif.Spec.Filters
import Verif.Props.Mutations
import Verif.Proofs.Dict

/-! Lemmas about the filter loops. -/

namespace Ficus
open Spec
variable {E : Type} [HasName E] {M : Type}

theorem maxEntry_spec (gt : M → M → Bool) (thr : M) (d : Dict String M) (hd : d ≠ []) (hc : Comparable gt thr d) :
    ∃ n v, maxEntry gt d = .ok (n, v) ∧ IsFirstMax gt d n v := by
  cases d with
  | nil => exact absurd rfl hd
  | cons x xs =>
    have key : ∀ (rest pre post : List (String × M)) (b : String × M), pre ++ b :: (post ++ rest) = x :: xs →
        (∀ y ∈ pre, gt b.2 y.2 = true) → (∀ y ∈ post, gt y.2 b.2 = false) →
        ∃ n v, rest.foldl (fun best y => if gt y.2 best.2 then y else best) b = (n, v) ∧ IsFirstMax gt (x :: xs) n v := by
      intro rest
      induction rest with
      | nil =>
        intro pre post b he h1 h2
        exact ⟨b.1, b.2, rfl, pre, post, by rw [← he]; simp, h1, h2⟩
      | cons y rest ih =>
        intro pre post b he h1 h2
        have hmem : ∀ z, z ∈ pre ∨ z = b ∨ z ∈ post ∨ z = y ∨ z ∈ rest → z ∈ x :: xs := by
          intro z hz; rw [← he]; simp only [List.mem_append, List.mem_cons]; tauto
        rw [List.foldl_cons]
        by_cases hg : gt y.2 b.2 = true
        · rw [if_pos hg]
          have hby := hc.asymm y (hmem y (by tauto)) b (hmem b (by tauto)) hg
          apply ih (pre ++ b :: post) [] y (by rw [← he]; simp)
          · intro z hz
            rcases List.mem_append.1 hz with hz | hz
            · rcases hc.neg y (hmem y (by tauto)) z (hmem z (by tauto)) b.2 (.inr ⟨b, hmem b (by tauto), rfl⟩) hg with h | h
              · exact h
              · have := hc.asymm b (hmem b (by tauto)) z (hmem z (by tauto)) (h1 z hz)
                rw [h] at this; cases this
            · rcases List.mem_cons.1 hz with rfl | hz
              · exact hg
              · rcases hc.neg y (hmem y (by tauto)) z (hmem z (by tauto)) b.2 (.inr ⟨b, hmem b (by tauto), rfl⟩) hg with h | h
                · exact h
                · rw [h2 z hz] at h; cases h
          · simp
        · rw [if_neg hg]
          apply ih pre (post ++ [y]) b (by rw [← he]; simp) h1
          intro z hz
          rcases List.mem_append.1 hz with hz | hz
          · exact h2 z hz
          · rw [List.mem_singleton] at hz; subst hz; simpa using hg
    obtain ⟨n, v, h1, h2⟩ := key xs [] [] x rfl (by simp) (by simp)
    exact ⟨n, v, by simp only [maxEntry, h1], h2⟩

theorem _root_.Ficus.Spec.IsFirstMax.mem {gt : M → M → Bool} {d : Dict String M} {n : String} {v : M} (h : IsFirstMax gt d n v) : (n, v) ∈ d := by
  obtain ⟨pre, post, rfl, _⟩ := h; simp

theorem _root_.Ficus.Spec.IsFirstMax.key {gt : M → M → Bool} {d : Dict String M} {n : String} {v : M} (h : IsFirstMax gt d n v) : n ∈ d.keys :=
  List.mem_map.2 ⟨(n, v), h.mem, rfl⟩

/-- The first maximum is unique. -/
theorem _root_.Ficus.Spec.IsFirstMax.unique {gt : M → M → Bool} {d : Dict String M} {n m : String} {v w : M}
    (h : IsFirstMax gt d n v) (h' : IsFirstMax gt d m w) : n = m ∧ v = w := by
  obtain ⟨p, q, rfl, h1, h2⟩ := h
  obtain ⟨p', q', he, h1', h2'⟩ := h'
  rcases List.append_eq_append_iff.1 he with ⟨a, ha, hb⟩ | ⟨a, ha, hb⟩
  · cases a with
    | nil => simp only [List.nil_append, List.cons.injEq, Prod.mk.injEq] at hb; exact hb.1
    | cons x a =>
      simp only [List.cons_append, List.cons.injEq] at hb
      obtain ⟨rfl, hb⟩ := hb
      have := h1' (n, v) (by rw [ha]; simp)
      have h3 := h2 (m, w) (by rw [hb]; simp)
      simp only at this h3
      rw [this] at h3; cases h3
  · cases a with
    | nil =>
      simp only [List.nil_append, List.cons.injEq, Prod.mk.injEq] at hb
      exact ⟨hb.1.1.symm, hb.1.2.symm⟩
    | cons x a =>
      simp only [List.cons_append, List.cons.injEq] at hb
      obtain ⟨rfl, hb⟩ := hb
      have := h1 (m, w) (by rw [ha]; simp)
      have h3 := h2' (n, v) (by rw [hb]; simp)
      simp only at this h3
      rw [this] at h3; cases h3

theorem _root_.Ficus.Spec.IsFirstMax.top {gt : M → M → Bool} {thr : M} {d : Dict String M} {n : String} {v : M} (h : IsFirstMax gt d n v)
    (hc : Comparable gt thr d) : ∀ x ∈ d, gt x.2 v = false := by
  intro x hx
  have hm := h.mem
  obtain ⟨p, q, rfl, h1, h2⟩ := h
  rcases List.mem_append.1 hx with hx' | hx'
  · exact hc.asymm _ hm _ hx (h1 x hx')
  · rcases List.mem_cons.1 hx' with rfl | hx'
    · by_contra hg
      have hg : gt v v = true := by simpa using hg
      have := hc.asymm _ hm _ hm hg
      simp only at this; rw [hg] at this; cases this
    · exact h2 x hx'

theorem mem_flatten_removeEvent (log : Log E) (n : String) :
    (removeEvent log n).evs.flatten.map name = (log.evs.flatten.map name).filter (fun x => decide (x ≠ n)) := by
  unfold removeEvent
  rw [filterEvents_flatten, List.filter_map]
  rfl

theorem distinctNames_removeEvent (log : Log E) (n : String) (h : occurrences log n ≠ 0) :
    distinctNames (removeEvent log n) < distinctNames log := by
  unfold distinctNames
  rw [mem_flatten_removeEvent]
  have hn : n ∈ log.evs.flatten.map name := by rw [← List.count_pos_iff]; exact Nat.pos_of_ne_zero h
  generalize log.evs.flatten.map name = l at hn
  have h1 : (l.filter (fun x => decide (x ≠ n))).dedup.length = ((l.filter (fun x => decide (x ≠ n))).toFinset).card := by
    rw [List.card_toFinset]
  have h2 : l.dedup.length = l.toFinset.card := by rw [List.card_toFinset]
  rw [h1, h2]
  apply Finset.card_lt_card
  rw [Finset.ssubset_iff_of_subset]
  · exact ⟨n, by simpa using hn, by simp⟩
  · intro x hx; simp only [List.mem_toFinset, List.mem_filter] at hx ⊢; exact hx.1

theorem occurrences_removeEvent (log : Log E) (n m : String) :
    occurrences (removeEvent log n) m = if m = n then 0 else occurrences log m := by
  unfold occurrences
  rw [mem_flatten_removeEvent]
  by_cases h : m = n
  · subst h; rw [if_pos rfl]; apply List.count_eq_zero.2; simp
  · rw [if_neg h, List.count_filter]; simpa using h

theorem _root_.Ficus.Spec.Removals.occurs {gt : M → M → Bool} {metric : Metric E M} {thr : M} (hg : GoodMetric gt thr metric)
    {log log' : Log E} {ns : List String} (h : Removals gt metric thr log ns log') :
    ∀ n ∈ ns, occurrences log n ≠ 0 := by
  induction h with
  | nil log => simp
  | @cons log log' n ns d v h1 h2 h3 h4 h5 ih =>
    intro m hm
    rcases List.mem_cons.1 hm with rfl | hm
    · obtain ⟨d', hd', _, hk, _⟩ := hg log
      rw [h2] at hd'; cases hd'
      exact hk _ h3.key
    · have := ih m hm
      rw [occurrences_removeEvent] at this
      intro h0; apply this; split <;> simp_all

theorem _root_.Ficus.Spec.Removals.nodup {gt : M → M → Bool} {metric : Metric E M} {thr : M} (hg : GoodMetric gt thr metric)
    {log log' : Log E} {ns : List String} (h : Removals gt metric thr log ns log') : ns.Nodup := by
  induction h with
  | nil log => simp
  | @cons log log' n ns d v h1 h2 h3 h4 h5 ih =>
    rw [List.nodup_cons]
    refine ⟨fun hm => ?_, ih⟩
    have := h5.occurs hg n hm
    rw [occurrences_removeEvent] at this
    simp at this

theorem _root_.Ficus.Spec.Removals.result {gt : M → M → Bool} {metric : Metric E M} {thr : M}
    {log log' : Log E} {ns : List String} (h : Removals gt metric thr log ns log') : log' = ns.foldl removeEvent log := by
  induction h with
  | nil log => rfl
  | cons _ _ _ _ _ ih => rw [ih]; rfl

/-- One iteration of the direct filter. -/
theorem directBody_step (gt : M → M → Bool) (metric : Metric E M) (thr : M) (maxEvents : Int) (log : Log E) (c : Nat)
    (hne : log.traces ≠ []) {d : Dict String M} (hd : metric log = .ok d) (hc : Comparable gt thr d) (hdn : d ≠ []) :
    ∃ n v, IsFirstMax gt d n v ∧ directBody gt metric thr maxEvents (log, c) =
      .ok (if gt v thr then (if ((c + 1 : Nat) : Int) = maxEvents then .ret (removeEvent log n)
        else .next (removeEvent log n, c + 1)) else .ret log) := by
  obtain ⟨n, v, h1, h2⟩ := maxEntry_spec gt thr d hdn hc
  refine ⟨n, v, h2, ?_⟩
  have hl : ¬ log.traces.length = 0 := by simpa using hne
  simp only [directBody, hl, if_false, nextDirect, hd, bind, Except.bind, h1, pure, Except.pure]
  split
  · split <;> rfl
  · rfl

theorem runLoop_succ {S R : Type} (body : S → Except PyErr (Step S R)) (fuel : Nat) (s : S) :
    runLoop body (fuel + 1) s = match body s with
      | .error e => some (.error e)
      | .ok (.ret r) => some (.ok r)
      | .ok (.next s') => runLoop body fuel s' := rfl

/-- More fuel does not change a result. -/
theorem runLoop_mono {S R : Type} (body : S → Except PyErr (Step S R)) (fuel k : Nat) (s : S) (r : Except PyErr R)
    (h : runLoop body fuel s = some r) : runLoop body (fuel + k) s = some r := by
  induction fuel generalizing s with
  | zero => cases h
  | succ fuel ih =>
    rw [Nat.add_right_comm]
    rw [runLoop_succ] at h ⊢
    cases hb : body s with
    | error e => rw [hb] at h; exact h
    | ok x =>
      rw [hb] at h
      cases x with
      | ret r => exact h
      | next s' => exact ih s' h

/-- The direct filter performs a legal removal sequence and ends in one of the described ways. -/
theorem filterDirect_run (gt : M → M → Bool) (metric : Metric E M) (thr : M) (maxEvents : Int)
    (hg : GoodMetric gt thr metric) (fuel : Nat) : ∀ (log : Log E) (c : Nat), distinctNames log < fuel →
    (1 ≤ maxEvents → (c : Int) < maxEvents) →
    ∃ ns log' r, runLoop (directBody gt metric thr maxEvents) fuel (log, c) = some r ∧
      Removals gt metric thr log ns log' ∧ (1 ≤ maxEvents → ((c + ns.length : Nat) : Int) ≤ maxEvents) ∧
      DirectEnd gt metric thr maxEvents (c + ns.length) log' r := by
  induction fuel with
  | zero => intro log c h; omega
  | succ fuel ih =>
    intro log c hfuel hc0
    rw [runLoop_succ]
    by_cases hne : log.traces = []
    · refine ⟨[], log, .ok log, ?_, .nil log, fun h => (by have := hc0 h; simp; omega), .empty hne⟩
      simp [directBody, hne]
    · obtain ⟨d, hd, hwf, hk, hc⟩ := hg log
      by_cases hdn : d = []
      · subst hdn
        refine ⟨[], log, .error .valueError, ?_, .nil log, fun h => (by have := hc0 h; simp; omega), .noCandidate hne hd⟩
        have hl : ¬ log.traces.length = 0 := by simpa using hne
        simp only [directBody, hl, if_false, nextDirect, hd, bind, Except.bind, maxEntry]
      · obtain ⟨n, v, hm, hb⟩ := directBody_step gt metric thr maxEvents log c hne hd hc hdn
        rw [hb]
        by_cases hgt : gt v thr = true
        · by_cases hmax : ((c + 1 : Nat) : Int) = maxEvents
          · simp only [hgt, hmax, if_true]
            exact ⟨[n], removeEvent log n, _, rfl, .cons hne hd hm hgt (.nil _),
              fun _ => by simp only [List.length_singleton]; omega, .budget (by simp) (by simpa using hmax)⟩
          · simp only [hgt, hmax, if_true, if_false]
            have hlt := distinctNames_removeEvent log n (hk n hm.key)
            obtain ⟨ns, log', r, h1, h2, h3, h4⟩ := ih (removeEvent log n) (c + 1) (by omega)
              (fun h => by have := hc0 h; omega)
            refine ⟨n :: ns, log', r, h1, .cons hne hd hm hgt h2, ?_, ?_⟩
            · intro h; have := h3 h; simp only [List.length_cons]; omega
            · rw [List.length_cons, show c + (ns.length + 1) = c + 1 + ns.length by omega]; exact h4
        · simp only [hgt]
          refine ⟨[], log, .ok log, rfl, .nil log, fun h => (by have := hc0 h; simp; omega), .below hne hd hdn ?_⟩
          intro x hx
          by_contra hx2
          have hx2 : gt x.2 thr = true := by simpa using hx2
          rcases hc.neg x hx (n, v) hm.mem thr (.inl rfl) hx2 with h | h
          · have := hm.top hc x hx; simp only at h; rw [this] at h; cases h
          · exact hgt h

/-- A legal removal sequence within the budget is what the loop does. -/
theorem filterDirect_follows (gt : M → M → Bool) (metric : Metric E M) (thr : M) (maxEvents : Int)
    (hg : GoodMetric gt thr metric) {log log' : Log E} {ns : List String} (h : Removals gt metric thr log ns log')
    (fuel : Nat) (c : Nat) (hb : maxEvents ≤ 0 ∨ ((c + ns.length : Nat) : Int) < maxEvents) :
    runLoop (directBody gt metric thr maxEvents) (fuel + ns.length) (log, c) =
      runLoop (directBody gt metric thr maxEvents) fuel (log', c + ns.length) := by
  induction h generalizing c with
  | nil log => rfl
  | @cons log log' n ns d v h1 h2 h3 h4 h5 ih =>
    obtain ⟨d', hd', _, _, hc⟩ := hg log
    rw [h2] at hd'; cases hd'
    have hdn : d ≠ [] := by rintro rfl; simpa using h3.mem
    obtain ⟨n', v', hm, hbody⟩ := directBody_step gt metric thr maxEvents log c h1 h2 hc hdn
    obtain ⟨rfl, rfl⟩ := hm.unique h3
    rw [List.length_cons, ← Nat.add_assoc, runLoop_succ, hbody]
    simp only [List.length_cons] at hb
    rw [if_pos h4, if_neg (by omega)]
    simp only
    rw [ih (c + 1) (by omega)]
    congr 2; omega

theorem removeUntouchable_eq (untouchable : String → Bool) (d : Dict String M) :
    removeUntouchable untouchable d = d.filter (fun x => !untouchable x.1) := by
  unfold removeUntouchable
  have key : ∀ (ks : List String) (d : Dict String M),
      ks.foldl (fun d k => Dict.del d k) d = d.filter (fun x => decide (x.1 ∉ ks)) := by
    intro ks
    induction ks with
    | nil => intro d; simp
    | cons k ks ih =>
      intro d
      rw [List.foldl_cons, ih]
      unfold Dict.del
      rw [List.filter_filter]
      apply List.filter_congr
      intro x _
      by_cases h1 : x.1 = k <;> by_cases h2 : x.1 ∈ ks <;> simp [h1, h2]
  rw [key]
  apply List.filter_congr
  intro x hx
  have : x.1 ∈ d.keys := List.mem_map_of_mem hx
  by_cases h : untouchable x.1 <;> simp [h, this]

theorem _root_.Ficus.Spec.Comparable.sublist {gt : M → M → Bool} {thr : M} {d e : Dict String M} (h : Comparable gt thr d)
    (hs : ∀ x ∈ e, x ∈ d) : Comparable gt thr e where
  asymm x hx y hy := h.asymm x (hs x hx) y (hs y hy)
  neg x hx z hz b hb := h.neg x (hs x hx) z (hs z hz) b (hb.imp_right (fun ⟨y, hy, e⟩ => ⟨y, hs y hy, e⟩))

theorem _root_.Ficus.Spec.GoodMetric.touchable {gt : M → M → Bool} {thr : M} {metric : Metric E M} (h : GoodMetric gt thr metric)
    (untouchable : String → Bool) : GoodMetric gt thr (touchableMetric metric untouchable) := by
  intro log
  obtain ⟨d, hd, hwf, hk, hc⟩ := h log
  refine ⟨removeUntouchable untouchable d, by simp [touchableMetric, hd, Except.map], ?_, ?_, ?_⟩
  · rw [removeUntouchable_eq]
    unfold Dict.WF Dict.keys at *
    exact (List.filter_sublist.map _).nodup hwf
  · intro k hk'
    rw [removeUntouchable_eq] at hk'
    obtain ⟨x, hx, rfl⟩ := List.mem_map.1 hk'
    exact hk _ (List.mem_map_of_mem (List.mem_filter.1 hx).1)
  · apply hc.sublist
    intro x hx
    rw [removeUntouchable_eq] at hx
    exact (List.mem_filter.1 hx).1

end Ficus
