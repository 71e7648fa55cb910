import Verif.Proofs.RsReplay
import Verif.Proofs.Info
import Verif.Props.RsNet

/-! C116, C117: the replay of logs on nets and the annotations of nets. -/

namespace Ficus.Rs
open Spec
variable {E : Type} [HasName E]

theorem new_spec (initial : List (Nat × Nat)) (h : GoodMarking initial) :
    Pos (RState.new initial).marking ∧ tok (RState.new initial).marking = tokensOf initial := by
  suffices hg : ∀ (l : List (Nat × Nat)) (d : Dict Nat Nat), Pos d → (∀ p ∈ l, d.get? p.1 = none) → GoodMarking l →
      Pos (l.foldl (fun d p => d.set p.1 p.2) d) ∧
      tok (l.foldl (fun d p => d.set p.1 p.2) d) = fun p => tok d p + tokensOf l p by
    obtain ⟨h1, h2⟩ := hg initial [] (by intro p c hp; cases hp) (by intro p _; rfl) h
    exact ⟨h1, h2.trans (by funext p; simp [tok])⟩
  intro l
  induction l with
  | nil => intro d hd _ _; exact ⟨hd, by funext p; simp [tokensOf]⟩
  | cons x l ih =>
    intro d hd hn hgm
    obtain ⟨g1, g2⟩ := hgm
    rw [List.map_cons, List.nodup_cons] at g1
    obtain ⟨h1, h2⟩ := ih (d.set x.1 x.2) (by
      intro p c
      rw [Dict.get?_set]; split
      · rintro ⟨⟩; exact g2 x List.mem_cons_self
      · exact hd p c) (by
      intro p hp
      rw [Dict.get?_set]; split
      · rename_i he; exact absurd (List.mem_map.mpr ⟨p, hp, by simpa [eq_comm] using he⟩) g1.1
      · exact hn p (List.mem_cons_of_mem _ hp)) ⟨g1.2, fun p hp => g2 p (List.mem_cons_of_mem _ hp)⟩
    refine ⟨h1, h2.trans ?_⟩
    funext p
    have h0 : ∀ p, p ∉ l.map Prod.fst → tokensOf l p = 0 := by
      intro p hp
      unfold tokensOf
      rw [List.filter_eq_nil_iff.mpr (fun y hy => by
        simp only [decide_eq_true_eq]; rintro rfl; exact hp (List.mem_map_of_mem hy))]
      rfl
    unfold tok
    rw [Dict.get?_set]
    by_cases he : x.1 = p
    · subst he
      rw [hn x List.mem_cons_self, h0 _ g1.1]
      simp only [tokensOf, List.filter_cons, decide_true, if_true, List.map_cons, List.sum_cons]
      have := h0 _ g1.1
      unfold tokensOf at this
      rw [this]; simp
    · rw [if_neg (by simpa [eq_comm] using he)]
      simp [tokensOf, he]

theorem start_reached (net : Net) (initial : List (Nat × Nat)) (h : GoodMarking initial) (trace : List String) :
    Reached net (tokensOf initial) trace (0, RState.new initial) := by
  obtain ⟨h1, h2⟩ := new_spec initial h
  refine ⟨h1, Nat.zero_le _, [], ?_, by simp [visible], rfl, by simp⟩
  show Fires net _ _ (tok _)
  rw [h2]; exact .nil _

/-- C116a, partial as the replay may not end (C116c) and nets with two arcs from a place to a transition are left out: the replay never
panics. If it gives a state, then the fired transitions can fire one after the other from the marking,
their visible names are the trace, the marking of the state is the one after them, and no silent transition was fired at the end. If
it gives no state, then the trace cannot be replayed, whatever silent transitions are fired in between. -/
theorem C116_replay_partial (it : Iter) (net : Net) (hs : SingleArcs net) (initial : List (Nat × Nat)) (hm : GoodMarking initial)
    (fuel : Nat) (trace : List String) :
    replayTrace it net initial fuel trace ≠ .error .panic ∧
    (∀ s, replayTrace it net initial fuel trace = .ok (some s) → ∃ ts m', Fires net (tokensOf initial) ts m' ∧ visible ts = trace ∧
      s.fired = ts.map Trans.id ∧ (∀ p, (s.marking.get? p).getD 0 = m' p) ∧ ∀ t, ts.getLast? = some t → t.silent = false) ∧
    (replayTrace it net initial fuel trace = .ok none → ¬ Replayable net (tokensOf initial) trace) := by
  have h0 := start_reached net initial hm trace
  obtain ⟨h1, h2, h3⟩ := replayLoop_spec it hs fuel [(0, .new initial)] (by simpa using h0)
  refine ⟨h3, ?_, ?_⟩
  · intro s e
    obtain ⟨_, _, ts, k1, k2, k3, k4⟩ := h1 s e
    exact ⟨ts, _, k1, by simpa using k2, k3, fun _ => rfl, k4 rfl⟩
  · intro e hr
    refine h2 e _ List.mem_cons_self ?_
    unfold Alive
    rw [(new_spec initial hm).2]
    exact hr

/-- C116b: if silent transitions cannot fire forever, the replay always ends, and it gives a state exactly for the traces that can be
replayed. -/
theorem C116_replay_ends (it : Iter) (net : Net) (hs : SingleArcs net) (hns : SilentEnds net)
    (initial : List (Nat × Nat)) (hm : GoodMarking initial) (trace : List String) :
    ∃ n r, (∀ fuel ≥ n, replayTrace it net initial fuel trace = .ok r) ∧ (r.isSome = true ↔ Replayable net (tokensOf initial) trace) := by
  have h0 := start_reached net initial hm trace
  obtain ⟨n, hn⟩ := replay_ends it hs hns (m0 := tokensOf initial) (trace := trace) trace.length _ 0 (.new initial) h0 (by simp) rfl []
    ⟨1, by intro h; cases h⟩
  obtain ⟨g1, g2, g3⟩ := C116_replay_partial it net hs initial hm n trace
  cases e : replayTrace it net initial n trace with
  | error x =>
    cases x with
    | panic => exact absurd e g1
    | endless => exact absurd e hn
  | ok r =>
    refine ⟨n, r, ?_, ?_⟩
    · intro fuel hf
      obtain ⟨k, rfl⟩ := Nat.exists_eq_add_of_le hf
      rw [← e]
      exact fuel_mono it n _ hn k
    · cases r with
      | none => exact ⟨fun h => (by cases h), fun h => absurd h (g3 e)⟩
      | some s =>
        obtain ⟨ts, m', k1, k2, _⟩ := g2 s e
        exact ⟨fun _ => ⟨ts, m', k1, k2⟩, fun _ => rfl⟩

theorem silentEnds_of_none {net : Net} (h : ∀ t ∈ net.transitions, t.silent = false) : SilentEnds net := by
  refine ⟨fun m => ⟨m, ?_⟩⟩
  rintro m' ⟨t, ht, hs, _⟩
  rw [h t ht] at hs; cases hs

/-- A net with the silent transition `τ` from the start to a place before `b`. -/
def exSilent : Net :=
  { places := [⟨0, "p", none⟩, ⟨1, "q", none⟩, ⟨2, "r", none⟩]
    transitions := [⟨3, "a", false, [⟨6, 0⟩], [⟨7, 0⟩]⟩, ⟨4, "τ", true, [⟨8, 0⟩], [⟨9, 1⟩]⟩, ⟨5, "b", false, [⟨10, 1⟩], [⟨11, 2⟩]⟩]
    initial := some [(0, 1)], final := none }

theorem exSilent_ends : SilentEnds exSilent := by
  refine Subrelation.wf (r := InvImage (· < ·) (fun m : Tokens => m 0)) ?_ (InvImage.wf _ Nat.lt_wfRel.wf)
  rintro m' m ⟨t, ht, hs, he, rfl⟩
  simp only [exSilent, List.mem_cons, List.not_mem_nil, or_false] at ht
  rcases ht with rfl | rfl | rfl <;> simp at hs
  have := he 0
  simp only [needs, List.map_cons, List.map_nil, List.count_singleton_self] at this
  show after m _ 0 < m 0
  simp [after, needs, gives]
  omega

example : SingleArcs exSilent ∧ GoodMarking [(0, 1)] ∧
    replayTrace .plain exSilent [(0, 1)] 9 ["a", "a", "b"] = .ok (some ⟨[(2, 1)], [3, 3, 4, 5]⟩) ∧
    replayTrace .plain exSilent [(0, 1)] 9 ["b", "a"] = .ok none := by
  refine ⟨?_, by simp [GoodMarking], by decide +kernel, by decide +kernel⟩
  unfold SingleArcs exSilent; decide

/-- A net with a silent transition that gives back the token it takes. -/
def exEndless : Net :=
  { places := [⟨0, "p", none⟩], transitions := [⟨1, "τ", true, [⟨2, 0⟩], [⟨3, 0⟩]⟩], initial := some [(0, 1)], final := none }

/-- C116c: the replay does not end for some nets with silent transitions, also for traces that cannot be replayed. -/
theorem C116_endless : ∃ (net : Net) (initial : List (Nat × Nat)) (trace : List String), SingleArcs net ∧ GoodMarking initial ∧
    (∀ it fuel, replayTrace it net initial fuel trace = .error .endless) ∧ ¬ Replayable net (tokensOf initial) trace := by
  refine ⟨exEndless, [(0, 1)], ["x"], ?_, by simp [GoodMarking], ?_, ?_⟩
  · unfold SingleArcs exEndless; decide
  · intro it fuel
    have hc : candidates it exEndless "x" = [⟨1, "τ", true, [⟨2, 0⟩], [⟨3, 0⟩]⟩] := by
      unfold candidates
      rw [show it.order "transitions" 0 exEndless.transitions = exEndless.transitions from
        List.perm_singleton.mp (it.perm "transitions" 0 exEndless.transitions)]
      decide
    have key : ∀ fuel fired, replayLoop it exEndless ["x"] fuel [(0, ⟨[(0, 1)], fired⟩)] = .error .endless := by
      intro fuel
      induction fuel with
      | zero => intro _; rfl
      | succ fuel ih =>
        intro fired
        have hh : handleTransition it exEndless ⟨[(0, 1)], fired⟩ "x" = .ok [(false, ⟨[(0, 1)], fired ++ [1]⟩)] := by
          unfold handleTransition
          rw [hc]
          rfl
        unfold replayLoop
        simp only [List.getElem?_cons_zero, hh]
        exact ih _
    exact key fuel []
  · rintro ⟨ts, m', hf, hv⟩
    have : ∀ (ts : List Trans) (m m' : Tokens), Fires exEndless m ts m' → visible ts = [] := by
      intro ts m m' h
      induction h with
      | nil => rfl
      | cons ht _ _ ih =>
        simp only [exEndless, List.mem_singleton] at ht
        subst ht
        simpa [visible] using ih
    rw [this ts _ _ hf] at hv
    cases hv

/-! ### Annotations -/

theorem handleArc_eq (l : List Nat) (d : Dict Nat Nat) (a : Nat) :
    ((l.foldl handleArc d).get? a).getD 0 = (d.get? a).getD 0 + l.count a ∧
    ((l.foldl handleArc d).get? a = none ↔ d.get? a = none ∧ a ∉ l) ∧ (d.WF → (l.foldl handleArc d).WF) := by
  induction l generalizing d with
  | nil => simp
  | cons x l ih =>
    obtain ⟨h1, h2, h3⟩ := ih (handleArc d x)
    rw [List.foldl_cons, h1, h2]
    unfold handleArc at h3 ⊢
    refine ⟨?_, ?_, fun h => h3 (Dict.WF_set h _ _)⟩
    · rw [Dict.get?_set, List.count_cons]
      by_cases hx : x = a
      · subst hx; simp; omega
      · rw [if_neg (by simpa [eq_comm] using hx)]; simp [hx]
    · rw [Dict.get?_set, List.mem_cons]
      by_cases hx : x = a
      · subst hx; simp
      · rw [if_neg (by simpa [eq_comm] using hx)]
        simp [Ne.symm hx]

theorem arcsOf_spec {net : Net} (hd : (net.transitions.map Trans.id).Nodup) {t : Trans} (ht : t ∈ net.transitions) :
    arcsOf net t.id = .ok ((t.incoming ++ t.outgoing).map Arc.id) := by
  unfold arcsOf
  have : net.transitions.find? (fun u => decide (u.id = t.id)) = some t := by
    cases h : net.transitions.find? (fun u => decide (u.id = t.id)) with
    | none => have := List.find?_eq_none.mp h t ht; simp at this
    | some u =>
      have h1 := List.mem_of_find?_eq_some h
      have h2 := List.find?_some h
      rw [(List.nodup_map_iff_inj_on (List.Nodup.of_map _ hd)).mp hd u h1 t ht (by simpa using h2)]
  rw [this]

theorem arcs_count {net : Net} (hw : WellFormed net) {t : Trans} (ht : t ∈ net.transitions) {a : Arc} (ha : a ∈ t.incoming ++ t.outgoing)
    {u : Trans} (hu : u ∈ net.transitions) : (((u.incoming ++ u.outgoing).map Arc.id).count a.id = if u.id = t.id then 1 else 0) := by
  have hd := (List.nodup_append.mp hw.distinct).2.1
  have hi := (List.nodup_append.mp (List.nodup_append.mp hw.distinct).1).2.1
  have hinj := (List.nodup_map_iff_inj_on (List.Nodup.of_map _ hi)).mp hi
  rw [List.nodup_flatMap] at hd
  by_cases h : u.id = t.id
  · have := hinj u hu t ht h
    subst this
    rw [if_pos rfl]
    exact List.count_eq_one_of_mem (hd.1 u hu) (List.mem_map_of_mem ha)
  · rw [if_neg h, List.count_eq_zero]
    intro hm
    have hne : u ≠ t := fun e => h (e ▸ rfl)
    have : Std.Symm (Function.onFun List.Disjoint (fun t : Trans => (t.incoming ++ t.outgoing).map Arc.id)) :=
      ⟨fun _ _ h => List.Disjoint.symm h⟩
    exact hd.2.forall hu ht hne hm (List.mem_map_of_mem ha)

theorem annotateLoop_spec {net : Net} (hw : WellFormed net) (terminate : Bool) (states : List (Option RState))
    (hst : ∀ s, some s ∈ states → ∃ ts : List Trans, (∀ t ∈ ts, t ∈ net.transitions) ∧ s.fired = ts.map Trans.id) (d : Dict Nat Nat) (hd : d.WF) :
    (terminate = true ∧ none ∈ states → annotateLoop net terminate states d = .ok none) ∧
    (¬ (terminate = true ∧ none ∈ states) → ∃ d', annotateLoop net terminate states d = .ok (some d') ∧ d'.WF ∧
      (∀ t ∈ net.transitions, ∀ a ∈ t.incoming ++ t.outgoing,
        (d'.get? a.id).getD 0 = (d.get? a.id).getD 0 + (states.map (fun o => (o.map (fun s => s.fired.count t.id)).getD 0)).sum) ∧
      ∀ k, d'.get? k ≠ none ↔ d.get? k ≠ none ∨ ∃ s, some s ∈ states ∧ ∃ t ∈ net.transitions, t.id ∈ s.fired ∧
        k ∈ (t.incoming ++ t.outgoing).map Arc.id) := by
  have hi := (List.nodup_append.mp (List.nodup_append.mp hw.distinct).1).2.1
  induction states generalizing d with
  | nil =>
    refine ⟨fun h => by simp at h, fun _ => ⟨d, rfl, hd, by simp, by simp⟩⟩
  | cons o states ih =>
    have ih := ih (fun s hs => hst s (List.mem_cons_of_mem _ hs))
    cases o with
    | none =>
      unfold annotateLoop
      cases terminate with
      | true => exact ⟨fun _ => rfl, fun h => absurd ⟨rfl, List.mem_cons_self⟩ h⟩
      | false =>
        obtain ⟨d', e, w, h1, h2⟩ := (ih d hd).2 (by simp)
        refine ⟨fun h => by simp at h, fun _ => ⟨d', by simpa using e, w, ?_, ?_⟩⟩
        · intro t ht a ha; rw [h1 t ht a ha]; simp
        · intro k; rw [h2 k]; simp
    | some s =>
      obtain ⟨ts, hts, hfi⟩ := hst s List.mem_cons_self
      have hm : ∀ us : List Trans, (∀ t ∈ us, t ∈ net.transitions) →
          (us.map Trans.id).mapM (arcsOf net) = .ok (us.map (fun t => (t.incoming ++ t.outgoing).map Arc.id)) := by
        intro us hus
        induction us with
        | nil => rfl
        | cons u us ihu =>
          rw [List.map_cons, List.mapM_cons, arcsOf_spec hi (hus u List.mem_cons_self),
            ihu (fun t ht => hus t (List.mem_cons_of_mem _ ht))]
          rfl
      unfold annotateLoop
      rw [hfi, hm ts hts]
      simp only
      obtain ⟨k1, k2⟩ := ih (((ts.map (fun t => (t.incoming ++ t.outgoing).map Arc.id)).flatten).foldl handleArc d)
        ((handleArc_eq _ d 0).2.2 hd)
      refine ⟨fun h => k1 ⟨h.1, by simpa using h.2⟩, fun h => ?_⟩
      obtain ⟨d', e, w, h1, h2⟩ := k2 (fun h' => h ⟨h'.1, List.mem_cons_of_mem _ h'.2⟩)
      refine ⟨d', e, w, ?_, ?_⟩
      · intro t ht a ha
        rw [h1 t ht a ha, (handleArc_eq _ d a.id).1]
        simp only [List.map_cons, List.sum_cons, Option.map_some, Option.getD_some]
        have hc : ((ts.map (fun t => (t.incoming ++ t.outgoing).map Arc.id)).flatten).count a.id = (ts.map Trans.id).count t.id := by
          clear hfi e hm k1 k2 h2 h1
          induction ts with
          | nil => rfl
          | cons u ts iht =>
            rw [List.map_cons, List.flatten_cons, List.count_append, arcs_count hw ht ha (hts u List.mem_cons_self),
              iht (fun t ht => hts t (List.mem_cons_of_mem _ ht)), List.map_cons, List.count_cons]
            simp only [beq_iff_eq]
            omega
        rw [hc, hfi]
        omega
      · intro k
        rw [h2 k, Ne, (handleArc_eq _ d k).2.1, not_and_or, not_not]
        constructor
        · rintro ((h | h) | ⟨s', hs', h⟩)
          · exact Or.inl h
          · rw [List.mem_flatten] at h
            obtain ⟨l, hl, hk⟩ := h
            obtain ⟨t, ht, rfl⟩ := List.mem_map.mp hl
            exact Or.inr ⟨s, List.mem_cons_self, t, hts t ht, by rw [hfi]; exact List.mem_map_of_mem ht, hk⟩
          · exact Or.inr ⟨s', List.mem_cons_of_mem _ hs', h⟩
        · rintro (h | ⟨s', hs', t, ht, hf, hk⟩)
          · exact Or.inl (Or.inl h)
          · rcases List.mem_cons.mp hs' with he | hs'
            · cases he
              refine Or.inl (Or.inr ?_)
              rw [hfi] at hf
              obtain ⟨u, hu, he⟩ := List.mem_map.mp hf
              have := (List.nodup_map_iff_inj_on (List.Nodup.of_map _ hi)).mp hi u (hts u hu) t ht he
              subst this
              exact List.mem_flatten.mpr ⟨_, List.mem_map_of_mem hu, hk⟩
            · exact Or.inr ⟨s', hs', t, ht, hf, hk⟩

theorem fires_mem {net : Net} {m m' : Tokens} {ts : List Trans} (h : Fires net m ts m') : ∀ t ∈ ts, t ∈ net.transitions := by
  induction h with
  | nil => simp
  | cons ht _ _ ih =>
    intro u hu
    rcases List.mem_cons.mp hu with rfl | hu
    · exact ht
    · exact ih u hu

/-- The result of the replay of a trace: a firing sequence for it, or nothing if there is none. -/
def RunOf (net : Net) (m : Tokens) (w : List String) (o : Option (List Trans)) : Prop :=
  (o = none → ¬ Replayable net m w) ∧ ∀ ts, o = some ts → ∃ m', Fires net m ts m' ∧ visible ts = w

theorem replay_all (it : Iter) (net : Net) (hs : SingleArcs net) (hns : SilentEnds net) (initial : List (Nat × Nat))
    (hm : GoodMarking initial) (log : List (List E)) :
    ∃ n states runs, (∀ fuel ≥ n, log.mapM (fun t => replayTrace it net initial fuel (t.map name)) = .ok states) ∧
      states.map (fun o => o.map RState.fired) = runs.map (fun o => o.map (fun ts => ts.map Trans.id)) ∧
      List.Forall₂ (RunOf net (tokensOf initial)) (namesOf log) runs := by
  induction log with
  | nil => exact ⟨0, [], [], fun _ _ => rfl, rfl, .nil⟩
  | cons t log ih =>
    obtain ⟨n, states, runs, h1, h2, h3⟩ := ih
    obtain ⟨n0, r, k1, k2⟩ := C116_replay_ends it net hs hns initial hm (t.map name)
    obtain ⟨_, g2, g3⟩ := C116_replay_partial it net hs initial hm n0 (t.map name)
    have e0 := k1 n0 le_rfl
    have hrun : ∃ o, r.map RState.fired = o.map (fun ts => ts.map Trans.id) ∧ RunOf net (tokensOf initial) (t.map name) o := by
      cases r with
      | none => exact ⟨none, rfl, fun _ => g3 e0, fun ts h => by cases h⟩
      | some s =>
        obtain ⟨ts, m', f1, f2, f3, _⟩ := g2 s e0
        exact ⟨some ts, by simp [f3], fun h => (by cases h), fun ts' h => by cases h; exact ⟨m', f1, f2⟩⟩
    obtain ⟨o, ho, hro⟩ := hrun
    refine ⟨max n n0, r :: states, o :: runs, ?_, ?_, .cons hro h3⟩
    · intro fuel hf
      rw [List.mapM_cons, k1 fuel (le_trans (le_max_right _ _) hf), h1 fuel (le_trans (le_max_left _ _) hf)]
      rfl
    · rw [List.map_cons, List.map_cons, ho, h2]

/-- C117a: the count of an arc is the number of times that its transition fires in the replay of the traces that can be replayed; the
arcs without a count are those whose transition never fires. There is no annotation exactly if a trace cannot be replayed and this
is not allowed. -/
theorem C117_counts (it : Iter) (net : Net) (hw : WellFormed net) (hs : SingleArcs net) (hns : SilentEnds net) (initial : List (Nat × Nat))
    (hi : net.initial = some initial) (hm : GoodMarking initial) (terminate : Bool) (log : List (List E)) :
    ∃ n runs, List.Forall₂ (RunOf net (tokensOf initial)) (namesOf log) runs ∧
      (terminate = true ∧ none ∈ runs → ∀ fuel ≥ n, annotateCounts it net fuel terminate log = .ok none) ∧
      (¬ (terminate = true ∧ none ∈ runs) → ∃ d, (∀ fuel ≥ n, annotateCounts it net fuel terminate log = .ok (some d)) ∧ d.WF ∧
        (∀ t ∈ net.transitions, ∀ a ∈ t.incoming ++ t.outgoing,
          (d.get? a.id).getD 0 = (runs.map (fun o => (o.getD []).count t)).sum) ∧
        ∀ k, k ∈ d.keys ↔ ∃ ts, some ts ∈ runs ∧ ∃ t ∈ ts, k ∈ (t.incoming ++ t.outgoing).map Arc.id) := by
  obtain ⟨n, states, runs, h1, h2, h3⟩ := replay_all it net hs hns initial hm log
  have hid := (List.nodup_append.mp (List.nodup_append.mp hw.distinct).1).2.1
  have hinj := (List.nodup_map_iff_inj_on (List.Nodup.of_map _ hid)).mp hid
  have hmem : ∀ ts, some ts ∈ runs → ∀ t ∈ ts, t ∈ net.transitions := by
    intro ts hts
    obtain ⟨hl, hg⟩ := List.forall₂_iff_get.mp h3
    obtain ⟨i, hlt, he⟩ := List.getElem_of_mem hts
    obtain ⟨m', hf, _⟩ := (hg i (by omega) hlt).2 ts (by simpa using he)
    exact fires_mem hf
  have hlen : states.length = runs.length := by simpa using congrArg List.length h2
  have hget : ∀ i (h : i < states.length), (states[i]).map RState.fired = (runs[i]'(hlen ▸ h)).map (fun ts => ts.map Trans.id) := by
    intro i h
    have := congrArg (fun l => l[i]?) h2
    simpa [h, hlen ▸ h] using this
  have hst : ∀ s, some s ∈ states → ∃ ts : List Trans, some ts ∈ runs ∧ s.fired = ts.map Trans.id := by
    intro s hs
    obtain ⟨i, hlt, he⟩ := List.getElem_of_mem hs
    have := hget i hlt
    rw [he] at this
    obtain ⟨ts, e1, e2⟩ := Option.map_eq_some_iff.mp this.symm
    exact ⟨ts, e1 ▸ List.getElem_mem _, e2.symm⟩
  have hnone : none ∈ states ↔ none ∈ runs := by
    constructor
    · intro h
      obtain ⟨i, hlt, he⟩ := List.getElem_of_mem h
      have := hget i hlt
      rw [he] at this
      have e := Option.map_eq_none_iff.mp this.symm
      exact e ▸ List.getElem_mem _
    · intro h
      obtain ⟨i, hlt, he⟩ := List.getElem_of_mem h
      have := hget i (by omega)
      rw [he] at this
      have e := Option.map_eq_none_iff.mp this
      exact e ▸ List.getElem_mem _
  obtain ⟨k1, k2⟩ := annotateLoop_spec hw terminate states (fun s hs => by
    obtain ⟨ts, e1, e2⟩ := hst s hs; exact ⟨ts, hmem ts e1, e2⟩) [] Dict.WF_nil
  have hann : ∀ fuel ≥ n, annotateCounts it net fuel terminate log = annotateLoop net terminate states [] := by
    intro fuel hf
    unfold annotateCounts replayNet
    rw [hi]
    simp only [h1 fuel hf]
    rfl
  refine ⟨n, runs, h3, ?_, ?_⟩
  · intro h fuel hf
    rw [hann fuel hf]; exact k1 ⟨h.1, hnone.mpr h.2⟩
  · intro h
    obtain ⟨d, e, w, g1, g2⟩ := k2 (fun h' => h ⟨h'.1, hnone.mp h'.2⟩)
    refine ⟨d, fun fuel hf => (hann fuel hf).trans e, w, ?_, ?_⟩
    · intro t ht a ha
      rw [g1 t ht a ha]
      have : states.map (fun o => (o.map (fun s => s.fired.count t.id)).getD 0) = runs.map (fun o => (o.getD []).count t) := by
        refine List.ext_getElem (by simp [hlen]) (fun i hi1 hi2 => ?_)
        simp only [List.length_map] at hi1 hi2
        rw [List.getElem_map, List.getElem_map]
        have hg := hget i hi1
        have hr : ∀ ts, runs[i] = some ts → ts.count t = (ts.map Trans.id).count t.id := by
          intro ts hts
          have hin : ∀ u ∈ ts, u ∈ net.transitions := hmem ts (hts ▸ List.getElem_mem hi2)
          clear hts
          induction ts with
          | nil => rfl
          | cons u ts iht =>
            rw [List.map_cons, List.count_cons, List.count_cons, iht (fun v hv => hin v (List.mem_cons_of_mem _ hv))]
            congr 1
            have := hinj u (hin u List.mem_cons_self) t ht
            by_cases hu : u = t
            · simp [hu]
            · have : u.id ≠ t.id := fun he => hu (this he)
              simp [hu, this]
        cases hs : states[i] with
        | none =>
          rw [hs] at hg
          rw [Option.map_eq_none_iff.mp hg.symm]; rfl
        | some s =>
          rw [hs] at hg
          obtain ⟨ts, e1, e2⟩ := Option.map_eq_some_iff.mp hg.symm
          rw [e1]
          simp only [Option.map_some, Option.getD_some]
          rw [hr ts e1, e2]
      rw [this]
      simp
    · intro k
      have : k ∈ d.keys ↔ d.get? k ≠ none := by rw [Ne, Dict.get?_eq_none_iff, not_not]
      rw [this, g2 k]
      constructor
      · rintro (h | ⟨s, hs, t, ht, hf, hk⟩)
        · simp at h
        · obtain ⟨ts, e1, e2⟩ := hst s hs
          rw [e2] at hf
          obtain ⟨u, hu, he⟩ := List.mem_map.mp hf
          have := hinj u (hmem ts e1 u hu) t ht he
          subst this
          exact ⟨ts, e1, u, hu, hk⟩
      · rintro ⟨ts, hts, t, ht, hk⟩
        obtain ⟨i, hlt, he⟩ := List.getElem_of_mem hts
        have hg := hget i (by omega)
        rw [he] at hg
        obtain ⟨s, e1, e2⟩ := Option.map_eq_some_iff.mp hg
        exact Or.inr ⟨s, e1 ▸ List.getElem_mem _, t, hmem ts hts t ht, by rw [e2]; exact List.mem_map_of_mem ht, hk⟩

/-- C117b: without an initial marking there is no annotation, unless the log is empty. -/
theorem C117_no_marking (it : Iter) (net : Net) (hi : net.initial = none) (fuel : Nat) (terminate : Bool) (log : List (List E)) :
    annotateCounts it net fuel terminate log = .ok (if log = [] then some [] else none) := by
  unfold annotateCounts replayNet
  rw [hi]
  cases log <;> rfl

/-- C117c: the frequencies are the counts divided by their sum, they lie between 0 and 1 and add up to 1 if there is any; the
frequencies of traces are the counts divided by the number of traces. -/
theorem C117_frequencies (it : Iter) (net : Net) (fuel : Nat) (terminate : Bool) (log : List (List E)) (d : Dict Nat Nat)
    (h : annotateCounts it net fuel terminate log = .ok (some d)) :
    ∃ f g, annotateFrequencies it net fuel terminate log = .ok (some f) ∧ annotateTraceFrequencies it net fuel terminate log = .ok (some g) ∧
      f.keys = d.keys ∧ g.keys = d.keys ∧
      (∀ k, f.get? k = (d.get? k).map (fun c : Nat => (c : ℚ) / ((d.map Prod.snd).sum : Nat))) ∧
      (∀ k, g.get? k = (d.get? k).map (fun c : Nat => (c : ℚ) / log.length)) ∧
      (0 < (d.map Prod.snd).sum → (f.map Prod.snd).sum = 1) ∧ ∀ k q, (k, q) ∈ f → 0 ≤ q ∧ q ≤ 1 := by
  have key : ∀ (φ : Nat → ℚ) (d : Dict Nat Nat), Dict.keys (d.map (fun p => (p.1, φ p.2))) = d.keys ∧
      ∀ k, Dict.get? (d.map (fun p => (p.1, φ p.2))) k = (d.get? k).map φ := by
    intro φ d
    induction d with
    | nil => exact ⟨rfl, fun _ => rfl⟩
    | cons p d ih =>
      refine ⟨by simp only [Dict.keys, List.map_cons, List.map_map] at ih ⊢; rw [ih.1], fun k => ?_⟩
      have e1 : Dict.get? ((p :: d).map (fun p => (p.1, φ p.2))) k = if p.1 = k then some (φ p.2) else Dict.get? (d.map (fun p => (p.1, φ p.2))) k :=
        Dict.get?_cons _ _ _ _
      have e2 : Dict.get? (p :: d) k = if p.1 = k then some p.2 else Dict.get? d k := Dict.get?_cons _ _ _ _
      rw [e1, e2]
      split
      · rfl
      · exact ih.2 k
  refine ⟨_, _, by unfold annotateFrequencies; rw [h]; rfl, by unfold annotateTraceFrequencies; rw [h]; rfl,
    (key (fun c => (c : ℚ) / ((d.map Prod.snd).sum : Nat)) d).1, (key (fun c => (c : ℚ) / log.length) d).1,
    (key (fun c => (c : ℚ) / ((d.map Prod.snd).sum : Nat)) d).2, (key (fun c => (c : ℚ) / log.length) d).2, ?_, ?_⟩
  · intro hp
    have : ∀ (l : List (Nat × Nat)) (n : ℚ), ((l.map (fun p => (p.1, (p.2 : ℚ) / n))).map Prod.snd).sum = (((l.map Prod.snd).sum : Nat) : ℚ) / n := by
      intro l n
      induction l with
      | nil => simp
      | cons p l ih => simp only [List.map_cons, List.sum_cons, ih]; push_cast; ring
    rw [this]
    exact div_self (by exact_mod_cast Nat.pos_iff_ne_zero.mp hp)
  · intro k q hq
    obtain ⟨p, hp, he⟩ := List.mem_map.mp hq
    cases he
    have hle : p.2 ≤ (d.map Prod.snd).sum := List.le_sum_of_mem (List.mem_map_of_mem hp)
    refine ⟨by positivity, ?_⟩
    exact div_le_one_of_le₀ (by exact_mod_cast hle) (by positivity)

/-- C117d: in a net without silent transitions whose transitions have different names, as those of the alpha algorithms, the count of
an arc of the transition of a class is the number of events of the class in the traces that can be replayed. -/
theorem C117_class_counts (it : Iter) (net : Net) (hw : WellFormed net) (hs : SingleArcs net)
    (hns : ∀ t ∈ net.transitions, t.silent = false) (hn : (net.transitions.map Trans.name).Nodup) (initial : List (Nat × Nat))
    (hi : net.initial = some initial) (hm : GoodMarking initial) (log : List (List E)) :
    ∃ n d, (∀ fuel ≥ n, annotateCounts it net fuel false log = .ok (some d)) ∧
      ∀ t ∈ net.transitions, ∀ a ∈ t.incoming ++ t.outgoing, ∀ replayed : List String → Bool,
        (∀ w, replayed w = true ↔ Replayable net (tokensOf initial) w) →
        (d.get? a.id).getD 0 = (((namesOf log).filter replayed).map (fun w => w.count t.name)).sum := by
  obtain ⟨n, runs, h1, hx3, h3⟩ := C117_counts it net hw hs (silentEnds_of_none hns) initial hi hm false log
  obtain ⟨d, e, hx1, g1, hx2⟩ := h3 (by simp)
  refine ⟨n, d, e, ?_⟩
  intro t ht a ha replayed hr
  rw [g1 t ht a ha]
  have hinj := (List.nodup_map_iff_inj_on (List.Nodup.of_map _ hn)).mp hn
  have hcount : ∀ ts : List Trans, (∀ u ∈ ts, u ∈ net.transitions) → ts.count t = (visible ts).count t.name := by
    intro ts
    induction ts with
    | nil => intro _; rfl
    | cons u ts ih =>
      intro hts
      have hu := hts u List.mem_cons_self
      have : visible (u :: ts) = u.name :: visible ts := by simp [visible, hns u hu]
      rw [this, List.count_cons, List.count_cons, ih (fun v hv => hts v (List.mem_cons_of_mem _ hv))]
      congr 1
      by_cases he : u = t
      · simp [he]
      · have : u.name ≠ t.name := fun h => he (hinj u hu t ht h)
        simp [he, this]
  clear e g1 h3 hx1 hx2 hx3
  generalize hL : namesOf log = L at h1 ⊢
  clear hL
  induction h1 with
  | nil => rfl
  | @cons w o L runs hro _ ih =>
    rw [List.map_cons, List.sum_cons, ih, List.filter_cons]
    cases o with
    | none =>
      have : replayed w = false := by
        rw [Bool.eq_false_iff, Ne, hr]; exact hro.1 rfl
      rw [this]; simp
    | some ts =>
      obtain ⟨m', hf, hv⟩ := hro.2 ts rfl
      have : replayed w = true := (hr w).mpr ⟨ts, m', hf, hv⟩
      rw [this]
      simp only [if_true, List.map_cons, List.sum_cons, Option.getD_some]
      rw [hcount ts (fires_mem hf), hv]

theorem alpha_single {first last : String → Prop} {net : Net} (hw : WellFormed net) (hc : ∀ t ∈ net.transitions, Connected first last net t) :
    SingleArcs net := by
  intro t ht
  rw [List.nodup_iff_count_le_one]
  intro p
  by_cases hp : p ∈ t.incoming.map Arc.place
  · obtain ⟨a, ha, rfl⟩ := List.mem_map.mp hp
    obtain ⟨q, hq, he⟩ := hw.closed t ht a (List.mem_append_left _ ha)
    have hcq := (hc t ht).2 q hq
    rw [← he]
    by_cases h : ComesAfter first q t.name
    · exact le_of_eq (hcq.1 h)
    · have := hcq.2.1 h
      unfold arcsInto at this
      omega
  · rw [List.count_eq_zero.mpr hp]; omega

/-- C117e: for the net of the alpha algorithm of any log, the annotation with counts always exists, and the count of an arc of a class
is the number of its events in the traces that the net can replay. -/
theorem C117_alpha_counts (it : Iter) (hash : List String → Nat) (next : Nat) (log : List (List E))
    (hh : TellsApart hash (namesOf log).flatten.dedup) (fuel : Nat) (hf : (namesOf log).flatten.dedup.length < fuel)
    {E' : Type} [HasName E'] (log' : List (List E')) :
    ∃ s initial n d, discoverAlpha it hash fuel next log = some s ∧ s.net.initial = some initial ∧
      (∀ fuel ≥ n, annotateCounts it s.net fuel false log' = .ok (some d)) ∧
      ∀ t ∈ s.net.transitions, ∀ a ∈ t.incoming ++ t.outgoing, ∀ replayed : List String → Bool,
        (∀ w, replayed w = true ↔ Replayable s.net (tokensOf initial) w) →
        (d.get? a.id).getD 0 = (((namesOf log').filter replayed).map (fun w => w.count t.name)).sum := by
  obtain ⟨s, sets, h1, h2, _, _, _, _, h4, h5, st, _, en, _, _, _, h6, _⟩ := C113_alpha_net it hash next log hh fuel hf
  have hn : (s.net.transitions.map Trans.name).Nodup := h4.nodup_iff.mpr (List.nodup_dedup _)
  obtain ⟨n, d, e1, e2⟩ := C117_class_counts it s.net h2 (alpha_single h2 h5) (fun t ht => (h5 t ht).1) hn [(st.id, 1)] h6
    (by simp [GoodMarking]) log'
  exact ⟨s, _, n, d, h1, h6, e1, e2⟩

/-- In the log of the example and one more trace that does not fit, `b` and `c` occur twice and `e` once in the traces that fit; with
the option to stop at a trace that does not fit there is no annotation. -/
example : (discoverAlpha .plain exHash 6 0 exAlpha).map (fun s => s.net.transitions.map (fun t => (t.name, (t.incoming ++ t.outgoing).map Arc.id))) =
      some [("a", [22, 6, 10]), ("b", [7, 14]), ("c", [11, 18]), ("d", [16, 20, 24]), ("e", [8, 12, 15, 19])] ∧
    (discoverAlpha .plain exHash 6 0 exAlpha).bind (fun s => (annotateCounts .plain s.net 40 false (exAlpha ++ [["a", "x"]])).toOption) =
      some (some [(22, 3), (6, 3), (10, 3), (7, 2), (14, 2), (11, 2), (18, 2), (16, 3), (20, 3), (24, 3), (8, 1), (12, 1), (15, 1), (19, 1)]) ∧
    (discoverAlpha .plain exHash 6 0 exAlpha).bind (fun s => (annotateCounts .plain s.net 40 true (exAlpha ++ [["a", "x"]])).toOption) =
      some none := by
  decide +kernel

end Ficus.Rs
