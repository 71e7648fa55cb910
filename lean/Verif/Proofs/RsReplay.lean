import Verif.Model.RsReplay
import Verif.Spec.RsReplay
import Verif.Proofs.Dict

/-! The states of the replay are firing sequences. -/

namespace Ficus.Rs
open Spec

/-- The tokens of a map. -/
def tok (d : Dict Nat Nat) : Tokens := fun p => (d.get? p).getD 0

/-- Maps without zeros. -/
def Pos (d : Dict Nat Nat) : Prop := ∀ p c, d.get? p = some c → 0 < c

theorem pos_iff {d : Dict Nat Nat} (h : Pos d) (p : Nat) : d.contains p = true ↔ 0 < tok d p := by
  unfold Dict.contains tok
  cases hg : d.get? p with
  | none => simp
  | some c => simpa using h p c hg

theorem consumeArc_spec {d : Dict Nat Nat} (h : Pos d) (a : Arc) (hp : 0 < tok d a.place) :
    ∃ d', consumeArc d a = .ok d' ∧ Pos d' ∧ tok d' = fun p => tok d p - (if a.place = p then 1 else 0) := by
  unfold consumeArc
  cases hg : d.get? a.place with
  | none => simp [tok, hg] at hp
  | some c =>
    cases c with
    | zero => simp [tok, hg] at hp
    | succ c =>
      refine ⟨_, rfl, ?_, ?_⟩
      · intro p n
        split
        · rw [Dict.get?_del]; split
          · intro h'; cases h'
          · exact h p n
        · rename_i hc
          rw [Dict.get?_set]; split
          · rintro ⟨⟩; omega
          · exact h p n
      · funext p
        unfold tok
        split
        · rename_i hc
          rw [Dict.get?_del]
          by_cases he : a.place = p
          · subst he; simp [hg, hc]
          · rw [if_neg (by simpa [eq_comm] using he), if_neg he]; simp
        · rw [Dict.get?_set]
          by_cases he : a.place = p
          · subst he; simp [hg]
          · rw [if_neg (by simpa [eq_comm] using he), if_neg he]; simp

theorem produceArc_spec {d : Dict Nat Nat} (h : Pos d) (a : Arc) :
    Pos (produceArc d a) ∧ tok (produceArc d a) = fun p => tok d p + (if a.place = p then 1 else 0) := by
  unfold produceArc
  cases hg : d.get? a.place with
  | none =>
    simp only
    refine ⟨?_, ?_⟩
    · intro p n
      rw [Dict.get?_set]; split
      · rintro ⟨⟩; omega
      · exact h p n
    · funext p
      unfold tok
      rw [Dict.get?_set]
      by_cases he : a.place = p
      · subst he; simp [hg]
      · rw [if_neg (by simpa [eq_comm] using he), if_neg he]; simp
  | some c =>
    simp only
    refine ⟨?_, ?_⟩
    · intro p n
      rw [Dict.get?_set]; split
      · rintro ⟨⟩; omega
      · exact h p n
    · funext p
      unfold tok
      rw [Dict.get?_set]
      by_cases he : a.place = p
      · subst he; simp [hg]
      · rw [if_neg (by simpa [eq_comm] using he), if_neg he]; simp

theorem consume_spec (arcs : List Arc) {d : Dict Nat Nat} (h : Pos d) (hp : ∀ p, (arcs.map Arc.place).count p ≤ tok d p) :
    ∃ d', arcs.foldlM consumeArc d = .ok d' ∧ Pos d' ∧ tok d' = fun p => tok d p - (arcs.map Arc.place).count p := by
  induction arcs generalizing d with
  | nil => exact ⟨d, rfl, h, by simp⟩
  | cons a arcs ih =>
    have h0 := hp a.place
    simp only [List.map_cons, List.count_cons_self] at h0
    obtain ⟨d1, e1, p1, t1⟩ := consumeArc_spec h a (by omega)
    obtain ⟨d2, e2, p2, t2⟩ := ih p1 (fun p => by
      have := hp p
      rw [t1]
      simp only [List.map_cons, List.count_cons, beq_iff_eq] at this
      split at this <;> (simp_all; try omega))
    refine ⟨d2, ?_, p2, ?_⟩
    · rw [List.foldlM_cons, e1]; exact e2
    · rw [t2, t1]
      funext p
      simp only [List.map_cons, List.count_cons, beq_iff_eq]
      omega

theorem produce_spec (arcs : List Arc) {d : Dict Nat Nat} (h : Pos d) :
    Pos (arcs.foldl produceArc d) ∧ tok (arcs.foldl produceArc d) = fun p => tok d p + (arcs.map Arc.place).count p := by
  induction arcs generalizing d with
  | nil => exact ⟨h, by simp⟩
  | cons a arcs ih =>
    obtain ⟨p1, t1⟩ := produceArc_spec h a
    obtain ⟨p2, t2⟩ := ih p1
    refine ⟨p2, ?_⟩
    rw [List.foldl_cons, t2, t1]
    funext p
    simp only [List.map_cons, List.count_cons, beq_iff_eq]
    omega

theorem canFire_iff {d : Dict Nat Nat} (h : Pos d) {t : Trans} (hn : (t.incoming.map Arc.place).Nodup) :
    canFire d t = true ↔ Enabled (tok d) t := by
  unfold canFire Enabled needs
  simp only [List.all_eq_true, pos_iff h]
  constructor
  · intro hc p
    by_cases hp : p ∈ t.incoming.map Arc.place
    · obtain ⟨a, ha, rfl⟩ := List.mem_map.mp hp
      rw [List.count_eq_one_of_mem hn hp]
      exact hc a ha
    · rw [List.count_eq_zero.mpr hp]; omega
  · intro hc a ha
    have := hc a.place
    rw [List.count_eq_one_of_mem hn (List.mem_map_of_mem ha)] at this
    exact this

theorem fire_spec {s : RState} (h : Pos s.marking) {t : Trans} (he : Enabled (tok s.marking) t) :
    ∃ s', fireTransition s t = .ok s' ∧ Pos s'.marking ∧ tok s'.marking = after (tok s.marking) t ∧ s'.fired = s.fired ++ [t.id] := by
  obtain ⟨d, e, p1, t1⟩ := consume_spec t.incoming h he
  obtain ⟨p2, t2⟩ := produce_spec t.outgoing p1
  refine ⟨⟨t.outgoing.foldl produceArc d, s.fired ++ [t.id]⟩, ?_, p2, ?_, rfl⟩
  · unfold fireTransition; rw [e]; rfl
  · rw [t2, t1]; rfl

theorem mem_candidates (it : Iter) (net : Net) (symbol : String) (t : Trans) :
    t ∈ candidates it net symbol ↔ t ∈ net.transitions ∧ (t.name = symbol ∨ t.silent = true) := by
  unfold candidates
  simp only [List.mem_append, List.mem_filter, (it.perm _ _ _).mem_iff, decide_eq_true_eq]
  tauto

/-- A list of results. -/
theorem mapM_except {α β ε : Type} (f : α → Except ε β) (l : List α) (h : ∀ x ∈ l, ∃ y, f x = .ok y) :
    ∃ r, l.mapM f = .ok r ∧ r.length = l.length ∧ (∀ y ∈ r, ∃ x ∈ l, f x = .ok y) ∧ ∀ x ∈ l, ∃ y ∈ r, f x = .ok y := by
  induction l with
  | nil => exact ⟨[], rfl, rfl, by simp, by simp⟩
  | cons x l ih =>
    obtain ⟨r, e, e', h1, h2⟩ := ih (fun y hy => h y (List.mem_cons_of_mem _ hy))
    obtain ⟨y, hy⟩ := h x List.mem_cons_self
    refine ⟨y :: r, ?_, by simp [e'], ?_, ?_⟩
    · rw [List.mapM_cons, hy, e]; rfl
    · intro z hz
      rcases List.mem_cons.mp hz with rfl | hz
      · exact ⟨x, by simp, hy⟩
      · obtain ⟨w, hw, e⟩ := h1 z hz; exact ⟨w, by simp [hw], e⟩
    · intro z hz
      rcases List.mem_cons.mp hz with rfl | hz
      · exact ⟨y, by simp, hy⟩
      · obtain ⟨w, hw, e⟩ := h2 z hz; exact ⟨w, by simp [hw], e⟩

/-- The successors of a state. -/
theorem handle_spec (it : Iter) {net : Net} (hs : SingleArcs net) {s : RState} (h : Pos s.marking) (symbol : String) :
    ∃ new, handleTransition it net s symbol = .ok new ∧
      (∀ b s', (b, s') ∈ new → ∃ t ∈ net.transitions, (t.name = symbol ∨ t.silent = true) ∧ Enabled (tok s.marking) t ∧ b = !t.silent ∧
        Pos s'.marking ∧ tok s'.marking = after (tok s.marking) t ∧ s'.fired = s.fired ++ [t.id]) ∧
      (∀ t ∈ net.transitions, (t.name = symbol ∨ t.silent = true) → Enabled (tok s.marking) t → ∃ s', (!t.silent, s') ∈ new ∧
        Pos s'.marking ∧ tok s'.marking = after (tok s.marking) t ∧ s'.fired = s.fired ++ [t.id]) := by
  have hmem : ∀ t, t ∈ (candidates it net symbol).filter (canFire s.marking) ↔
      t ∈ net.transitions ∧ (t.name = symbol ∨ t.silent = true) ∧ Enabled (tok s.marking) t := by
    intro t
    rw [List.mem_filter, mem_candidates, and_assoc]
    refine and_congr_right (fun ht => and_congr_right (fun _ => canFire_iff h (hs t ht)))
  obtain ⟨r, e, _, h1, h2⟩ := mapM_except (fun t => (fireTransition s t).map (fun s' => (!t.silent, s')))
    ((candidates it net symbol).filter (canFire s.marking)) (fun t ht => by
      obtain ⟨s', es, _⟩ := fire_spec h ((hmem t).mp ht).2.2
      exact ⟨(!t.silent, s'), by simp only [es]; rfl⟩)
  refine ⟨r, e, ?_, ?_⟩
  · intro b s' hb
    obtain ⟨t, ht, et⟩ := h1 _ hb
    obtain ⟨k1, k2, k3⟩ := (hmem t).mp ht
    obtain ⟨s'', es, p1, p2, p3⟩ := fire_spec h k3
    simp only [es] at et
    cases et
    exact ⟨t, k1, k2, k3, rfl, p1, p2, p3⟩
  · intro t ht hc he
    obtain ⟨y, hy, et⟩ := h2 t ((hmem t).mpr ⟨ht, hc, he⟩)
    obtain ⟨s'', es, p1, p2, p3⟩ := fire_spec h he
    simp only [es] at et
    cases et
    exact ⟨s'', hy, p1, p2, p3⟩

theorem fires_append {net : Net} {m m1 m2 : Tokens} {ts us : List Trans} (h1 : Fires net m ts m1) (h2 : Fires net m1 us m2) :
    Fires net m (ts ++ us) m2 := by
  induction h1 with
  | nil => exact h2
  | cons ht he _ ih => exact .cons ht he (ih h2)

theorem visible_append (ts us : List Trans) : visible (ts ++ us) = visible ts ++ visible us := by
  unfold visible; rw [List.filter_append, List.map_append]

/-- What holds for every state on the stack. -/
def Reached (net : Net) (m0 : Tokens) (trace : List String) (x : Nat × RState) : Prop :=
  Pos x.2.marking ∧ x.1 ≤ trace.length ∧ ∃ ts, Fires net m0 ts (tok x.2.marking) ∧ visible ts = trace.take x.1 ∧
    x.2.fired = ts.map Trans.id ∧ (x.1 = trace.length → ∀ t, ts.getLast? = some t → t.silent = false)

/-- A state from which the rest of the trace can be replayed. -/
def Alive (net : Net) (trace : List String) (x : Nat × RState) : Prop := Replayable net (tok x.2.marking) (trace.drop x.1)

theorem step_spec (it : Iter) {net : Net} (hs : SingleArcs net) {m0 : Tokens} {trace : List String} {i : Nat} {s : RState}
    (hr : Reached net m0 trace (i, s)) {symbol : String} (hi : (trace)[i]? = some symbol) :
    ∃ new, handleTransition it net s symbol = .ok new ∧
      (∀ y ∈ new.map (fun n => (i + (if n.1 then 1 else 0), n.2)), Reached net m0 trace y) ∧
      (Alive net trace (i, s) → ∃ y ∈ new.map (fun n => (i + (if n.1 then 1 else 0), n.2)), Alive net trace y) ∧
      (∀ y ∈ new.map (fun n => (i + (if n.1 then 1 else 0), n.2)), y.1 = i + 1 ∨
        (y.1 = i ∧ SilentStep net (tok y.2.marking) (tok s.marking))) := by
  obtain ⟨hp, hle, ts, hf, hv, hfi, hlast⟩ := hr
  obtain ⟨new, e, h1, h2⟩ := handle_spec it hs hp symbol
  obtain ⟨hlt, hget⟩ := List.getElem?_eq_some_iff.mp hi
  refine ⟨new, e, ?_, ?_, ?_⟩
  · intro y hy
    obtain ⟨⟨b, s'⟩, hb, rfl⟩ := List.mem_map.mp hy
    obtain ⟨t, ht, hn, he, rfl, p1, p2, p3⟩ := h1 b s' hb
    refine ⟨p1, ?_, ts ++ [t], ?_, ?_, ?_, ?_⟩
    · simp only; split <;> omega
    · refine fires_append hf (.cons ht he ?_)
      rw [p2]; exact .nil _
    · rw [visible_append, hv]
      cases hsil : t.silent with
      | true => simp [visible, hsil]
      | false =>
        have hnm : t.name = symbol := hn.resolve_right (by simp [hsil])
        simp only [visible, List.filter_cons, hsil, Bool.not_false, if_true, List.filter_nil, List.map_cons, List.map_nil]
        rw [List.take_add_one, hi, hnm]; rfl
    · rw [p3, hfi, List.map_append]; rfl
    · intro hl u hu
      rw [List.getLast?_append] at hu
      simp only [List.getLast?_singleton, Option.some_or, Option.some.injEq] at hu
      subst hu
      cases hsil : t.silent with
      | false => rfl
      | true => simp [hsil] at hl; omega
  · rintro ⟨us, m', hu, hvu⟩
    rw [List.drop_eq_getElem_cons hlt, hget] at hvu
    cases hu with
    | nil => simp [visible] at hvu
    | @cons _ _ t us ht he hr =>
      cases hsil : t.silent with
      | true =>
        obtain ⟨s', hm, p1, p2, _⟩ := h2 t ht (Or.inr hsil) he
        refine ⟨(i + 0, s'), List.mem_map.mpr ⟨_, hm, by simp [hsil]⟩, us, m', ?_, ?_⟩
        · show Fires net (tok s'.marking) us m'
          rw [p2]; exact hr
        · simp only [Nat.add_zero, List.drop_eq_getElem_cons hlt, hget]
          rw [← hvu]; simp [visible, hsil]
      | false =>
        have hv2 : t.name :: visible us = symbol :: trace.drop (i + 1) := by
          rw [← hvu]; simp [visible, hsil]
        obtain ⟨hn, hv3⟩ := List.cons.inj hv2
        obtain ⟨s', hm, p1, p2, _⟩ := h2 t ht (Or.inl hn) he
        refine ⟨(i + 1, s'), List.mem_map.mpr ⟨_, hm, by simp [hsil]⟩, us, m', ?_, hv3⟩
        show Fires net (tok s'.marking) us m'
        rw [p2]; exact hr
  · intro y hy
    obtain ⟨⟨b, s'⟩, hb, rfl⟩ := List.mem_map.mp hy
    obtain ⟨t, ht, _, he, rfl, _, p2, _⟩ := h1 b s' hb
    cases hsil : t.silent with
    | false => exact Or.inl (by simp)
    | true => exact Or.inr ⟨by simp, t, ht, hsil, he, p2⟩

/-- The loop gives what it should, if it ends. -/
theorem replayLoop_spec (it : Iter) {net : Net} (hs : SingleArcs net) {m0 : Tokens} {trace : List String} (fuel : Nat)
    (stack : List (Nat × RState)) (hr : ∀ x ∈ stack, Reached net m0 trace x) :
    (∀ s, replayLoop it net trace fuel stack = .ok (some s) → Reached net m0 trace (trace.length, s)) ∧
    (replayLoop it net trace fuel stack = .ok none → ∀ x ∈ stack, ¬ Alive net trace x) ∧
    replayLoop it net trace fuel stack ≠ .error .panic := by
  induction fuel generalizing stack with
  | zero => exact ⟨fun s h => (by cases h), fun h => (by cases h), by intro h; cases h⟩
  | succ fuel ih =>
    cases stack with
    | nil => exact ⟨fun s h => (by cases h), fun _ => (by simp), by intro h; cases h⟩
    | cons x stack =>
      obtain ⟨i, s⟩ := x
      have hx := hr (i, s) List.mem_cons_self
      unfold replayLoop
      cases hi : (trace)[i]? with
      | none =>
        simp only
        refine ⟨?_, fun h => (by cases h), by intro h; cases h⟩
        rintro s' ⟨⟩
        have hi2 : trace.length = i := le_antisymm (List.getElem?_eq_none_iff.mp hi) hx.2.1
        rw [hi2]; exact hx
      | some symbol =>
        obtain ⟨new, e, k1, k2, _⟩ := step_spec it hs hx hi
        simp only [e]
        obtain ⟨j1, j2, j3⟩ := ih ((new.map (fun n => (i + (if n.1 then 1 else 0), n.2))).reverse ++ stack) (by
          intro y hy
          rcases List.mem_append.mp hy with hy | hy
          · exact k1 y (List.mem_reverse.mp hy)
          · exact hr y (List.mem_cons_of_mem _ hy))
        refine ⟨j1, fun h => ?_, j3⟩
        have hd := j2 h
        intro y hy
        rcases List.mem_cons.mp hy with rfl | hy
        · intro ha
          obtain ⟨z, hz, hza⟩ := k2 ha
          exact hd z (List.mem_append_left _ (List.mem_reverse.mpr hz)) hza
        · exact hd y (List.mem_append_right _ hy)

theorem fuel_mono (it : Iter) {net : Net} {trace : List String} (fuel : Nat) (stack : List (Nat × RState))
    (h : replayLoop it net trace fuel stack ≠ .error .endless) (k : Nat) :
    replayLoop it net trace (fuel + k) stack = replayLoop it net trace fuel stack := by
  induction fuel generalizing stack with
  | zero => exact absurd rfl h
  | succ fuel ih =>
    rw [Nat.add_right_comm]
    cases stack with
    | nil => rfl
    | cons x stack =>
      obtain ⟨i, s⟩ := x
      unfold replayLoop at h ⊢
      cases hi : (trace)[i]? with
      | none => rfl
      | some symbol =>
        rw [hi] at h
        simp only at h ⊢
        cases hh : handleTransition it net s symbol with
        | error e => rfl
        | ok new =>
          rw [hh] at h
          exact ih _ h

/-- A state that does not keep the loop from ending. -/
def Harmless (it : Iter) (net : Net) (trace : List String) (x : Nat × RState) : Prop :=
  ∀ stack, (∃ n, replayLoop it net trace n stack ≠ .error .endless) → ∃ n, replayLoop it net trace n (x :: stack) ≠ .error .endless

theorem harmless_all {it : Iter} {net : Net} {trace : List String} (new : List (Nat × RState))
    (h : ∀ x ∈ new, Harmless it net trace x) (stack : List (Nat × RState))
    (hs : ∃ n, replayLoop it net trace n stack ≠ .error .endless) : ∃ n, replayLoop it net trace n (new ++ stack) ≠ .error .endless := by
  induction new with
  | nil => exact hs
  | cons x new ih => exact h x List.mem_cons_self _ (ih (fun y hy => h y (List.mem_cons_of_mem _ hy)))

/-- If silent transitions cannot fire forever the loop ends. -/
theorem replay_ends (it : Iter) {net : Net} (hs : SingleArcs net) (hns : SilentEnds net) {m0 : Tokens}
    {trace : List String} (k : Nat) (m : Tokens) : ∀ (i : Nat) (s : RState), Reached net m0 trace (i, s) → trace.length ≤ i + k →
      tok s.marking = m → Harmless it net trace (i, s) := by
  induction k generalizing m with
  | zero =>
    intro i s hr hle _ stack _
    refine ⟨1, ?_⟩
    unfold replayLoop
    rw [List.getElem?_eq_none_iff.mpr (by simpa using hle)]
    intro h; cases h
  | succ k ihk =>
    induction m using hns.induction with
    | _ m ihm =>
      intro i s hr hle hm stack hst
      cases hi : (trace)[i]? with
      | none =>
        refine ⟨1, ?_⟩
        unfold replayLoop
        rw [hi]
        intro h; cases h
      | some symbol =>
        obtain ⟨succ, e, k1, _, k3⟩ := step_spec it hs hr hi
        obtain ⟨n, h2⟩ := harmless_all (it := it) (net := net) (trace := trace)
          (succ.map (fun n => (i + (if n.1 then 1 else 0), n.2))).reverse (fun y hy => by
            have hy := List.mem_reverse.mp hy
            rcases k3 y hy with h | ⟨h1, h2⟩
            · exact ihk _ y.1 y.2 (k1 y hy) (by rw [h]; omega) rfl
            · exact ihm (tok y.2.marking) (hm ▸ h2) y.1 y.2 (k1 y hy) (by rw [h1]; exact hle) rfl) stack hst
        refine ⟨n + 1, ?_⟩
        unfold replayLoop
        rw [hi]
        simp only [e]
        exact h2

end Ficus.Rs
