import Verif.Spec.Heap
import Verif.Proofs.Dict
import Mathlib.Data.List.Infix
import Mathlib.Logic.Function.Iterate

/-! Lemmas about heaps: extension, agreement on a log, deep copies and in-place mutation. -/

namespace Ficus
open Spec

/-- The second heap has all objects of the first, unchanged, and possibly more. -/
def Extends (h h' : Heap) : Prop := h.events <+: h'.events ∧ h.traces <+: h'.traces ∧ h.logs <+: h'.logs

theorem Extends.refl (h : Heap) : Extends h h := ⟨List.prefix_rfl, List.prefix_rfl, List.prefix_rfl⟩

theorem Extends.trans {a b c : Heap} (h1 : Extends a b) (h2 : Extends b c) : Extends a c :=
  ⟨h1.1.trans h2.1, h1.2.1.trans h2.2.1, h1.2.2.trans h2.2.2⟩

theorem prefix_getElem? {α : Type} {l l' : List α} (h : l <+: l') {i : Nat} (hi : i < l.length) : l'[i]? = l[i]? := by
  obtain ⟨r, rfl⟩ := h
  rw [List.getElem?_append_left hi]

theorem Extends.event {h h' : Heap} (hx : Extends h h') {e : Nat} (he : e < h.events.length) :
    h'.event e = h.event e := by
  unfold Heap.event; rw [prefix_getElem? hx.1 he]

theorem Extends.traceObj {h h' : Heap} (hx : Extends h h') {t : Nat} (ht : t < h.traces.length) :
    h'.traceObj t = h.traceObj t := by
  unfold Heap.traceObj; rw [prefix_getElem? hx.2.1 ht]

theorem Extends.logObj {h h' : Heap} (hx : Extends h h') {l : Nat} (hl : l < h.logs.length) :
    h'.logObj l = h.logObj l := by
  unfold Heap.logObj; rw [prefix_getElem? hx.2.2 hl]

theorem Extends.inHeap {h h' : Heap} (hx : Extends h h') {c : Cell} (hc : InHeap h c) : InHeap h' c := by
  cases c with
  | event e => exact Nat.lt_of_lt_of_le hc hx.1.length_le
  | trace e => exact Nat.lt_of_lt_of_le hc hx.2.1.length_le
  | log e => exact Nat.lt_of_lt_of_le hc hx.2.2.length_le

theorem extends_newEvent (h : Heap) (p : Payload) : Extends h (h.newEvent p).2 :=
  ⟨List.prefix_append _ _, List.prefix_rfl, List.prefix_rfl⟩

theorem extends_newTrace (h : Heap) (es : List Nat) : Extends h (h.newTrace es).2 :=
  ⟨List.prefix_rfl, List.prefix_append _ _, List.prefix_rfl⟩

theorem extends_newLog (h : Heap) (o : LogObj) : Extends h (h.newLog o).2 :=
  ⟨List.prefix_rfl, List.prefix_rfl, List.prefix_append _ _⟩

/-- The two heaps hold the same objects as far as the log is concerned. -/
structure Agree (h h' : Heap) (l : Nat) : Prop where
  log : h'.logObj l = h.logObj l
  traces : ∀ t ∈ (h.logObj l).traces, h'.traceObj t = h.traceObj t
  events : ∀ t ∈ (h.logObj l).traces, ∀ e ∈ (h.traceObj t).events, h'.event e = h.event e

theorem Agree.view {h h' : Heap} {l : Nat} (a : Agree h h' l) : h'.viewLog l = h.viewLog l := by
  unfold Heap.viewLog
  rw [a.log]
  congr 1
  apply List.map_congr_left
  intro t ht
  unfold Heap.viewTrace
  rw [a.traces t ht]
  congr 1
  apply List.map_congr_left
  intro e he
  exact a.events t ht e he

theorem Agree.owns {h h' : Heap} {l : Nat} (a : Agree h h' l) (c : Cell) : Owns h' l c ↔ Owns h l c := by
  unfold Owns
  rw [a.log]
  constructor
  · rintro (hc | hc | ⟨t, ht, e, he, hc⟩)
    · exact Or.inl hc
    · exact Or.inr (Or.inl hc)
    · rw [a.traces t ht] at he
      exact Or.inr (Or.inr ⟨t, ht, e, he, hc⟩)
  · rintro (hc | hc | ⟨t, ht, e, he, hc⟩)
    · exact Or.inl hc
    · exact Or.inr (Or.inl hc)
    · rw [← a.traces t ht] at he
      exact Or.inr (Or.inr ⟨t, ht, e, he, hc⟩)

theorem sound_log {h : Heap} {l : Nat} (hs : Sound h l) : l < h.logs.length := hs (.log l) (Or.inl rfl)

theorem sound_trace {h : Heap} {l t : Nat} (hs : Sound h l) (ht : t ∈ (h.logObj l).traces) : t < h.traces.length :=
  hs (.trace t) (Or.inr (Or.inl ⟨t, ht, rfl⟩))

theorem sound_event {h : Heap} {l t e : Nat} (hs : Sound h l) (ht : t ∈ (h.logObj l).traces)
    (he : e ∈ (h.traceObj t).events) : e < h.events.length :=
  hs (.event e) (Or.inr (Or.inr ⟨t, ht, e, he, rfl⟩))

theorem Extends.agree {h h' : Heap} (hx : Extends h h') {l : Nat} (hs : Sound h l) : Agree h h' l :=
  ⟨hx.logObj (sound_log hs), fun _ ht => hx.traceObj (sound_trace hs ht),
    fun _ ht _ he => hx.event (sound_event hs ht he)⟩

/-- No object disappears. -/
theorem run_exists (op : HeapOp) (h : Heap) (c : Cell) (hc : InHeap h c) : InHeap (op.run h) c := by
  cases op <;> cases c <;>
    simp_all [HeapOp.run, InHeap, Heap.setEvent, Heap.setTrace, Heap.setLog, Heap.newEvent, Heap.newTrace,
      Heap.newLog] <;> try omega

theorem setEvent_event (h : Heap) (e e' : Nat) (p : Payload) :
    (h.setEvent e p).event e' = if e = e' ∧ e < h.events.length then p else h.event e' := by
  unfold Heap.setEvent Heap.event
  simp only [List.getElem?_set]
  by_cases h1 : e = e'
  · subst h1
    by_cases h2 : e < h.events.length
    · simp [h2]
    · simp [h2]
  · simp [h1]

theorem setTrace_traceObj (h : Heap) (t t' : Nat) (o : TraceObj) :
    (h.setTrace t o).traceObj t' = if t = t' ∧ t < h.traces.length then o else h.traceObj t' := by
  unfold Heap.setTrace Heap.traceObj
  simp only [List.getElem?_set]
  by_cases h1 : t = t'
  · subst h1
    by_cases h2 : t < h.traces.length
    · simp [h2]
    · simp [h2]
  · simp [h1]

theorem setLog_logObj (h : Heap) (l l' : Nat) (o : LogObj) :
    (h.setLog l o).logObj l' = if l = l' ∧ l < h.logs.length then o else h.logObj l' := by
  unfold Heap.setLog Heap.logObj
  simp only [List.getElem?_set]
  by_cases h1 : l = l'
  · subst h1
    by_cases h2 : l < h.logs.length
    · simp [h2]
    · simp [h2]
  · simp [h1]

/-- Changing an object that the log does not own does not change the log. -/
theorem run_agree (op : HeapOp) (h : Heap) (l : Nat) (hs : Sound h l)
    (ht : ∀ c, op.target = some c → ¬ Owns h l c) : Agree h (op.run h) l := by
  have hev : ∀ e p, ¬ Owns h l (.event e) → Agree h (h.setEvent e p) l := by
    intro e p hno
    refine ⟨rfl, fun _ _ => rfl, ?_⟩
    intro t ht e' he'
    rw [setEvent_event, if_neg]
    rintro ⟨h1, _⟩
    subst h1
    exact hno (Or.inr (Or.inr ⟨t, ht, e, he', rfl⟩))
  have htr : ∀ t o, ¬ Owns h l (.trace t) → Agree h (h.setTrace t o) l := by
    intro t o hno
    refine ⟨rfl, ?_, fun _ _ _ _ => rfl⟩
    intro t' ht'
    rw [setTrace_traceObj, if_neg]
    rintro ⟨h1, _⟩
    subst h1
    exact hno (Or.inr (Or.inl ⟨t, ht', rfl⟩))
  cases op with
  | setAttr e k v => exact hev _ _ (ht _ rfl)
  | delAttr e k => exact hev _ _ (ht _ rfl)
  | traceSetEvents t es => exact htr _ _ (ht _ rfl)
  | traceSetAttr t k v => exact htr _ _ (ht _ rfl)
  | logSet m o =>
    refine ⟨?_, fun _ _ => rfl, fun _ _ _ _ => rfl⟩
    simp only [HeapOp.run]
    rw [setLog_logObj, if_neg]
    rintro ⟨h1, _⟩
    subst h1
    exact ht _ rfl (Or.inl rfl)
  | newEvent p => exact (extends_newEvent h p).agree hs
  | newTrace es => exact (extends_newTrace h es).agree hs
  | newLog o => exact (extends_newLog h o).agree hs

theorem agree_sound {h h' : Heap} {l : Nat} (a : Agree h h' l) (hx : ∀ c, InHeap h c → InHeap h' c) (hs : Sound h l) :
    Sound h' l := fun c hc => hx c (hs c ((a.owns c).1 hc))

/-- A history that never changes an object of the log leaves the log as it is. -/
theorem history_view (ops : List HeapOp) (h : Heap) (l : Nat) (hs : Sound h l)
    (ht : ∀ op ∈ ops, ∀ c, op.target = some c → ¬ Owns h l c) : (heapHistory ops h).viewLog l = h.viewLog l := by
  induction ops generalizing h with
  | nil => rfl
  | cons op ops ih =>
    have ha := run_agree op h l hs (ht op (by simp))
    refine (ih (op.run h) (agree_sound ha (run_exists op h) hs) ?_).trans ha.view
    intro o ho c hc hown
    exact ht o (by simp [ho]) c hc ((ha.owns c).1 hown)

/-! ### Deep copies -/

theorem newEvent_event (h : Heap) (p : Payload) : (h.newEvent p).2.event h.events.length = p := by
  simp [Heap.newEvent, Heap.event]

theorem newTrace_traceObj (h : Heap) (es : List Nat) :
    (h.newTrace es).2.traceObj h.traces.length = { events := es } := by
  simp [Heap.newTrace, Heap.traceObj]

theorem newLog_logObj (h : Heap) (o : LogObj) : (h.newLog o).2.logObj h.logs.length = o := by
  simp [Heap.newLog, Heap.logObj]

theorem deepcopyEvents_spec (n0 : Nat) (es : List Nat) (memo : Dict Nat Nat) (h : Heap)
    (hes : ∀ e ∈ es, e < h.events.length) (hn : n0 ≤ h.events.length)
    (hmemo : ∀ e c, memo.get? e = some c → n0 ≤ c ∧ c < h.events.length ∧ h.event c = h.event e ∧ e < h.events.length) :
    Extends h (Heap.deepcopyEvents es memo h).2 ∧ (Heap.deepcopyEvents es memo h).2.traces = h.traces ∧
      (Heap.deepcopyEvents es memo h).2.logs = h.logs ∧
      (Heap.deepcopyEvents es memo h).1.map (Heap.deepcopyEvents es memo h).2.event = es.map h.event ∧
      ∀ c ∈ (Heap.deepcopyEvents es memo h).1, n0 ≤ c ∧ c < (Heap.deepcopyEvents es memo h).2.events.length := by
  induction es generalizing memo h with
  | nil => exact ⟨Extends.refl h, rfl, rfl, rfl, fun c hc => by simp [Heap.deepcopyEvents] at hc⟩
  | cons e es ih =>
    unfold Heap.deepcopyEvents
    cases hm : memo.get? e with
    | some c =>
      simp only
      obtain ⟨h1, h2, h3, h4, h5⟩ := ih memo h (fun x hx => hes x (by simp [hx])) hn hmemo
      obtain ⟨m1, m2, m3, m4⟩ := hmemo e c hm
      refine ⟨h1, h2, h3, ?_, ?_⟩
      · rw [List.map_cons, List.map_cons, h4, h1.event m2, m3]
      · intro x hx
        rcases List.mem_cons.1 hx with rfl | hx
        · exact ⟨m1, Nat.lt_of_lt_of_le m2 h1.1.length_le⟩
        · exact h5 x hx
    | none =>
      simp only
      have he := hes e (by simp)
      have hx := extends_newEvent h (h.event e)
      have hlen : (h.newEvent (h.event e)).2.events.length = h.events.length + 1 := by simp [Heap.newEvent]
      obtain ⟨h1, h2, h3, h4, h5⟩ := ih (memo.set e (h.newEvent (h.event e)).1) (h.newEvent (h.event e)).2
        (fun x hx => by have := hes x (by simp [hx]); omega) (by omega) (by
          intro x c hc
          rw [Dict.get?_set] at hc
          by_cases hxe : e = x
          · rw [if_pos hxe] at hc
            cases hc
            subst hxe
            refine ⟨hn, by rw [hlen]; simp [Heap.newEvent], ?_, by omega⟩
            rw [hx.event he]
            exact newEvent_event h _
          · rw [if_neg hxe] at hc
            obtain ⟨m1, m2, m3, m4⟩ := hmemo x c hc
            refine ⟨m1, by omega, ?_, by omega⟩
            rw [hx.event m2, hx.event m4, m3])
      refine ⟨hx.trans h1, h2, h3, ?_, ?_⟩
      · rw [List.map_cons, List.map_cons, h4, h1.event (by rw [hlen]; simp [Heap.newEvent])]
        congr 1
        · exact newEvent_event h _
        · apply List.map_congr_left
          intro x hxm
          exact hx.event (hes x (by simp [hxm]))
      · intro x hxm
        rcases List.mem_cons.1 hxm with rfl | hxm
        · refine ⟨hn, Nat.lt_of_lt_of_le ?_ h1.1.length_le⟩
          rw [hlen]; simp [Heap.newEvent]
        · exact h5 x hxm

/-- The trace and its events exist. -/
def SoundTrace (h : Heap) (t : Nat) : Prop := t < h.traces.length ∧ ∀ e ∈ (h.traceObj t).events, e < h.events.length

theorem deepcopyTrace_spec (h : Heap) (t : Nat) (ht : SoundTrace h t) :
    Extends h (h.deepcopyTrace t).2 ∧ (h.deepcopyTrace t).2.logs = h.logs ∧
      (h.deepcopyTrace t).1 = h.traces.length ∧ h.traces.length < (h.deepcopyTrace t).2.traces.length ∧
      (h.deepcopyTrace t).2.viewTrace (h.deepcopyTrace t).1 = { events := (h.viewTrace t).events } ∧
      ∀ e ∈ ((h.deepcopyTrace t).2.traceObj (h.deepcopyTrace t).1).events,
        h.events.length ≤ e ∧ e < (h.deepcopyTrace t).2.events.length := by
  obtain ⟨h1, h2, h3, h4, h5⟩ := deepcopyEvents_spec h.events.length (h.traceObj t).events [] h ht.2 (Nat.le_refl _)
    (fun e c hc => by simp at hc)
  unfold Heap.deepcopyTrace
  simp only
  have hfst : ∀ (g : Heap) (es : List Nat), (g.newTrace es).1 = g.traces.length := fun _ _ => rfl
  have hx := extends_newTrace (Heap.deepcopyEvents (h.traceObj t).events [] h).2
    (Heap.deepcopyEvents (h.traceObj t).events [] h).1
  refine ⟨h1.trans hx, h3, ?_, ?_, ?_, ?_⟩
  · rw [hfst, h2]
  · simp [Heap.newTrace, h2]
  · unfold Heap.viewTrace
    rw [hfst, newTrace_traceObj]
    simp only
    congr 1
  · intro e he
    rw [hfst, newTrace_traceObj] at he
    exact h5 e he

theorem soundTrace_extends {h h' : Heap} (hx : Extends h h') {t : Nat} (ht : SoundTrace h t) : SoundTrace h' t := by
  refine ⟨Nat.lt_of_lt_of_le ht.1 hx.2.1.length_le, ?_⟩
  intro e he
  rw [hx.traceObj ht.1] at he
  exact Nat.lt_of_lt_of_le (ht.2 e he) hx.1.length_le

theorem viewTrace_extends {h h' : Heap} (hx : Extends h h') {t : Nat} (ht : SoundTrace h t) :
    h'.viewTrace t = h.viewTrace t := by
  unfold Heap.viewTrace
  rw [hx.traceObj ht.1]
  congr 1
  apply List.map_congr_left
  intro e he
  exact hx.event (ht.2 e he)

theorem deepcopyTraces_spec (ts : List Nat) (h : Heap) (hts : ∀ t ∈ ts, SoundTrace h t) :
    Extends h (Heap.deepcopyTraces ts h).2 ∧ (Heap.deepcopyTraces ts h).2.logs = h.logs ∧
      (Heap.deepcopyTraces ts h).1.map (Heap.deepcopyTraces ts h).2.viewTrace =
        ts.map (fun t => { events := (h.viewTrace t).events }) ∧
      ∀ t' ∈ (Heap.deepcopyTraces ts h).1, h.traces.length ≤ t' ∧ SoundTrace (Heap.deepcopyTraces ts h).2 t' ∧
        ∀ e ∈ ((Heap.deepcopyTraces ts h).2.traceObj t').events, h.events.length ≤ e := by
  induction ts generalizing h with
  | nil => exact ⟨Extends.refl h, rfl, rfl, fun t ht => by simp [Heap.deepcopyTraces] at ht⟩
  | cons t ts ih =>
    unfold Heap.deepcopyTraces
    simp only
    obtain ⟨a1, a2, a3, a4, a5, a6⟩ := deepcopyTrace_spec h t (hts t (by simp))
    obtain ⟨b1, b2, b3, b4⟩ := ih (h.deepcopyTrace t).2 (fun x hx => soundTrace_extends a1 (hts x (by simp [hx])))
    have hst : SoundTrace (h.deepcopyTrace t).2 (h.deepcopyTrace t).1 :=
      ⟨by rw [a3]; exact a4, fun e he => (a6 e he).2⟩
    refine ⟨a1.trans b1, b2.trans a2, ?_, ?_⟩
    · rw [List.map_cons, List.map_cons, b3, viewTrace_extends b1 hst, a5]
      congr 1
      apply List.map_congr_left
      intro x hx
      rw [viewTrace_extends a1 (hts x (by simp [hx]))]
    · intro x hx
      rcases List.mem_cons.1 hx with rfl | hx
      · refine ⟨Nat.le_of_eq a3.symm, soundTrace_extends b1 hst, ?_⟩
        intro e he
        rw [b1.traceObj hst.1] at he
        exact (a6 e he).1
      · obtain ⟨c1, c2, c3⟩ := b4 x hx
        exact ⟨Nat.le_trans a1.2.1.length_le c1, c2, fun e he => Nat.le_trans a1.1.length_le (c3 e he)⟩

/-! ### Mutation in place -/

theorem setEvent_length (h : Heap) (e : Nat) (p : Payload) : (h.setEvent e p).events.length = h.events.length := by
  simp [Heap.setEvent]

/-- After mutating along a list of references the payload of an event is the mutation iterated as often as the event
occurs in the list. -/
theorem mutateEvents_spec (f : Payload → Payload) (g : Payload → Except PyErr Payload) (P : Payload → Prop)
    (hg : ∀ p, P p → g p = .ok (f p)) (hP : ∀ p, P p → P (f p)) (es : List Nat) (h : Heap)
    (hes : ∀ e ∈ es, e < h.events.length) (hp : ∀ e ∈ es, P (h.event e)) :
    (Heap.mutateEvents g es h).1 = .ok () ∧ (Heap.mutateEvents g es h).2.traces = h.traces ∧
      (Heap.mutateEvents g es h).2.logs = h.logs ∧
      (Heap.mutateEvents g es h).2.events.length = h.events.length ∧
      ∀ e, e < h.events.length → (Heap.mutateEvents g es h).2.event e = f^[es.count e] (h.event e) := by
  induction es generalizing h with
  | nil => exact ⟨rfl, rfl, rfl, rfl, fun e _ => rfl⟩
  | cons x es ih =>
    unfold Heap.mutateEvents
    rw [hg _ (hp x (by simp))]
    simp only
    have hx := hes x (by simp)
    obtain ⟨h1, h2, h3, h4, h5⟩ := ih (h.setEvent x (f (h.event x)))
      (fun e he => by rw [setEvent_length]; exact hes e (by simp [he])) (by
        intro e he
        rw [setEvent_event]
        split
        · exact hP _ (hp x (by simp))
        · exact hp e (by simp [he]))
    refine ⟨h1, h2, h3, h4.trans (setEvent_length _ _ _), ?_⟩
    intro e he
    rw [h5 e (by rw [setEvent_length]; exact he), setEvent_event, List.count_cons]
    by_cases hxe : x = e
    · subst hxe
      rw [if_pos ⟨rfl, hx⟩, beq_self_eq_true, if_pos rfl, Function.iterate_succ_apply]
    · rw [if_neg (fun h => hxe h.1), if_neg (by simpa using hxe), Nat.add_zero]

end Ficus
