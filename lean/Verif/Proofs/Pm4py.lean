import Verif.Spec.Pm4py
import Verif.Props.Heap

/-! Lemmas about the conversions between logs and pm4py logs. -/

namespace Ficus
open Spec

theorem foldl_set_append {K V : Type} [DecidableEq K] (p d : Dict K V) (hd : Dict.WF (d ++ p)) :
    p.foldl (fun d kv => Dict.set d kv.1 kv.2) d = d ++ p := by
  induction p generalizing d with
  | nil => simp
  | cons kv p ih =>
    have hk : kv.1 ∉ Dict.keys d := by
      intro hm
      have : (Dict.keys d ++ kv.1 :: Dict.keys p).Nodup := by simpa [Dict.WF, Dict.keys] using hd
      exact (List.disjoint_of_nodup_append this) hm (by simp)
    have hset : Dict.set d kv.1 kv.2 = d ++ [kv] := by
      clear ih hd
      induction d with
      | nil => rfl
      | cons a d ihd =>
        simp only [Dict.keys, List.map_cons, List.mem_cons, not_or] at hk
        simp only [Dict.set, List.cons_append]
        rw [if_neg (Ne.symm hk.1), ihd hk.2]
    rw [List.foldl_cons, hset, ih]
    · simp
    · simpa using hd

theorem pmPayload_eq {p : Payload} (hp : Dict.WF p) : Heap.pmPayload p = p :=
  foldl_set_append p [] (by simpa using hp)

theorem extends_newTraceWith (h : Heap) (es : List Nat) (a : Dict String Val) : Extends h (h.newTraceWith es a).2 :=
  ⟨List.prefix_rfl, List.prefix_append _ _, List.prefix_rfl⟩

/-- Copies of the events, each through `g`. -/
def eventsVia (g : Payload → Payload) : List Nat → Heap → List Nat × Heap
  | [], h => ([], h)
  | e :: es, h =>
    let n := h.newEvent (g (h.event e))
    let r := eventsVia g es n.2
    (n.1 :: r.1, r.2)

theorem myEvents_via : Heap.myEvents = eventsVia id := by
  funext es h
  induction es generalizing h with
  | nil => rfl
  | cons e es ih => simp only [Heap.myEvents, eventsVia, ih, id]

theorem pmEvents_via : Heap.pmEvents = eventsVia Heap.pmPayload := by
  funext es h
  induction es generalizing h with
  | nil => rfl
  | cons e es ih => simp only [Heap.pmEvents, eventsVia, ih]

theorem eventsVia_spec (g : Payload → Payload) (es : List Nat) (h : Heap) (hes : ∀ e ∈ es, e < h.events.length) :
    (eventsVia g es h).2 = { h with events := h.events ++ es.map (fun e => g (h.event e)) } ∧
      (eventsVia g es h).1 = List.range' h.events.length es.length := by
  induction es generalizing h with
  | nil => simp [eventsVia]
  | cons e es ih =>
    have hx := extends_newEvent h (g (h.event e))
    obtain ⟨h1, h2⟩ := ih (h.newEvent (g (h.event e))).2
      (fun x hm => Nat.lt_of_lt_of_le (hes x (by simp [hm])) hx.1.length_le)
    have hev : es.map (fun x => g ((h.newEvent (g (h.event e))).2.event x)) = es.map (fun x => g (h.event x)) := by
      apply List.map_congr_left
      intro x hm
      rw [hx.event (hes x (by simp [hm]))]
    refine ⟨?_, ?_⟩
    · simp only [eventsVia]
      rw [h1, hev]
      simp [Heap.newEvent]
    · simp only [eventsVia]
      rw [h2]
      simp [Heap.newEvent, List.range'_succ]

/-- Copies of the traces: events through `g`, attributes through `a`. -/
def tracesVia (g : Payload → Payload) (a : Dict String Val → Dict String Val) : List Nat → Heap → List Nat × Heap
  | [], h => ([], h)
  | t :: ts, h =>
    let es := eventsVia g (h.traceObj t).events h
    let n := es.2.newTraceWith es.1 (a (h.traceObj t).attributes)
    let r := tracesVia g a ts n.2
    (n.1 :: r.1, r.2)

theorem myTraces_via : Heap.myTraces = tracesVia id id := by
  funext ts h
  induction ts generalizing h with
  | nil => rfl
  | cons e es ih => simp only [Heap.myTraces, tracesVia, ih, id, myEvents_via]

theorem pmTraces_via : Heap.pmTraces = tracesVia Heap.pmPayload (fun _ => []) := by
  funext ts h
  induction ts generalizing h with
  | nil => rfl
  | cons e es ih => simp only [Heap.pmTraces, tracesVia, ih, pmEvents_via]; rfl

/-- The copy of one trace. -/
theorem traceVia_spec (g : Payload → Payload) (a : Dict String Val → Dict String Val) (t : Nat) (h : Heap)
    (ht : SoundTrace h t) (h' : Heap)
    (hh : h' = ((eventsVia g (h.traceObj t).events h).2.newTraceWith (eventsVia g (h.traceObj t).events h).1
      (a (h.traceObj t).attributes)).2) :
    Extends h h' ∧ h'.logs = h.logs ∧ h'.traces.length = h.traces.length + 1 ∧ SoundTrace h' h.traces.length ∧
      h'.viewTrace h.traces.length =
        { events := (h.viewTrace t).events.map g, attributes := a (h.viewTrace t).attributes } ∧
      (h'.traceObj h.traces.length).events = List.range' h.events.length (h.traceObj t).events.length ∧
      h'.events.length = h.events.length + (h.traceObj t).events.length := by
  obtain ⟨e1, e2⟩ := eventsVia_spec g (h.traceObj t).events h ht.2
  rw [e1, e2] at hh
  have hobj : h'.traceObj h.traces.length =
      { events := List.range' h.events.length (h.traceObj t).events.length,
        attributes := a (h.traceObj t).attributes } := by
    subst hh; simp [Heap.newTraceWith, Heap.traceObj]
  have hlen : h'.events.length = h.events.length + (h.traceObj t).events.length := by
    subst hh; simp [Heap.newTraceWith]
  refine ⟨?_, ?_, ?_, ⟨?_, ?_⟩, ?_, ?_, hlen⟩
  · subst hh
    exact ⟨List.prefix_append _ _, List.prefix_append _ _, List.prefix_rfl⟩
  · subst hh; rfl
  · subst hh; simp [Heap.newTraceWith]
  · subst hh; simp [Heap.newTraceWith]
  · intro e he
    rw [hobj, List.mem_range'_1] at he
    omega
  · unfold Heap.viewTrace
    rw [hobj]
    simp only [Trace.mk.injEq, and_true]
    apply List.ext_getElem (by simp)
    intro i h1 h2
    simp only [List.length_map, List.length_range'] at h1
    simp only [List.getElem_map, List.getElem_range', Nat.one_mul]
    have hi : i < (h.traceObj t).events.length := h1
    subst hh
    simp only [Heap.newTraceWith, Heap.event]
    rw [List.getElem?_append_right (by omega)]
    simp [List.getElem?_eq_getElem hi]
  · rw [hobj]

theorem tracesVia_spec (g : Payload → Payload) (a : Dict String Val → Dict String Val) (ts : List Nat) (h : Heap)
    (hts : ∀ t ∈ ts, SoundTrace h t) :
    Extends h (tracesVia g a ts h).2 ∧ (tracesVia g a ts h).2.logs = h.logs ∧
      (tracesVia g a ts h).1.map (tracesVia g a ts h).2.viewTrace =
        ts.map (fun t => { events := (h.viewTrace t).events.map g, attributes := a (h.viewTrace t).attributes }) ∧
      (∀ t' ∈ (tracesVia g a ts h).1, h.traces.length ≤ t' ∧ SoundTrace (tracesVia g a ts h).2 t' ∧
        ∀ e ∈ ((tracesVia g a ts h).2.traceObj t').events, h.events.length ≤ e) ∧
      (tracesVia g a ts h).1.Nodup ∧
      ((tracesVia g a ts h).1.flatMap (fun t => ((tracesVia g a ts h).2.traceObj t).events)).Nodup := by
  induction ts generalizing h with
  | nil => exact ⟨Extends.refl h, rfl, rfl, fun t ht => by simp [tracesVia] at ht, by simp [tracesVia],
      by simp [tracesVia]⟩
  | cons t ts ih =>
    unfold tracesVia
    simp only
    generalize hh : ((eventsVia g (h.traceObj t).events h).2.newTraceWith (eventsVia g (h.traceObj t).events h).1
      (a (h.traceObj t).attributes)) = n
    obtain ⟨a1, a2, a3, a4, a5, a6, a7⟩ := traceVia_spec g a t h (hts t (by simp)) n.2 (by rw [hh])
    have hfst : n.1 = h.traces.length := by
      rw [← hh, (eventsVia_spec g (h.traceObj t).events h (hts t (by simp)).2).1]; rfl
    obtain ⟨b1, b2, b3, b4, b5, b6⟩ := ih n.2 (fun x hx => soundTrace_extends a1 (hts x (by simp [hx])))
    have hev : ((tracesVia g a ts n.2).2.traceObj n.1).events =
        List.range' h.events.length (h.traceObj t).events.length := by
      rw [hfst, b1.traceObj a4.1, a6]
    refine ⟨a1.trans b1, b2.trans a2, ?_, ?_, ?_, ?_⟩
    · rw [List.map_cons, List.map_cons, b3, hfst, viewTrace_extends b1 a4, a5]
      congr 1
      apply List.map_congr_left
      intro x hx
      rw [viewTrace_extends a1 (hts x (by simp [hx]))]
    · intro x hx
      rcases List.mem_cons.1 hx with rfl | hx
      · refine ⟨Nat.le_of_eq hfst.symm, hfst ▸ soundTrace_extends b1 a4, ?_⟩
        intro e he
        rw [hev, List.mem_range'_1] at he
        exact he.1
      · obtain ⟨c1, c2, c3⟩ := b4 x hx
        exact ⟨Nat.le_trans a1.2.1.length_le c1, c2, fun e he => Nat.le_trans a1.1.length_le (c3 e he)⟩
    · rw [List.nodup_cons]
      refine ⟨?_, b5⟩
      intro hm
      have := (b4 _ hm).1
      omega
    · rw [List.flatMap_cons, List.nodup_append, hev]
      refine ⟨List.nodup_range', b6, ?_⟩
      intro x hx y hy hxy
      obtain ⟨t', ht', hy⟩ := List.mem_flatMap.1 hy
      have := (b4 t' ht').2.2 y hy
      rw [List.mem_range'_1] at hx
      omega

theorem logVia_spec (g : Payload → Payload) (a : Dict String Val → Dict String Val) (h : Heap) (l : Nat)
    (hs : Sound h l) (o : LogObj) (ho : o.traces = (tracesVia g a (h.logObj l).traces h).1) (r : Nat × Heap)
    (hr : r = (tracesVia g a (h.logObj l).traces h).2.newLog o) :
    Extends h r.2 ∧ OwnObjects h r.2 r.1 ∧ r.2.logObj r.1 = o ∧
      (r.2.viewLog r.1).traces =
        (h.viewLog l).traces.map (fun t => { events := t.events.map g, attributes := a t.attributes }) := by
  obtain ⟨b1, b2, b3, b4, b5, b6⟩ := tracesVia_spec g a (h.logObj l).traces h (fun t ht => soundTrace_of hs ht)
  have hobj : r.2.logObj r.1 = o := by subst hr; exact newLog_logObj _ _
  have htr : ∀ t, r.2.traceObj t = (tracesVia g a (h.logObj l).traces h).2.traceObj t := by subst hr; exact fun _ => rfl
  have hvt : r.2.viewTrace = (tracesVia g a (h.logObj l).traces h).2.viewTrace := by subst hr; rfl
  have hlog : r.1 = h.logs.length := by
    subst hr
    show (tracesVia g a (h.logObj l).traces h).2.logs.length = _
    rw [b2]
  have hlen : r.2.logs.length = h.logs.length + 1 := by
    subst hr
    show ((tracesVia g a (h.logObj l).traces h).2.logs ++ [_]).length = _
    rw [b2]; simp
  have htl : r.2.traces = (tracesVia g a (h.logObj l).traces h).2.traces := by subst hr; rfl
  have hel : r.2.events = (tracesVia g a (h.logObj l).traces h).2.events := by subst hr; rfl
  refine ⟨?_, ⟨?_, ?_, ?_, ?_⟩, hobj, ?_⟩
  · subst hr; exact b1.trans (extends_newLog _ _)
  · rintro c (rfl | ⟨t, ht, rfl⟩ | ⟨t, ht, e, he, rfl⟩) hc
    · rw [hlog] at hc
      exact Nat.lt_irrefl _ hc
    · rw [hobj, ho] at ht
      exact absurd hc (Nat.not_lt.2 (b4 t ht).1)
    · rw [hobj, ho] at ht
      rw [htr] at he
      exact absurd hc (Nat.not_lt.2 ((b4 t ht).2.2 e he))
  · rintro c (rfl | ⟨t, ht, rfl⟩ | ⟨t, ht, e, he, rfl⟩)
    · show r.1 < r.2.logs.length
      omega
    · rw [hobj, ho] at ht
      show t < r.2.traces.length
      rw [htl]
      exact (b4 t ht).2.1.1
    · rw [hobj, ho] at ht
      rw [htr] at he
      show e < r.2.events.length
      rw [hel]
      exact (b4 t ht).2.1.2 e he
  · rw [hobj, ho]; exact b5
  · unfold Heap.eventRefs
    rw [hobj, ho]
    simp only [htr]
    exact b6
  · unfold Heap.viewLog
    simp only
    rw [hobj, ho, hvt, b3, List.map_map]
    rfl

theorem fromPmLog_spec (h : Heap) (l : Nat) (hs : Sound h l) :
    Extends h (h.fromPmLog l).2 ∧ OwnObjects h (h.fromPmLog l).2 (h.fromPmLog l).1 ∧
      (h.fromPmLog l).2.viewLog (h.fromPmLog l).1 = h.viewLog l := by
  have e : h.fromPmLog l = (tracesVia id id (h.logObj l).traces h).2.newLog
      { traces := (tracesVia id id (h.logObj l).traces h).1, attributes := (h.logObj l).attributes,
        extensions := (h.logObj l).extensions, classifiers := (h.logObj l).classifiers,
        properties := (h.logObj l).properties, globals := (h.logObj l).globals } := by
    unfold Heap.fromPmLog; rw [myTraces_via]
  obtain ⟨h1, h2, h3, h4⟩ := logVia_spec id id h l hs _ rfl _ e
  refine ⟨h1, h2, ?_⟩
  have h5 : ((h.fromPmLog l).2.viewLog (h.fromPmLog l).1).traces = (h.viewLog l).traces := by
    rw [h4]; simp
  unfold Heap.viewLog at h5 ⊢
  simp only at h5
  rw [h5, h3]

theorem toPmLog_spec (h : Heap) (l : Nat) (hs : Sound h l) (hp : RealPayloads h l) :
    Extends h (h.toPmLog l).2 ∧ OwnObjects h (h.toPmLog l).2 (h.toPmLog l).1 ∧
      (h.toPmLog l).2.viewLog (h.toPmLog l).1 = Log.ofEvs (h.viewLog l).evs := by
  have e : h.toPmLog l = (tracesVia Heap.pmPayload (fun _ => []) (h.logObj l).traces h).2.newLog
      { traces := (tracesVia Heap.pmPayload (fun _ => []) (h.logObj l).traces h).1 } := by
    unfold Heap.toPmLog; rw [pmTraces_via]
  obtain ⟨h1, h2, h3, h4⟩ := logVia_spec Heap.pmPayload (fun _ => []) h l hs _ rfl _ e
  refine ⟨h1, h2, ?_⟩
  have h5 : ((h.toPmLog l).2.viewLog (h.toPmLog l).1).traces =
      (h.viewLog l).traces.map (fun t => { events := t.events }) := by
    rw [h4]
    apply List.map_congr_left
    intro t ht
    congr 1
    exact (List.map_congr_left (g := id) (fun p hpm => pmPayload_eq (hp t ht p hpm))).trans (List.map_id _)
  unfold Heap.viewLog at h5 ⊢
  simp only at h5
  rw [h5, h3]
  simp [Log.ofEvs, Log.evs]

end Ficus
