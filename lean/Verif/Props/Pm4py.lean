import Verif.Proofs.Pm4py

/-! Property C87: the conversions between logs and pm4py logs. -/

namespace Ficus
open Spec

theorem Spec.OwnObjects.unaffected {h h' : Heap} {l : Nat} (ho : OwnObjects h h' l) (ops : List HeapOp)
    (hops : ∀ op ∈ ops, ∀ c, op.target = some c → InHeap h c) : (heapHistory ops h').viewLog l = h'.viewLog l :=
  history_view ops _ _ ho.sound (fun op hop c hc hown => ho.fresh c hown (hops op hop c hc))

theorem Extends.unaffected {h h' : Heap} {l : Nat} (hx : Extends h h') (hs : Sound h l) (ops : List HeapOp)
    (hops : ∀ op ∈ ops, ∀ c, op.target = some c → ¬ InHeap h c) : (heapHistory ops h').viewLog l = h.viewLog l := by
  have ha := hx.agree hs
  refine (history_view ops _ l (agree_sound ha (fun c hc => hx.inHeap hc) hs) ?_).trans ha.view
  intro op hop c hc ho
  exact hops op hop c hc (hs c ((ha.owns c).1 ho))

/-- C87a: the log made from a pm4py log reads in every respect like the pm4py log: traces, their events, keys in order,
trace attributes, log attributes, extensions, classifiers, properties, and the omni-present attributes as global values;
the pm4py log is unchanged. -/
theorem C87_from_pm4py (h : Heap) (l : Nat) (hs : Sound h l) :
    (h.fromPmLog l).2.viewLog (h.fromPmLog l).1 = h.viewLog l ∧ (h.fromPmLog l).2.viewLog l = h.viewLog l := by
  obtain ⟨hx, _, hv⟩ := fromPmLog_spec h l hs
  exact ⟨hv, (hx.agree hs).view⟩

/-- C87b: the pm4py log made from a log has the same traces with the same payloads, keys in the same order, and nothing
else: no trace attributes, log attributes, extensions, classifiers, properties or omni-present attributes; the log is
unchanged. -/
theorem C87_to_pm4py (h : Heap) (l : Nat) (hs : Sound h l) (hp : RealPayloads h l) :
    (h.toPmLog l).2.viewLog (h.toPmLog l).1 =
      { traces := (h.viewLog l).traces.map (fun t => { events := t.events, attributes := [] }), attributes := [],
        extensions := [], classifiers := [], properties := [], globals := [] } ∧
    (h.toPmLog l).2.viewLog l = h.viewLog l := by
  obtain ⟨hx, _, hv⟩ := toPmLog_spec h l hs hp
  refine ⟨?_, (hx.agree hs).view⟩
  rw [hv]
  simp [Log.ofEvs, Log.evs]

/-- C87c: both conversions create a new object for every trace and for every event in every position, even if the
original uses one event object or one trace object in several places. -/
theorem C87_own_objects (h : Heap) (l : Nat) (hs : Sound h l) (hp : RealPayloads h l) :
    OwnObjects h (h.fromPmLog l).2 (h.fromPmLog l).1 ∧ OwnObjects h (h.toPmLog l).2 (h.toPmLog l).1 :=
  ⟨(fromPmLog_spec h l hs).2.1, (toPmLog_spec h l hs hp).2.1⟩

/-- C87d: after a conversion, no history of operations on objects that existed before changes the result, and no history
of operations on objects that did not exist before changes the original; this holds in both directions. -/
theorem C87_independent (h : Heap) (l : Nat) (hs : Sound h l) (hp : RealPayloads h l) (before after : List HeapOp)
    (hb : ∀ op ∈ before, ∀ c, op.target = some c → InHeap h c)
    (ha : ∀ op ∈ after, ∀ c, op.target = some c → ¬ InHeap h c) :
    (heapHistory before (h.fromPmLog l).2).viewLog (h.fromPmLog l).1 = h.viewLog l ∧
    (heapHistory after (h.fromPmLog l).2).viewLog l = h.viewLog l ∧
    (heapHistory before (h.toPmLog l).2).viewLog (h.toPmLog l).1 = Log.ofEvs (h.viewLog l).evs ∧
    (heapHistory after (h.toPmLog l).2).viewLog l = h.viewLog l := by
  obtain ⟨fx, fo, fv⟩ := fromPmLog_spec h l hs
  obtain ⟨tx, to_, tv⟩ := toPmLog_spec h l hs hp
  exact ⟨(fo.unaffected before hb).trans fv, fx.unaffected hs after ha, (to_.unaffected before hb).trans tv,
    tx.unaffected hs after ha⟩

theorem realPayloads_of_view {h h' : Heap} {l l' : Nat} (hv : h'.viewLog l' = h.viewLog l) (hp : RealPayloads h l) :
    RealPayloads h' l' := by
  unfold RealPayloads
  rw [hv]
  exact hp

/-- C87e: both round trips keep exactly the traces of events; in particular converting to pm4py and back gives the log
one started from exactly if it has no trace attributes, log attributes, extensions, classifiers, properties and global
values. -/
theorem C87_round_trips (h : Heap) (l : Nat) (hs : Sound h l) (hp : RealPayloads h l) :
    ((h.toPmLog l).2.fromPmLog (h.toPmLog l).1).2.viewLog ((h.toPmLog l).2.fromPmLog (h.toPmLog l).1).1 =
      Log.ofEvs (h.viewLog l).evs ∧
    ((h.fromPmLog l).2.toPmLog (h.fromPmLog l).1).2.viewLog ((h.fromPmLog l).2.toPmLog (h.fromPmLog l).1).1 =
      Log.ofEvs (h.viewLog l).evs ∧
    (((h.toPmLog l).2.fromPmLog (h.toPmLog l).1).2.viewLog ((h.toPmLog l).2.fromPmLog (h.toPmLog l).1).1 =
      h.viewLog l ↔
        (∀ t ∈ (h.viewLog l).traces, t.attributes = []) ∧ (h.viewLog l).attributes = [] ∧
        (h.viewLog l).extensions = [] ∧ (h.viewLog l).classifiers = [] ∧ (h.viewLog l).properties = [] ∧
        (h.viewLog l).globals = []) := by
  obtain ⟨_, to_, tv⟩ := toPmLog_spec h l hs hp
  obtain ⟨_, fo, fv⟩ := fromPmLog_spec h l hs
  have h1 : ((h.toPmLog l).2.fromPmLog (h.toPmLog l).1).2.viewLog ((h.toPmLog l).2.fromPmLog (h.toPmLog l).1).1 =
      Log.ofEvs (h.viewLog l).evs := by
    rw [(fromPmLog_spec _ _ to_.sound).2.2, tv]
  have h2 := (toPmLog_spec _ _ fo.sound (realPayloads_of_view fv hp)).2.2
  rw [fv] at h2
  refine ⟨h1, h2, ?_⟩
  rw [h1]
  generalize h.viewLog l = v
  obtain ⟨ts, a, x, c, p, g⟩ := v
  simp only [Log.ofEvs, Log.evs, Log.mk.injEq, List.map_map]
  constructor
  · rintro ⟨e1, e2, e3, e4, e5, e6⟩
    refine ⟨?_, e2.symm, e3.symm, e4.symm, e5.symm, e6.symm⟩
    intro t ht
    rw [← e1] at ht
    obtain ⟨t', _, rfl⟩ := List.mem_map.1 ht
    rfl
  · rintro ⟨e1, rfl, rfl, rfl, rfl, rfl⟩
    refine ⟨?_, rfl, rfl, rfl, rfl, rfl⟩
    conv_rhs => rw [← List.map_id ts]
    apply List.map_congr_left
    intro t ht
    obtain ⟨es, at_⟩ := t
    have := e1 _ ht
    simp only at this
    subst this
    rfl

/-! ### A concrete case: one event object occurs three times, one trace object twice, and everything has attributes. -/

/-- One log: the second trace is the first one again, the first has one event twice. -/
def exPmHeap : Heap :=
  { events := [[("concept:name", .str "A"), ("time:timestamp", .str "t")], [("concept:name", .str "B")]],
    traces := [⟨[0, 1, 0], [("concept:name", .str "case")]⟩, ⟨[0], []⟩],
    logs := [⟨[0, 0, 1], [("a", "b")], [("Time", [("prefix", "time")])], [("c", ["concept:name"])],
      [("p", .str "q")], [("event", [("concept:name", .str "?")])]⟩] }

theorem exPmHeap_sound : Sound exPmHeap 0 := by
  rintro c (rfl | ⟨t, ht, rfl⟩ | ⟨t, ht, e, he, rfl⟩)
  · simp [InHeap, exPmHeap]
  · have : t = 0 ∨ t = 1 := by simpa [exPmHeap, Heap.logObj] using ht
    rcases this with rfl | rfl <;> simp [InHeap, exPmHeap]
  · have : t = 0 ∨ t = 1 := by simpa [exPmHeap, Heap.logObj] using ht
    rcases this with rfl | rfl
    · have : e = 0 ∨ e = 1 := by
        have := he
        simp [exPmHeap, Heap.traceObj] at this
        omega
      rcases this with rfl | rfl <;> simp [InHeap, exPmHeap]
    · have : e = 0 := by simpa [exPmHeap, Heap.traceObj] using he
      subst this
      simp [InHeap, exPmHeap]

theorem exPmHeap_real : RealPayloads exPmHeap 0 := by
  unfold RealPayloads
  decide

example : ((exPmHeap.toPmLog 0).2.logObj (exPmHeap.toPmLog 0).1).traces = [2, 3, 4] := by decide
example : (exPmHeap.toPmLog 0).2.eventRefs (exPmHeap.toPmLog 0).1 = [2, 3, 4, 5, 6, 7, 8] := by decide
example : (exPmHeap.fromPmLog 0).2.viewLog (exPmHeap.fromPmLog 0).1 = exPmHeap.viewLog 0 :=
  (C87_from_pm4py exPmHeap 0 exPmHeap_sound).1
example : ((exPmHeap.toPmLog 0).2.viewLog (exPmHeap.toPmLog 0).1).attributes = [] := by
  rw [(C87_to_pm4py exPmHeap 0 exPmHeap_sound exPmHeap_real).1]
/-- Renaming the shared event of the original afterwards does not show in the converted log. -/
example : (heapHistory [.setAttr 0 "concept:name" (.str "Z")] (exPmHeap.toPmLog 0).2).viewLog (exPmHeap.toPmLog 0).1 =
    Log.ofEvs (exPmHeap.viewLog 0).evs :=
  (C87_independent exPmHeap 0 exPmHeap_sound exPmHeap_real [.setAttr 0 "concept:name" (.str "Z")] []
    (by simp [HeapOp.target, InHeap, exPmHeap]) (by simp)).2.2.1
/-- This log does not survive the round trip. -/
example : ((exPmHeap.toPmLog 0).2.fromPmLog (exPmHeap.toPmLog 0).1).2.viewLog
    ((exPmHeap.toPmLog 0).2.fromPmLog (exPmHeap.toPmLog 0).1).1 ≠ exPmHeap.viewLog 0 := by
  intro hc
  have := ((C87_round_trips exPmHeap 0 exPmHeap_sound exPmHeap_real).2.2.1 hc).2.1
  exact absurd this (by decide)

end Ficus
