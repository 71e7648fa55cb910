import Verif.Proofs.Heap
import Verif.Proofs.Mutations
import Verif.Props.Pipeline

/-! Properties C50, C56 and the second half of C43: copies of logs, mutation in place, and what leaks out of copied
contexts. -/

namespace Ficus
open Spec

/-! ### C50 -/

theorem soundTrace_of {h : Heap} {l t : Nat} (hs : Sound h l) (ht : t ∈ (h.logObj l).traces) : SoundTrace h t :=
  ⟨sound_trace hs ht, fun _ he => sound_event hs ht he⟩

theorem deepcopyLog_spec (h : Heap) (l : Nat) (hs : Sound h l) :
    Extends h (h.deepcopyLog l).2 ∧ (h.deepcopyLog l).2.viewLog (h.deepcopyLog l).1 = (h.viewLog l).deepcopy ∧
      Sound (h.deepcopyLog l).2 (h.deepcopyLog l).1 ∧
      ∀ c, Owns (h.deepcopyLog l).2 (h.deepcopyLog l).1 c → ¬ InHeap h c := by
  obtain ⟨b1, b2, b3, b4⟩ := deepcopyTraces_spec (h.logObj l).traces h (fun t ht => soundTrace_of hs ht)
  have hx := b1.trans (extends_newLog (Heap.deepcopyTraces (h.logObj l).traces h).2
    { traces := (Heap.deepcopyTraces (h.logObj l).traces h).1, attributes := (h.logObj l).attributes,
      extensions := (h.logObj l).extensions, classifiers := (h.logObj l).classifiers,
      properties := (h.logObj l).properties })
  have hobj : (h.deepcopyLog l).2.logObj (h.deepcopyLog l).1 =
      { traces := (Heap.deepcopyTraces (h.logObj l).traces h).1, attributes := (h.logObj l).attributes,
        extensions := (h.logObj l).extensions, classifiers := (h.logObj l).classifiers,
        properties := (h.logObj l).properties } := newLog_logObj _ _
  have htr : ∀ t, (h.deepcopyLog l).2.traceObj t = (Heap.deepcopyTraces (h.logObj l).traces h).2.traceObj t :=
    fun _ => rfl
  have hev : ∀ e, (h.deepcopyLog l).2.event e = (Heap.deepcopyTraces (h.logObj l).traces h).2.event e := fun _ => rfl
  have hlog : (h.deepcopyLog l).1 = h.logs.length := by
    show (Heap.deepcopyTraces (h.logObj l).traces h).2.logs.length = _
    rw [b2]
  refine ⟨hx, ?_, ?_, ?_⟩
  · unfold Heap.viewLog Log.deepcopy
    rw [hobj]
    simp only [Log.mk.injEq, and_true]
    have hv : (h.deepcopyLog l).2.viewTrace = (Heap.deepcopyTraces (h.logObj l).traces h).2.viewTrace := rfl
    rw [hv, b3, List.map_map]
    rfl
  · rintro c (rfl | ⟨t, ht, rfl⟩ | ⟨t, ht, e, he, rfl⟩)
    · show (h.deepcopyLog l).1 < (h.deepcopyLog l).2.logs.length
      rw [hlog]
      show h.logs.length < ((Heap.deepcopyTraces (h.logObj l).traces h).2.logs ++ [_]).length
      rw [b2]; simp
    · rw [hobj] at ht
      exact (b4 t ht).2.1.1
    · rw [hobj] at ht
      exact (b4 t ht).2.1.2 e he
  · rintro c (rfl | ⟨t, ht, rfl⟩ | ⟨t, ht, e, he, rfl⟩) hc
    · rw [hlog] at hc
      exact Nat.lt_irrefl _ hc
    · rw [hobj] at ht
      exact absurd hc (Nat.not_lt.2 (b4 t ht).1)
    · rw [hobj] at ht
      exact absurd hc (Nat.not_lt.2 ((b4 t ht).2.2 e he))

/-- C50a: a deep copy reads like the original except for the trace attributes and the global values, which are dropped,
and the original is unchanged; this holds also if event objects are shared inside the log. -/
theorem C50_deepcopy_value (h : Heap) (l : Nat) (hs : Sound h l) :
    (h.deepcopyLog l).2.viewLog (h.deepcopyLog l).1 =
      { (h.viewLog l) with traces := (h.viewLog l).traces.map (fun t => { t with attributes := [] }), globals := [] } ∧
    (h.deepcopyLog l).2.viewLog l = h.viewLog l := by
  obtain ⟨hx, hv, _, _⟩ := deepcopyLog_spec h l hs
  exact ⟨hv, (hx.agree hs).view⟩

/-- C50b: no object of the copy existed before, so no history of operations on objects that existed before the copy
changes the copy. -/
theorem C50_deepcopy_unaffected_by_original (h : Heap) (l : Nat) (hs : Sound h l) (ops : List HeapOp)
    (hops : ∀ op ∈ ops, ∀ c, op.target = some c → InHeap h c) :
    (heapHistory ops (h.deepcopyLog l).2).viewLog (h.deepcopyLog l).1 =
      (h.deepcopyLog l).2.viewLog (h.deepcopyLog l).1 := by
  obtain ⟨_, _, hso, hown⟩ := deepcopyLog_spec h l hs
  exact history_view ops _ _ hso (fun op hop c hc ho => hown c ho (hops op hop c hc))

/-- C50c: no history of operations on objects that did not exist before the copy, in particular on the copy, its traces
and its events, changes the original. -/
theorem C50_original_unaffected_by_deepcopy (h : Heap) (l : Nat) (hs : Sound h l) (ops : List HeapOp)
    (hops : ∀ op ∈ ops, ∀ c, op.target = some c → ¬ InHeap h c) :
    (heapHistory ops (h.deepcopyLog l).2).viewLog l = h.viewLog l := by
  obtain ⟨hx, _, _, _⟩ := deepcopyLog_spec h l hs
  have ha := hx.agree hs
  refine (history_view ops _ l (agree_sound ha (fun c hc => hx.inHeap hc) hs) ?_).trans ha.view
  intro op hop c hc ho
  exact hops op hop c hc (hs c ((ha.owns c).1 ho))

/-- C50d: the objects of the copy are new. -/
theorem C50_deepcopy_owns_new_objects (h : Heap) (l : Nat) (hs : Sound h l) (c : Cell)
    (hc : Owns (h.deepcopyLog l).2 (h.deepcopyLog l).1 c) : ¬ InHeap h c ∧ InHeap (h.deepcopyLog l).2 c := by
  obtain ⟨_, _, hso, hown⟩ := deepcopyLog_spec h l hs
  exact ⟨hown c hc, hso c hc⟩

theorem history_logs (ops : List HeapOp) (h : Heap) (m : Nat) (hm : m < h.logs.length)
    (hops : ∀ op ∈ ops, op.target ≠ some (.log m)) :
    (heapHistory ops h).logObj m = h.logObj m := by
  induction ops generalizing h with
  | nil => rfl
  | cons op ops ih =>
    have hlen : m < (op.run h).logs.length := run_exists op h (.log m) hm
    refine (ih (op.run h) hlen (fun o ho => hops o (by simp [ho]))).trans ?_
    have ht := hops op (by simp)
    cases op with
    | logSet k o =>
      simp only [HeapOp.run]
      rw [setLog_logObj, if_neg]
      rintro ⟨h1, _⟩
      subst h1
      exact ht rfl
    | newLog o => exact (extends_newLog h o).logObj hm
    | _ => rfl

/-- C50e: a shallow copy reads like the original except for the global values, and it shares the traces: after every
history of operations that does not change the two log objects themselves, however it changes traces and events, both
have the same traces. -/
theorem C50_copy_shares_traces (h : Heap) (l : Nat) (hl : l < h.logs.length) (ops : List HeapOp)
    (hops : ∀ op ∈ ops, op.target ≠ some (.log l) ∧ op.target ≠ some (.log (h.copyLog l).1)) :
    (h.copyLog l).2.viewLog (h.copyLog l).1 = { (h.viewLog l) with globals := [] } ∧
    ((heapHistory ops (h.copyLog l).2).viewLog (h.copyLog l).1).traces =
      ((heapHistory ops (h.copyLog l).2).viewLog l).traces := by
  have hobj : (h.copyLog l).2.logObj (h.copyLog l).1 = { (h.logObj l) with globals := [] } := newLog_logObj _ _
  have hobj' : (h.copyLog l).2.logObj l = h.logObj l := (extends_newLog h _).logObj hl
  refine ⟨?_, ?_⟩
  · unfold Heap.viewLog
    rw [hobj]
    rfl
  · unfold Heap.viewLog
    simp only
    rw [history_logs ops _ _ (by simp [Heap.copyLog, Heap.newLog]) (fun op hop => (hops op hop).2),
      history_logs ops _ l (by simp [Heap.copyLog, Heap.newLog]; omega) (fun op hop => (hops op hop).1), hobj, hobj']

/-- C50f: changing the list of traces of the shallow copy does not change the original. -/
theorem C50_copy_own_list (h : Heap) (l : Nat) (hs : Sound h l) (o : LogObj) :
    ((h.copyLog l).2.setLog (h.copyLog l).1 o).viewLog l = h.viewLog l := by
  have hx : Extends h (h.copyLog l).2 := extends_newLog h _
  have ha := hx.agree hs
  have := run_agree (.logSet (h.copyLog l).1 o) (h.copyLog l).2 l (agree_sound ha (fun c hc => hx.inHeap hc) hs) (by
    intro c hc
    cases hc
    intro ho
    have : Owns h l (.log (h.copyLog l).1) := (ha.owns _).1 ho
    have := hs _ this
    exact Nat.lt_irrefl _ this)
  exact this.view.trans ha.view

/-! ### C56 -/

/-- C56a: mutating the events of a log in place applies the mutation, in every log, to every event as many times as its
object occurs in the mutated log. -/
theorem C56_in_place_mutation (h : Heap) (l : Nat) (hs : Sound h l) (f : Payload → Payload)
    (g : Payload → Except PyErr Payload) (P : Payload → Prop) (hg : ∀ p, P p → g p = .ok (f p))
    (hP : ∀ p, P p → P (f p)) (hp : ∀ e ∈ h.eventRefs l, P (h.event e)) :
    (h.preprocessEvents l g).1 = .ok () ∧ ∀ m, Sound h m →
      (h.preprocessEvents l g).2.viewLog m = { (h.viewLog m) with
        traces := (h.logObj m).traces.map (fun t => { (h.viewTrace t) with
          events := (h.traceObj t).events.map (fun e => f^[(h.eventRefs l).count e] (h.event e)) }) } := by
  have hrefs : ∀ e ∈ h.eventRefs l, e < h.events.length := by
    intro e he
    obtain ⟨t, ht, he⟩ := List.mem_flatMap.1 he
    exact sound_event hs ht he
  obtain ⟨h1, h2, h3, h4, h5⟩ := mutateEvents_spec f g P hg hP (h.eventRefs l) h hrefs hp
  refine ⟨h1, ?_⟩
  intro m hm
  have htr : ∀ t, (h.preprocessEvents l g).2.traceObj t = h.traceObj t := by
    intro t; unfold Heap.preprocessEvents Heap.traceObj; rw [h2]
  have hlo : ∀ t, (h.preprocessEvents l g).2.logObj t = h.logObj t := by
    intro t; unfold Heap.preprocessEvents Heap.logObj; rw [h3]
  unfold Heap.viewLog
  rw [hlo]
  simp only [Log.mk.injEq, and_true]
  apply List.map_congr_left
  intro t ht
  unfold Heap.viewTrace
  rw [htr]
  simp only [Trace.mk.injEq, and_true]
  apply List.map_congr_left
  intro e he
  exact h5 e (sound_event hm ht he)

/-- C56b: if no event object occurs twice in the log, every event of the log is mutated exactly once. -/
theorem C56_each_event_once (h : Heap) (l : Nat) (hs : Sound h l) (hd : (h.eventRefs l).Nodup) (f : Payload → Payload)
    (g : Payload → Except PyErr Payload) (P : Payload → Prop) (hg : ∀ p, P p → g p = .ok (f p))
    (hP : ∀ p, P p → P (f p)) (hp : ∀ e ∈ h.eventRefs l, P (h.event e)) :
    (h.preprocessEvents l g).2.viewLog l = { (h.viewLog l) with
      traces := (h.viewLog l).traces.map (fun t => { t with events := t.events.map f }) } := by
  rw [(C56_in_place_mutation h l hs f g P hg hP hp).2 l hs]
  unfold Heap.viewLog
  simp only [Log.mk.injEq, and_true, List.map_map]
  apply List.map_congr_left
  intro t ht
  simp only [Function.comp, Heap.viewTrace, Trace.mk.injEq, and_true, List.map_map]
  apply List.map_congr_left
  intro e he
  rw [List.count_eq_one_of_mem hd (List.mem_flatMap.2 ⟨t, ht, he⟩)]
  rfl

/-- C56c: logs that share no event object with the mutated log are unchanged. -/
theorem C56_disjoint_unchanged (h : Heap) (l m : Nat) (hs : Sound h l) (hm : Sound h m)
    (hdis : ∀ e ∈ h.eventRefs m, e ∉ h.eventRefs l) (f : Payload → Payload)
    (g : Payload → Except PyErr Payload) (P : Payload → Prop) (hg : ∀ p, P p → g p = .ok (f p))
    (hP : ∀ p, P p → P (f p)) (hp : ∀ e ∈ h.eventRefs l, P (h.event e)) :
    (h.preprocessEvents l g).2.viewLog m = h.viewLog m := by
  rw [(C56_in_place_mutation h l hs f g P hg hP hp).2 m hm]
  unfold Heap.viewLog
  simp only [Log.mk.injEq, and_true]
  apply List.map_congr_left
  intro t ht
  simp only [Heap.viewTrace, Trace.mk.injEq, and_true]
  apply List.map_congr_left
  intro e he
  rw [List.count_eq_zero_of_not_mem (hdis e (List.mem_flatMap.2 ⟨t, ht, he⟩))]
  rfl

/-- The name of an event is there and is a string. -/
theorem renamePayload_ok (f : String → String) (p : Payload) (s : String) (hs : p.get? "concept:name" = some (.str s)) :
    Heap.renamePayload f p = .ok (p.set "concept:name" (.str (f s))) := by
  unfold Heap.renamePayload; rw [hs]

/-- The rename as a total function on payloads. -/
def renamed (f : String → String) (p : Payload) : Payload := (Heap.renamePayload f p).toOption.getD p

theorem renamed_of {f : String → String} {p : Payload} {s : String} (hs : p.get? "concept:name" = some (.str s)) :
    renamed f p = p.set "concept:name" (.str (f s)) := by
  unfold renamed; rw [renamePayload_ok f p s hs]; rfl

theorem renamed_iterate (f : String → String) (p : Payload) (s : String) (n : Nat)
    (hs : p.get? "concept:name" = some (.str s)) :
    ((renamed f)^[n] p).get? "concept:name" = some (.str (f^[n] s)) ∧
      ∀ k, k ≠ "concept:name" → ((renamed f)^[n] p).get? k = p.get? k := by
  induction n generalizing p s with
  | zero => exact ⟨hs, fun _ _ => rfl⟩
  | succ n ih =>
    rw [Function.iterate_succ_apply, Function.iterate_succ_apply, renamed_of hs]
    obtain ⟨h1, h2⟩ := ih (p.set "concept:name" (.str (f s))) (f s) (Dict.get?_set_self _ _ _)
    exact ⟨h1, fun k hk => by rw [h2 k hk, Dict.get?_set_ne _ _ (Ne.symm hk)]⟩

/-- C56d: renaming the events of a log in place. If every event of the log has a name, no error is raised; afterwards,
in whatever log an event is looked at, its name is the renaming iterated as often as the event object occurs in the
renamed log, and its other attributes are as before. -/
theorem C56_rename (h : Heap) (l : Nat) (hs : Sound h l) (f : String → String) (nm : Nat → String)
    (hn : ∀ e ∈ h.eventRefs l, (h.event e).get? "concept:name" = some (.str (nm e))) :
    (h.preprocessNames l f).1 = .ok () ∧ (h.preprocessNames l f).2.logs = h.logs ∧
    (h.preprocessNames l f).2.traces = h.traces ∧
    (∀ e ∈ h.eventRefs l, ((h.preprocessNames l f).2.event e).get? "concept:name" =
      some (.str (f^[(h.eventRefs l).count e] (nm e)))) ∧
    (∀ e, e < h.events.length → e ∉ h.eventRefs l → (h.preprocessNames l f).2.event e = h.event e) ∧
    (∀ e, e < h.events.length → ∀ k, k ≠ "concept:name" →
      ((h.preprocessNames l f).2.event e).get? k = (h.event e).get? k) := by
  have hrefs : ∀ e ∈ h.eventRefs l, e < h.events.length := by
    intro e he
    obtain ⟨t, ht, he⟩ := List.mem_flatMap.1 he
    exact sound_event hs ht he
  obtain ⟨h1, h2, h3, h4, h5⟩ := mutateEvents_spec (renamed f) (Heap.renamePayload f)
    (fun p => ∃ s, p.get? "concept:name" = some (.str s))
    (fun p ⟨s, hp⟩ => by rw [renamePayload_ok f p s hp, renamed_of hp])
    (fun p ⟨s, hp⟩ => ⟨f s, by rw [renamed_of hp, Dict.get?_set_self]⟩) (h.eventRefs l) h hrefs
    (fun e he => ⟨nm e, hn e he⟩)
  refine ⟨h1, h3, h2, ?_, ?_, ?_⟩
  · intro e he
    have := h5 e (hrefs e he)
    unfold Heap.preprocessNames
    rw [this]
    exact (renamed_iterate f _ (nm e) _ (hn e he)).1
  · intro e he hno
    have := h5 e he
    unfold Heap.preprocessNames
    rw [this, List.count_eq_zero_of_not_mem hno]
    rfl
  · intro e he k hk
    have := h5 e he
    unfold Heap.preprocessNames
    rw [this]
    by_cases hmem : e ∈ h.eventRefs l
    · exact (renamed_iterate f _ (nm e) _ (hn e hmem)).2 k hk
    · rw [List.count_eq_zero_of_not_mem hmem]; rfl

/-- C56e: if some event has no name, renaming raises KeyError; the events before it are renamed already. -/
theorem C56_rename_fails (h : Heap) (f : String → String) (pre post : List Nat) (e : Nat) (l : Nat)
    (hrefs : h.eventRefs l = pre ++ e :: post) (hpre : ∀ x ∈ pre, x < h.events.length ∧ x ≠ e)
    (nm : Nat → String) (hn : ∀ x ∈ pre, (h.event x).get? "concept:name" = some (.str (nm x)))
    (he : (h.event e).get? "concept:name" = none) :
    (h.preprocessNames l f).1 = .error .keyError ∧
    ∀ x ∈ pre, ((h.preprocessNames l f).2.event x).get? "concept:name" = some (.str (f^[pre.count x] (nm x))) := by
  obtain ⟨h1, h2, h3, h4, h5⟩ := mutateEvents_spec (renamed f) (Heap.renamePayload f)
    (fun p => ∃ s, p.get? "concept:name" = some (.str s))
    (fun p ⟨s, hp⟩ => by rw [renamePayload_ok f p s hp, renamed_of hp])
    (fun p ⟨s, hp⟩ => ⟨f s, by rw [renamed_of hp, Dict.get?_set_self]⟩) pre h (fun x hx => (hpre x hx).1)
    (fun x hx => ⟨nm x, hn x hx⟩)
  have happ : ∀ (a b : List Nat) (h : Heap), (Heap.mutateEvents (Heap.renamePayload f) a h).1 = .ok () →
      Heap.mutateEvents (Heap.renamePayload f) (a ++ b) h =
        Heap.mutateEvents (Heap.renamePayload f) b (Heap.mutateEvents (Heap.renamePayload f) a h).2 := by
    intro a
    induction a with
    | nil => intro b h _; rfl
    | cons x a ih =>
      intro b h hok
      unfold Heap.mutateEvents at hok
      rw [List.cons_append]
      conv_lhs => unfold Heap.mutateEvents
      conv_rhs => rw [Heap.mutateEvents]
      cases hg : Heap.renamePayload f (h.event x) with
      | error e => rw [hg] at hok; simp at hok
      | ok p => rw [hg] at hok; exact ih b _ hok
  have hev : (Heap.mutateEvents (Heap.renamePayload f) pre h).2.event e = h.event e := by
    by_cases hlt : e < h.events.length
    · rw [h5 e hlt, List.count_eq_zero_of_not_mem (fun hm => (hpre e hm).2 rfl)]; rfl
    · unfold Heap.event
      rw [List.getElem?_eq_none (by omega), List.getElem?_eq_none (by omega)]
  have hrun : h.preprocessNames l f = (.error .keyError, (Heap.mutateEvents (Heap.renamePayload f) pre h).2) := by
    unfold Heap.preprocessNames
    rw [hrefs, happ pre _ h h1]
    conv_lhs => unfold Heap.mutateEvents
    rw [hev]
    unfold Heap.renamePayload
    rw [he]
  rw [hrun]
  refine ⟨rfl, ?_⟩
  intro x hx
  simp only
  rw [h5 x (hpre x hx).1]
  exact (renamed_iterate f _ (nm x) _ (hn x hx)).1

/-- The removal as a total function on payloads. -/
def withoutLifecycle (p : Payload) : Payload := p.del "lifecycle:transition"

theorem del_absent (p : Payload) (k : String) (hk : p.contains k = false) : p.del k = p := by
  have : k ∉ Dict.keys p := by
    intro hm
    rw [(Dict.contains_iff p k).2 hm] at hk
    simp at hk
  unfold Dict.del
  apply List.filter_eq_self.2
  intro x hx
  simp only [ne_eq, decide_eq_true_eq]
  intro hxk
  subst hxk
  exact this (List.mem_map.2 ⟨x, hx, rfl⟩)

theorem dropLifecycle_eq (p : Payload) : Heap.dropLifecycle p = .ok (withoutLifecycle p) := by
  unfold Heap.dropLifecycle withoutLifecycle
  by_cases hc : p.contains "lifecycle:transition" = true
  · rw [if_pos hc]
  · rw [if_neg hc, del_absent p _ (by simpa using hc)]

theorem withoutLifecycle_iterate (p : Payload) (n : Nat) (k : String) :
    ((withoutLifecycle)^[n + 1] p).get? k = if k = "lifecycle:transition" then none else p.get? k := by
  induction n generalizing p with
  | zero =>
    show (p.del _).get? k = _
    rw [Dict.get?_del]
    by_cases hk : k = "lifecycle:transition"
    · simp [hk]
    · simp [hk, Ne.symm hk]
  | succ n ih =>
    rw [Function.iterate_succ_apply, ih]
    by_cases hk : k = "lifecycle:transition"
    · simp [hk]
    · simp only [hk, if_false]
      show (p.del _).get? k = _
      rw [Dict.get?_del, if_neg (Ne.symm hk)]

/-- C56f: removing the lifecycle attribute never raises; afterwards no event of the log has it, in whatever log the event
is looked at, all other attributes of all events are as before, and so are the events that do not belong to the log. -/
theorem C56_lifecycle_removed (h : Heap) (l : Nat) (hs : Sound h l) :
    (h.removeLifecycle l).1 = .ok () ∧ (h.removeLifecycle l).2.logs = h.logs ∧
    (h.removeLifecycle l).2.traces = h.traces ∧
    (∀ e ∈ h.eventRefs l, ∀ k, ((h.removeLifecycle l).2.event e).get? k =
      if k = "lifecycle:transition" then none else (h.event e).get? k) ∧
    (∀ e, e < h.events.length → e ∉ h.eventRefs l → (h.removeLifecycle l).2.event e = h.event e) := by
  have hrefs : ∀ e ∈ h.eventRefs l, e < h.events.length := by
    intro e he
    obtain ⟨t, ht, he⟩ := List.mem_flatMap.1 he
    exact sound_event hs ht he
  obtain ⟨h1, h2, h3, h4, h5⟩ := mutateEvents_spec withoutLifecycle Heap.dropLifecycle (fun _ => True)
    (fun p _ => dropLifecycle_eq p) (fun _ _ => trivial) (h.eventRefs l) h hrefs (fun _ _ => trivial)
  refine ⟨h1, h3, h2, ?_, ?_⟩
  · intro e he k
    have := h5 e (hrefs e he)
    unfold Heap.removeLifecycle Heap.preprocessEvents
    rw [this]
    obtain ⟨n, hn⟩ : ∃ n, (h.eventRefs l).count e = n + 1 :=
      ⟨_, (Nat.succ_pred_eq_of_pos (List.count_pos_iff.2 he)).symm⟩
    rw [hn, withoutLifecycle_iterate]
  · intro e he hno
    have := h5 e he
    unfold Heap.removeLifecycle Heap.preprocessEvents
    rw [this, List.count_eq_zero_of_not_mem hno]
    rfl

/-! ### Concrete cases -/

/-- Two logs that share their only event object, and a third one that has its own. -/
def sharedHeap : Heap :=
  { events := [[("concept:name", .str "a"), ("lifecycle:transition", .str "start")], [("concept:name", .str "b")]],
    traces := [{ events := [0, 1], attributes := [("case", .str "1")] }, { events := [0] }, { events := [1] }],
    logs := [{ traces := [0], globals := [("event", [])] }, { traces := [1, 1] }, { traces := [2] }] }

theorem sharedHeap_sound (l : Nat) (hl : l < 3) : Sound sharedHeap l := by
  rintro c (rfl | ⟨t, ht, rfl⟩ | ⟨t, ht, e, he, rfl⟩)
  · exact hl
  · rcases l with _ | _ | _ | l
    all_goals first | omega | (simp [sharedHeap, Heap.logObj] at ht; subst ht; simp [InHeap, sharedHeap])
  · rcases l with _ | _ | _ | l
    all_goals first
      | omega
      | (simp [sharedHeap, Heap.logObj] at ht; subst ht; simp [sharedHeap, Heap.traceObj] at he
         simp [InHeap, sharedHeap]; omega)

/-- The hypotheses of C50 are met; the copy has its own trace and events, and the trace attribute is lost. -/
example : Sound sharedHeap 0 ∧
    ((sharedHeap.deepcopyLog 0).1, (sharedHeap.deepcopyLog 0).2.logObj 3, (sharedHeap.deepcopyLog 0).2.traceObj 3) =
      (3, { traces := [3] }, { events := [2, 3] }) := ⟨sharedHeap_sound 0 (by omega), by decide⟩

/-- Renaming the original after the copy does not reach the copy, renaming the copy does not reach the original. -/
example :
    ((heapHistory [.setAttr 0 "concept:name" (.str "z")] (sharedHeap.deepcopyLog 0).2).viewLog 3).traces =
      [{ events := [[("concept:name", .str "a"), ("lifecycle:transition", .str "start")], [("concept:name", .str "b")]] }] ∧
    (heapHistory [.setAttr 2 "concept:name" (.str "z")] (sharedHeap.deepcopyLog 0).2).viewLog 0 = sharedHeap.viewLog 0 := by
  decide

/-- After a shallow copy the renaming is seen in the copy. -/
example :
    ((heapHistory [.setAttr 0 "concept:name" (.str "z")] (sharedHeap.copyLog 0).2).viewLog 3).traces =
      [{ events := [[("concept:name", .str "z"), ("lifecycle:transition", .str "start")], [("concept:name", .str "b")]],
         attributes := [("case", .str "1")] }] := by decide

/-- C56, disagreement with "every event is mutated once": the event of log 1 occurs twice in it (its trace is listed
twice), so it is renamed twice, and the renaming is seen in log 0, but not in log 2. -/
theorem C56_shared_event_renamed_twice :
    ((sharedHeap.preprocessNames 1 (fun s => s ++ "!")).2.viewLog 0).traces.map (fun t => t.events.map (·.get? "concept:name")) =
      [[some (.str "a!!"), some (.str "b")]] ∧
    (sharedHeap.preprocessNames 1 (fun s => s ++ "!")).2.viewLog 2 = sharedHeap.viewLog 2 := by decide

/-- The hypotheses of C56 are met by log 0, whose event objects are distinct. -/
example : (sharedHeap.eventRefs 0).Nodup ∧
    ∀ e ∈ sharedHeap.eventRefs 0, (sharedHeap.event e).get? "concept:name" = some (.str (if e = 0 then "a" else "b")) := by
  decide

example : (sharedHeap.removeLifecycle 0).2.event 0 = [("concept:name", .str "a")] := by decide

/-- A log whose second event has no name. -/
example :
    let h : Heap := { events := [[("concept:name", .str "a")], []], traces := [{ events := [0, 1] }], logs := [{ traces := [0] }] }
    (h.preprocessNames 0 (fun s => s ++ "!")).1 = .error .keyError ∧
      (h.preprocessNames 0 (fun s => s ++ "!")).2.event 0 = [("concept:name", .str "a!")] := by decide

end Ficus
