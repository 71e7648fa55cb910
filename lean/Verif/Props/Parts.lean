import Verif.Proofs.Parts
import Verif.Props.Heap

/-! Properties C43 (logs) and C56 (filters and artificial events): what parts do to the logs of their caller. -/

namespace Ficus
open Spec

/-! ### C56, filters and artificial events -/

/-- C56g: filtering reads like the filtered values, creates a new log with new traces, and shares the kept event
objects; nothing that existed is changed. -/
theorem C56_filter_shares_events (h : Heap) (l : Nat) (hs : Sound h l) (select : Payload → Bool) :
    (h.filterEventsInto l select).2.viewLog (h.filterEventsInto l select).1 = filterEvents (h.viewLog l) select ∧
    (h.filterEventsInto l select).2.eventRefs (h.filterEventsInto l select).1 =
      (h.eventRefs l).filter (fun e => select (h.event e)) ∧
    (∀ t ∈ ((h.filterEventsInto l select).2.logObj (h.filterEventsInto l select).1).traces, ¬ InHeap h (.trace t)) ∧
    ¬ InHeap h (.log (h.filterEventsInto l select).1) ∧
    ∀ m, Sound h m → (h.filterEventsInto l select).2.viewLog m = h.viewLog m := by
  obtain ⟨b1, b2, b3, b4, b5⟩ := filterEventsLoop_spec select (h.logObj l).traces h (fun t ht =>
    ⟨sound_trace hs ht, fun e he => sound_event hs ht he⟩)
  have hobj := filterEventsInto_logObj h l select
  have hev : (h.filterEventsInto l select).2.event = h.event := by
    funext e
    show Heap.event _ e = _
    unfold Heap.event
    show (Heap.filterEventsLoop select (h.logObj l).traces h).2.events[e]?.getD [] = _
    rw [b2]
  have htr : ∀ t, (h.filterEventsInto l select).2.traceObj t =
      (Heap.filterEventsLoop select (h.logObj l).traces h).2.traceObj t := fun _ => rfl
  have hdrop : ∀ L : List (List Nat), (L.filter (fun es => decide (es.length > 0))).flatten = L.flatten := by
    intro L
    induction L with
    | nil => rfl
    | cons a L ih =>
      cases a with
      | nil => simpa using ih
      | cons x a => simp [ih]
  refine ⟨?_, ?_, ?_, ?_, fun m hm => ((filterEventsInto_extends h l hs select).agree hm).view⟩
  · rw [filterEvents_eq_ofEvs]
    unfold Heap.viewLog Log.ofEvs
    rw [hobj]
    simp only [Log.mk.injEq, and_true]
    have : ∀ t, (h.filterEventsInto l select).2.viewTrace t =
        (fun o : TraceObj => ({ events := o.events.map h.event, attributes := o.attributes } : Trace Payload))
          ((Heap.filterEventsLoop select (h.logObj l).traces h).2.traceObj t) := by
      intro t; unfold Heap.viewTrace; rw [hev]; rfl
    rw [List.map_congr_left (fun t _ => this t)]
    have h2 := congrArg (List.map (fun o : TraceObj =>
      ({ events := o.events.map h.event, attributes := o.attributes } : Trace Payload))) b4
    rw [List.map_map, List.map_map] at h2
    refine h2.trans ?_
    unfold Log.evs
    simp only [List.map_map]
    have hmm : ∀ ts : List Nat,
        ((ts.map (fun t => (h.traceObj t).events.filter (fun e => select (h.event e)))).filter
          (fun es => decide (es.length > 0))).map
          ((fun o : TraceObj => ({ events := o.events.map h.event, attributes := o.attributes } : Trace Payload)) ∘
            (fun es => ({ events := es } : TraceObj))) =
        (((ts.map ((fun t => t.filter select) ∘ Trace.events ∘ h.viewTrace))).filter
          (fun t => decide (t ≠ []))).map (fun t => ({ events := t } : Trace Payload)) := by
      intro ts
      induction ts with
      | nil => rfl
      | cons t ts ih =>
        have hf : ((fun t => t.filter select) ∘ Trace.events ∘ h.viewTrace) t =
            ((h.traceObj t).events.filter (fun e => select (h.event e))).map h.event := by
          simp only [Function.comp, Heap.viewTrace, List.filter_map]
          rfl
        rw [List.map_cons, List.map_cons, hf]
        cases hc : (h.traceObj t).events.filter (fun e => select (h.event e)) with
        | nil => simpa using ih
        | cons a r =>
          rw [List.filter_cons_of_pos (by simp), List.filter_cons_of_pos (by simp), List.map_cons, List.map_cons, ih]
          rfl
    exact hmm _
  · unfold Heap.eventRefs
    rw [hobj]
    simp only
    have h2 := congrArg (List.flatMap (fun o : TraceObj => o.events)) b4
    rw [List.flatMap_map, List.flatMap_map] at h2
    refine h2.trans ?_
    rw [List.flatMap_id', hdrop, List.filter_flatMap, List.flatMap_def]
  · intro t ht
    rw [hobj] at ht
    exact Nat.not_lt.2 (b5 t ht).1
  · show ¬ (Heap.filterEventsLoop select (h.logObj l).traces h).2.logs.length < h.logs.length
    rw [b3]
    exact Nat.lt_irrefl _

/-- C56h: adding the artificial events puts one start event before and one end event behind every trace of the log, if
no trace object is listed twice; traces that do not belong to the log are as before, in whatever log they are. -/
theorem C56_artificial_events (h : Heap) (l : Nat) (hs : Sound h l) (hd : (h.logObj l).traces.Nodup) :
    (h.addArtificial l).logs = h.logs ∧
    ∀ m, Sound h m → (h.addArtificial l).viewLog m = { (h.viewLog m) with
      traces := (h.logObj m).traces.map (fun t => if t ∈ (h.logObj l).traces then
          { (h.viewTrace t) with
            events := [("concept:name", .str "ARTIFICIAL_START")] :: (h.viewTrace t).events ++
              [[("concept:name", .str "ARTIFICIAL_END")]] }
        else h.viewTrace t) } := by
  obtain ⟨h1, h2⟩ := addArtificial_fold (h.logObj l).traces h hd (fun t ht =>
    ⟨sound_trace hs ht, fun e he => sound_event hs ht he⟩)
  refine ⟨h1, ?_⟩
  intro m hm
  have hlo : (h.addArtificial l).logObj m = h.logObj m := by
    unfold Heap.logObj Heap.addArtificial; rw [h1]
  unfold Heap.viewLog
  rw [hlo]
  simp only [Log.mk.injEq, and_true]
  apply List.map_congr_left
  intro t ht
  exact h2 t ⟨sound_trace hm ht, fun e he => sound_event hm ht he⟩

/-- The artificial events on a concrete heap, and a trace listed twice that gets them twice. -/
example : ((sharedHeap.addArtificial 0).viewLog 0).traces.map (fun t => t.events.map (·.get? "concept:name")) =
    [[some (.str "ARTIFICIAL_START"), some (.str "a"), some (.str "b"), some (.str "ARTIFICIAL_END")]] ∧
    (sharedHeap.logObj 0).traces.Nodup ∧
    ((sharedHeap.addArtificial 1).viewLog 1).traces.map (fun t => t.events.map (·.get? "concept:name")) =
    [[some (.str "ARTIFICIAL_START"), some (.str "ARTIFICIAL_START"), some (.str "a"), some (.str "ARTIFICIAL_END"),
      some (.str "ARTIFICIAL_END")], [some (.str "ARTIFICIAL_START"), some (.str "ARTIFICIAL_START"), some (.str "a"),
      some (.str "ARTIFICIAL_END"), some (.str "ARTIFICIAL_END")]] := by decide

/-! ### C43, logs -/

/-- C43e (partial: holds for the parts that create new objects instead of changing existing ones): if no function inside
the nested pipelines changes existing log, trace or event objects, then after WithInputCopy or ParallelPipeline every log
reads as before, whether the run succeeds or raises. -/
theorem C43_logs_kept_partial (p : List (Part Nat Heap)) (hp : CreatingL p) (ps : List (List (Part Nat Heap)))
    (hps : CreatingLL ps) (v : Input) (w : World Nat Heap) (m : Nat) (hm : Sound w.rest m) :
    ((Part.withCopy p).exec v w).2.rest.viewLog m = w.rest.viewLog m ∧
    ((Part.parallel ps).exec v w).2.rest.viewLog m = w.rest.viewLog m :=
  ⟨((creating_part (.withCopy p) (by simpa only [Creating] using hp) v w).agree hm).view,
    ((creating_part (.parallel ps) (by simpa only [Creating] using hps) v w).agree hm).view⟩

theorem inputLog_rest (v : Input) (w : World Nat Heap) : (inputLog v w).2.rest = w.rest := by
  cases v with
  | none => rfl
  | some r => show (getOrThrow r "log" w).2.rest = _; rw [getOrThrow_eq]

theorem freshWithLog_rest (l : Nat) (w : World Nat Heap) : (freshWithLog l w).2.rest = w.rest := rfl

theorem inputWithLog_rest (v : Input) (l : Nat) (w : World Nat Heap) : (inputWithLog v l w).2.rest = w.rest := by
  cases v <;> rfl

/-- C43f: the filtering parts are such parts. -/
theorem C43_filters_create (select : Payload → Bool) :
    Creating (removeByNamesPart select) ∧ Creating (removeByPredicatePart select) := by
  constructor
  · unfold removeByNamesPart
    simp only [Creating]
    intro v w
    refine same_bind (by rw [inputLog_rest]; exact Same.refl _) (fun l w' => ?_)
    refine same_bind (filterEventsInto_extends' _ _ _).same (fun n w'' => ?_)
    rw [freshWithLog_rest]; exact Same.refl _
  · unfold removeByPredicatePart
    simp only [Creating]
    intro v w
    refine same_bind (by rw [inputLog_rest]; exact Same.refl _) (fun l w' => ?_)
    refine same_bind (filterEventsInto_extends' _ _ _).same (fun n w'' => ?_)
    rw [inputWithLog_rest]; exact Same.refl _

/-- C43g, disagreement: an in-place part inside WithInputCopy changes the caller's log exactly as if it were run without
the copy. The caller's context still refers to that log. -/
theorem C43_in_place_parts_leak (g : Payload → Except PyErr Payload) (r l : Nat) (w : World Nat Heap)
    (hr : r < w.ctxs.length) (hl : (w.ctx r).get? "log" = some l) :
    ((Part.withCopy [preprocessEventsPart g]).exec (some r) w).2.rest = (w.rest.preprocessEvents l g).2 ∧
    (((Part.withCopy [preprocessEventsPart g]).exec (some r) w).2.ctx r).get? "log" = some l ∧
    ((Part.withCopy [preprocessEventsPart g]).exec (some r) w).2.rest = ((preprocessEventsPart g).exec (some r) w).2.rest := by
  have hcopy : World.ctx (V := Nat) (S := Heap) { w with ctxs := w.ctxs ++ [w.ctx r], used := [] } w.ctxs.length = w.ctx r := by
    simp [World.ctx]
  have hget : getOrThrow (V := Nat) (S := Heap) w.ctxs.length "log" { w with ctxs := w.ctxs ++ [w.ctx r], used := [] } =
      (.ok l, { w with ctxs := w.ctxs ++ [w.ctx r], used := [] }) := by
    rw [getOrThrow_eq, hcopy, hl]
  have hget' : getOrThrow (V := Nat) (S := Heap) r "log" w = (.ok l, w) := by rw [getOrThrow_eq, hl]
  have hctx : ∀ rest u, World.ctx (V := Nat) (S := Heap) ⟨w.ctxs ++ [w.ctx r], u, rest⟩ r = w.ctx r := by
    intro rest u
    unfold World.ctx
    simp only
    rw [List.getElem?_append_left hr]
  have hrun : (Part.withCopy [preprocessEventsPart g]).exec (some r) w =
      ((w.rest.preprocessEvents l g).1.map (fun _ => some r),
        { ctxs := w.ctxs ++ [w.ctx r], used := [], rest := (w.rest.preprocessEvents l g).2 }) := by
    simp only [Part.exec, execParts, preprocessEventsPart, copyInput, copyContext, Py.bind, resetColors, inputLog, Py.ret,
      hget, onHeap]
    cases (w.rest.preprocessEvents l g).1 <;> rfl
  have hrun' : ((preprocessEventsPart g).exec (some r) w).2.rest = (w.rest.preprocessEvents l g).2 := by
    simp only [Part.exec, preprocessEventsPart, Py.bind, inputLog, Py.ret, hget', onHeap]
    cases (w.rest.preprocessEvents l g).1 <;> rfl
  rw [hrun, hrun']
  exact ⟨rfl, by rw [hctx]; exact hl, rfl⟩

/-- A caller's context that refers to log 0 of the heap with shared events. -/
def leakWorld : World Nat Heap := { ctxs := [[("log", 0)]], used := [], rest := sharedHeap }

/-- C43h, disagreement: renaming inside WithInputCopy renames the caller's events, even if a filter has made a new log
before; likewise in a branch of ParallelPipeline. -/
theorem C43_renaming_leaks :
    (((Part.withCopy [preprocessNamesPart (fun s => s ++ "!")]).exec (some 0) leakWorld).2.rest.viewLog 0).traces.map
      (fun t => t.events.map (·.get? "concept:name")) = [[some (.str "a!"), some (.str "b!")]] ∧
    (((Part.withCopy [removeByNamesPart (fun p => decide (p.get? "concept:name" ≠ some (.str "b"))),
        preprocessNamesPart (fun s => s ++ "!")]).exec (some 0) leakWorld).2.rest.viewLog 0).traces.map
      (fun t => t.events.map (·.get? "concept:name")) = [[some (.str "a!"), some (.str "b")]] ∧
    (((Part.parallel [[preprocessNamesPart (fun s => s ++ "!")], [preprocessNamesPart (fun s => s ++ "?")]]).exec (some 0)
        leakWorld).2.rest.viewLog 0).traces.map
      (fun t => t.events.map (·.get? "concept:name")) = [[some (.str "a!?"), some (.str "b!?")]] := by decide

/-- The hypotheses of C43e and C43g are met. -/
example : CreatingL [removeByNamesPart (fun _ => true), .withCopy [removeByPredicatePart (fun _ => false)]] ∧
    Sound leakWorld.rest 0 ∧ (leakWorld.ctx 0).get? "log" = some 0 := by
  refine ⟨?_, sharedHeap_sound 0 (by omega), rfl⟩
  simp only [CreatingL, Creating]
  exact ⟨(C43_filters_create _).1, ⟨(C43_filters_create _).2, trivial⟩, trivial⟩

/-- C43, contexts: the parts of mutations_parts.py are disciplined, so that C43a-c apply to them. -/
theorem confined_ofLog (f : Nat → LogPy Unit) (hf : ∀ l w, (f l w).2.ctxs = w.ctxs) :
    Confined (fun v => Py.bind (inputLog v) (fun l => Py.bind (f l) (fun _ => (Py.ret v : LogPy Input)))) := by
  intro v w hv
  have hw : (inputLog v w).2 = w := by
    cases v with
    | none => rfl
    | some r => show (getOrThrow r "log" w).2 = _; rw [getOrThrow_eq]
  cases h : inputLog v w with
  | mk res w' =>
    rw [h] at hw
    subst hw
    cases res with
    | error e => simp only [Py.bind_error h]; exact ⟨Keeps.refl _ _, fun v' h => by simp at h⟩
    | ok l =>
      simp only [Py.bind_ok h]
      have hc := hf l w'
      cases h2 : f l w' with
      | mk res2 w2 =>
        rw [h2] at hc
        have hk : Keeps (fun q => v = some q) w' w2 := by
          refine ⟨by rw [hc], fun q _ _ => by rw [hc]⟩
        cases res2 with
        | error e => simp only [Py.bind_error h2]; exact ⟨hk, fun v' h => by simp at h⟩
        | ok u =>
          simp only [Py.bind_ok h2]
          exact ⟨hk, fun v' h => Or.inl (Except.ok.inj h).symm⟩

/-- C43i: the in-place parts that keep their context are disciplined: the isolation of contexts holds for them. -/
theorem C43_in_place_parts_disciplined (g : Payload → Except PyErr Payload) (sel : Payload → Bool)
    (ex : Payload → String) :
    DisciplinedL [preprocessEventsPart g, applyExtractorPart sel ex, removeLifecyclePart, addArtificialPart] := by
  simp only [DisciplinedL, preprocessEventsPart, applyExtractorPart, removeLifecyclePart, addArtificialPart, Disciplined]
  refine ⟨?_, ?_, ?_, ?_, trivial⟩ <;> exact confined_ofLog _ (fun _ _ => rfl)

theorem freshWithLog_eq (l : Nat) (w : World Nat Heap) :
    freshWithLog l w = (.ok (some w.ctxs.length), { w with ctxs := w.ctxs ++ [[("log", l)]] }) := by
  unfold freshWithLog Py.bind newContext withValue World.setCtx World.ctx Py.ret
  simp [Dict.set]

/-- C43j: so are the parts that return a new context with the log. -/
theorem C43_fresh_parts_disciplined (select : Payload → Bool) (f : String → String) :
    DisciplinedL [removeByNamesPart select, preprocessNamesPart f] := by
  have key : ∀ {A : Type} (k : Nat → LogPy A) (out : Nat → A → Nat), (∀ l w, (k l w).2.ctxs = w.ctxs) →
      Confined (fun v => Py.bind (inputLog v) (fun l => Py.bind (k l) (fun a => freshWithLog (out l a)))) := by
    intro A k out hf v w hv
    have hw : (inputLog v w).2 = w := by
      cases v with
      | none => rfl
      | some r => show (getOrThrow r "log" w).2 = _; rw [getOrThrow_eq]
    cases h : inputLog v w with
    | mk res w' =>
      rw [h] at hw
      subst hw
      cases res with
      | error e => simp only [Py.bind_error h]; exact ⟨Keeps.refl _ _, fun v' h => by simp at h⟩
      | ok l =>
        simp only [Py.bind_ok h]
        have hc := hf l w'
        cases h2 : k l w' with
        | mk res2 w2 =>
          rw [h2] at hc
          simp only at hc
          have hk : Keeps (fun q => v = some q) w' w2 := by
            refine ⟨by rw [hc], fun q _ _ => by rw [hc]⟩
          cases res2 with
          | error e => simp only [Py.bind_error h2]; exact ⟨hk, fun v' h => by simp at h⟩
          | ok u =>
            simp only [Py.bind_ok h2, freshWithLog_eq]
            refine ⟨⟨by simp [hc], ?_⟩, ?_⟩
            · intro q hq _
              simp only
              rw [hc, List.getElem?_append_left hq]
            · intro v' hv'
              refine Or.inr (Or.inr ⟨w2.ctxs.length, (Except.ok.inj hv').symm, by rw [hc], by simp⟩)
  simp only [DisciplinedL, removeByNamesPart, preprocessNamesPart, Disciplined]
  exact ⟨key (fun l => onHeap (fun h => (.ok (h.filterEventsInto l select).1, (h.filterEventsInto l select).2)))
      (fun _ n => n) (fun _ _ => rfl),
    key (fun l => onHeap (fun h => h.preprocessNames l f)) (fun l _ => l) (fun _ _ => rfl), trivial⟩

theorem inputLog_some {r l : Nat} {w : World Nat Heap} (hl : (w.ctx r).get? "log" = some l) :
    inputLog (some r) w = (.ok l, w) := by
  show getOrThrow r "log" w = _
  rw [getOrThrow_eq, hl]

/-- C56, parts: `AddArtificialStartEndEvents` returns its context, in which every trace of the log has got a first and a
last event. -/
theorem C56_artificial_part (r l : Nat) (w : World Nat Heap) (hl : (w.ctx r).get? "log" = some l)
    (hs : Sound w.rest l) (hd : (w.rest.logObj l).traces.Nodup) :
    ∃ w', addArtificialPart.exec (some r) w = (.ok (some r), w') ∧ w'.ctxs = w.ctxs ∧
      (w'.rest.viewLog l).traces = (w.rest.viewLog l).traces.map (fun t => { t with
        events := [("concept:name", .str "ARTIFICIAL_START")] :: t.events ++
          [[("concept:name", .str "ARTIFICIAL_END")]] }) := by
  refine ⟨{ w with rest := w.rest.addArtificial l }, ?_, rfl, ?_⟩
  · simp only [Part.exec, addArtificialPart, Py.bind, inputLog_some hl, onHeap, Py.ret]
  · simp only [(C56_artificial_events w.rest l hs hd).2 l hs]
    simp only [Heap.viewLog, List.map_map]
    apply List.map_congr_left
    intro t ht
    simp only [ht, if_true, Function.comp_apply]

/-- C56, parts: `ApplyClassExtractor` returns its context, and in its log, when no event object occurs twice, exactly the
selected events have the class as their name and nothing else changes. -/
theorem C56_extractor_part (sel : Payload → Bool) (ex : Payload → String) (r l : Nat) (w : World Nat Heap)
    (hl : (w.ctx r).get? "log" = some l) (hs : Sound w.rest l) (hd : (w.rest.eventRefs l).Nodup) :
    ∃ w', (applyExtractorPart sel ex).exec (some r) w = (.ok (some r), w') ∧ w'.ctxs = w.ctxs ∧
      (w'.rest.viewLog l).traces = (w.rest.viewLog l).traces.map (fun t => { t with
        events := t.events.map (fun p => if sel p then p.set "concept:name" (.str (ex p)) else p) }) := by
  have hg : ∀ p, True → Heap.applyExtractor sel ex p =
      .ok (if sel p then p.set "concept:name" (.str (ex p)) else p) := by
    intro p _; unfold Heap.applyExtractor; split <;> rfl
  have h1 := (C56_in_place_mutation w.rest l hs _ _ (fun _ => True) hg (fun _ _ => trivial) (fun _ _ => trivial)).1
  have h2 := C56_each_event_once w.rest l hs hd _ _ (fun _ => True) hg (fun _ _ => trivial) (fun _ _ => trivial)
  refine ⟨{ w with rest := (w.rest.preprocessEvents l (Heap.applyExtractor sel ex)).2 }, ?_, rfl, ?_⟩
  · simp only [Part.exec, applyExtractorPart, Py.bind, inputLog_some hl, onHeap, Py.ret, h1]
  · simp only [h2]

/-- C56, parts: `RemoveLifecycleTransitionsAttributes` returns its context, and no event of its log has the attribute any
more, while all others stay. -/
theorem C56_lifecycle_part (r l : Nat) (w : World Nat Heap) (hl : (w.ctx r).get? "log" = some l)
    (hs : Sound w.rest l) :
    ∃ w', removeLifecyclePart.exec (some r) w = (.ok (some r), w') ∧ w'.ctxs = w.ctxs ∧
      w'.rest.traces = w.rest.traces ∧ w'.rest.logs = w.rest.logs ∧
      ∀ e ∈ w.rest.eventRefs l, ∀ k, (w'.rest.event e).get? k =
        if k = "lifecycle:transition" then none else (w.rest.event e).get? k := by
  obtain ⟨h1, h2, h3, h4, _⟩ := C56_lifecycle_removed w.rest l hs
  refine ⟨{ w with rest := (w.rest.removeLifecycle l).2 }, ?_, rfl, h3, h2, h4⟩
  simp only [Part.exec, removeLifecyclePart, Py.bind, inputLog_some hl, onHeap, Py.ret, h1]

/-- C56, parts: `PreprocessEventsNames` returns a new context that holds the same log and nothing else, and every event of
the log is renamed once per occurrence. -/
theorem C56_rename_part (f : String → String) (r l : Nat) (w : World Nat Heap) (hl : (w.ctx r).get? "log" = some l)
    (hs : Sound w.rest l) (nm : Nat → String)
    (hn : ∀ e ∈ w.rest.eventRefs l, (w.rest.event e).get? "concept:name" = some (.str (nm e))) :
    ∃ w', (preprocessNamesPart f).exec (some r) w = (.ok (some w.ctxs.length), w') ∧
      w'.ctxs = w.ctxs ++ [[("log", l)]] ∧
      ∀ e ∈ w.rest.eventRefs l, (w'.rest.event e).get? "concept:name" =
        some (.str (f^[(w.rest.eventRefs l).count e] (nm e))) := by
  obtain ⟨h1, _, _, h4, _⟩ := C56_rename w.rest l hs f nm hn
  refine ⟨{ w with rest := (w.rest.preprocessNames l f).2, ctxs := w.ctxs ++ [[("log", l)]] }, ?_, rfl, h4⟩
  simp only [Part.exec, preprocessNamesPart, Py.bind, inputLog_some hl, onHeap, h1, freshWithLog_eq]

/-- C56, parts: `RemoveEventFromLogByName(s)` return a new context that holds the filtered log and nothing else;
`RemoveEventsFromLogPredicate` keeps its context and replaces the log in it. The old log stays as it was. -/
theorem C56_filter_parts (select : Payload → Bool) (r l : Nat) (w : World Nat Heap) (hr : r < w.ctxs.length)
    (hl : (w.ctx r).get? "log" = some l) (hs : Sound w.rest l) :
    (∃ w' n, (removeByNamesPart select).exec (some r) w = (.ok (some w.ctxs.length), w') ∧
      w'.ctxs = w.ctxs ++ [[("log", n)]] ∧ w'.rest.viewLog n = filterEvents (w.rest.viewLog l) select ∧
      w'.rest.viewLog l = w.rest.viewLog l) ∧
    (∃ w' n, (removeByPredicatePart select).exec (some r) w = (.ok (some r), w') ∧
      (∀ k, (w'.ctx r).get? k = if k = "log" then some n else (w.ctx r).get? k) ∧
      w'.rest.viewLog n = filterEvents (w.rest.viewLog l) (fun e => !select e) ∧
      w'.rest.viewLog l = w.rest.viewLog l) := by
  constructor
  · obtain ⟨h1, _, _, _, h5⟩ := C56_filter_shares_events w.rest l hs select
    refine ⟨{ w with rest := (w.rest.filterEventsInto l select).2,
                     ctxs := w.ctxs ++ [[("log", (w.rest.filterEventsInto l select).1)]] }, _, ?_, rfl, h1, h5 l hs⟩
    simp only [Part.exec, removeByNamesPart, Py.bind, inputLog_some hl, onHeap, freshWithLog_eq]
  · obtain ⟨h1, _, _, _, h5⟩ := C56_filter_shares_events w.rest l hs (fun e => !select e)
    refine ⟨World.setCtx { w with rest := (w.rest.filterEventsInto l (fun e => !select e)).2 } r
        ((w.ctx r).set "log" (w.rest.filterEventsInto l (fun e => !select e)).1), _, ?_, ?_, h1, h5 l hs⟩
    · simp only [Part.exec, removeByPredicatePart, Py.bind, inputLog_some hl, onHeap, inputWithLog, withValue, Py.ret]
      rfl
    · intro k
      have : World.ctx (World.setCtx { w with rest := (w.rest.filterEventsInto l (fun e => !select e)).2 } r
          ((w.ctx r).set "log" (w.rest.filterEventsInto l (fun e => !select e)).1)) r =
          (w.ctx r).set "log" (w.rest.filterEventsInto l (fun e => !select e)).1 := by
        simp [World.ctx, World.setCtx, hr]
      rw [this, Dict.get?_set]
      by_cases hk : k = "log"
      · subst hk; simp
      · simp [hk, Ne.symm hk]

/-- The hypotheses of the theorems on parts are met. -/
example : (leakWorld.ctx 0).get? "log" = some 0 ∧ Sound leakWorld.rest 0 ∧ (leakWorld.rest.eventRefs 0).Nodup ∧
    (leakWorld.rest.logObj 0).traces.Nodup ∧ 0 < leakWorld.ctxs.length :=
  ⟨rfl, sharedHeap_sound 0 (by omega), by decide, by decide, by decide⟩

/-- C56, no input: each of these parts, run without an input, raises AttributeError and changes nothing. -/
theorem C56_no_input (select : Payload → Bool) (extractor : Payload → String) (f : String → String)
    (g : Payload → Except PyErr Payload) (w : World Nat Heap) :
    ∀ p ∈ [removeByNamesPart select, removeByPredicatePart select, preprocessNamesPart f, preprocessEventsPart g,
        applyExtractorPart select extractor, removeLifecyclePart, addArtificialPart],
      p.exec none w = (.error .attributeError, w) := by
  intro p hp
  simp only [List.mem_cons, List.not_mem_nil, or_false] at hp
  rcases hp with rfl | rfl | rfl | rfl | rfl | rfl | rfl <;> rfl

end Ficus
