import Verif.Proofs.LogParts

/-! Properties C88 and C89: what pipelines of log parts compute, and which logs they may change. -/

namespace Ficus
open Spec

/-! ### C88 -/

/-- C88, meaning: on a log whose objects exist and are not used twice, every pipeline of parts that make or change logs
computes, on objects that share and are changed in place, exactly what its parts mean on values, one after the other: the
same log, the same exception, or the same loop that has not ended. -/
theorem C88_pipeline_meaning (fuel : Nat) (ps : List LogPart) (h : Heap) (l : Nat) (hs : Sound h l) (hd : Separate h l) :
    (LogPart.runAll fuel ps h l).map outcome = meaningAll fuel ps (h.viewLog l) := by
  have := pipeline_spec fuel ps h l hs hd
  cases hx : LogPart.runAll fuel ps h l with
  | none =>
    cases hy : meaningAll fuel ps (h.viewLog l) with
    | none => rfl
    | some v => rw [hx, hy] at this; exact absurd this id
  | some r =>
    cases hy : meaningAll fuel ps (h.viewLog l) with
    | none => rw [hx, hy] at this; exact absurd this id
    | some v =>
      rw [hx, hy] at this
      exact congrArg some this.view

/-- C88, result: the log that a pipeline returns can be passed to the next pipeline: its objects exist and are not used
twice. -/
theorem C88_result_usable (fuel : Nat) (ps : List LogPart) (h : Heap) (l : Nat) (hs : Sound h l) (hd : Separate h l)
    (l' : Nat) (h' : Heap) (hr : LogPart.runAll fuel ps h l = some (.ok l', h')) : Sound h' l' ∧ Separate h' l' := by
  have := pipeline_spec fuel ps h l hs hd
  cases hy : meaningAll fuel ps (h.viewLog l) with
  | none => rw [hr, hy] at this; exact absurd this id
  | some v =>
    rw [hr, hy] at this
    obtain ⟨h1, h2, _⟩ := this.good l' rfl
    exact ⟨h1, h2⟩

theorem namedLog_filter (log : Log Payload) (sel : Payload → Bool) (hn : NamedLog log = true) :
    NamedLog (filterEvents log sel) = true := by
  unfold NamedLog at hn ⊢
  rw [filterEvents_traces]
  simp only [List.all_eq_true, List.mem_map, List.mem_filter] at hn ⊢
  rintro t ⟨es, ⟨⟨es', hes', rfl⟩, _⟩, rfl⟩ e he
  simp only [Log.evs, List.mem_map] at hes'
  obtain ⟨t', ht', rfl⟩ := hes'
  exact hn t' ht' e (List.mem_filter.1 he).1

theorem meaning_removal (fuel : Nat) (p : LogPart) (hp : isRemoval p = true) (log : Log Payload) (hn : NamedLog log = true) :
    meaning fuel p log = some (.ok (filterEvents log (fun e => !removes p e))) := by
  cases p with
  | removeByName n =>
    simp only [meaning, ifNamed, hn, if_true, removeEvent, removes]
    congr 3
    funext e
    simp
  | removeByNames ns =>
    simp only [meaning, ifNamed, hn, if_true, removeEvents, removes]
    congr 3
    funext e
    simp
  | removeByPredicate f => rfl
  | preprocessNames f => cases hp
  | preprocessEvents g => cases hp
  | applyClassExtractor ex sel => cases hp
  | removeLifecycle => cases hp
  | addArtificial => cases hp
  | byCount n => cases hp
  | byVariants => cases hp
  | posDirect th mx un => cases hp
  | posIndirect th mx un => cases hp
  | dfgDirect th lp mx => cases hp
  | dfgIndirect th lp mx top => cases hp

/-- C88, removals: a pipeline of parts that remove events by name, by names or by a predicate, on a log whose events have
names, removes in one go the events that one of the parts removes, and the traces that become empty. -/
theorem C88_removals (fuel : Nat) (ps : List LogPart) (hne : ps ≠ []) (hps : ∀ p ∈ ps, isRemoval p = true)
    (log : Log Payload) (hn : NamedLog log = true) :
    meaningAll fuel ps log = some (.ok (filterEvents log (fun e => !ps.any (fun p => removes p e)))) := by
  induction ps generalizing log with
  | nil => exact absurd rfl hne
  | cons p ps ih =>
    unfold meaningAll
    rw [meaning_removal fuel p (hps p (by simp)) log hn]
    simp only
    cases ps with
    | nil => simp [meaningAll]
    | cons q qs =>
      rw [ih (by simp) (fun x hx => hps x (by simp [hx])) _ (namedLog_filter log _ hn), filterEvents_comp]
      congr 3
      funext e
      simp [Bool.not_or]

/-- C88, order: the order of removing parts makes no difference to what the resulting log reads like. -/
theorem C88_removals_any_order (fuel : Nat) (ps qs : List LogPart) (hperm : ps.Perm qs)
    (hps : ∀ p ∈ ps, isRemoval p = true) (h : Heap) (l : Nat) (hs : Sound h l) (hd : Separate h l)
    (hn : NamedLog (h.viewLog l) = true) :
    (LogPart.runAll fuel ps h l).map outcome = (LogPart.runAll fuel qs h l).map outcome := by
  rw [C88_pipeline_meaning fuel ps h l hs hd, C88_pipeline_meaning fuel qs h l hs hd]
  cases ps with
  | nil => rw [hperm.nil_eq]
  | cons p ps =>
    have hq : qs ≠ [] := by
      rintro rfl
      exact List.cons_ne_nil _ _ hperm.eq_nil
    rw [C88_removals fuel _ (by simp) hps _ hn, C88_removals fuel _ hq (fun x hx => hps x (hperm.mem_iff.2 hx)) _ hn]
    congr 3
    funext e
    have : ∀ a b : List LogPart, a.Perm b → a.any (fun p => removes p e) = b.any (fun p => removes p e) := by
      intro a b hab
      rw [Bool.eq_iff_iff, List.any_eq_true, List.any_eq_true]
      constructor
      · rintro ⟨x, hx, hr⟩; exact ⟨x, hab.mem_iff.1 hx, hr⟩
      · rintro ⟨x, hx, hr⟩; exact ⟨x, hab.mem_iff.2 hx, hr⟩
    rw [this _ _ hperm]

/-! ### C89 -/

/-- C89, other logs: a log that shares no trace and no event with the log of the pipeline reads the same afterwards,
also when the pipeline raises and also when objects are used twice. -/
theorem C89_other_logs (fuel : Nat) (ps : List LogPart) (h : Heap) (l m : Nat) (hs : Sound h l) (hm : Sound h m)
    (hd : ∀ c, Owns h m c → Owns h l c → ∃ k, c = .log k) (r : Except PyErr Nat) (h' : Heap)
    (hr : LogPart.runAll fuel ps h l = some (r, h')) : h'.viewLog m = h.viewLog m :=
  ((pipeline_foot fuel ps h l hs _ hr).1.1.agree hm hd).view

/-- C89, new logs only: a pipeline without `PreprocessEvents`, `PreprocessEventsNames`, `ApplyClassExtractor`,
`RemoveLifecycleTransitionsAttributes` and `AddArtificialStartEndEvents` changes no log that exists, whatever they share,
and also when it raises. -/
theorem C89_new_logs_only (fuel : Nat) (ps : List LogPart) (hps : ∀ p ∈ ps, changesInPlace p = false) (h : Heap) (l m : Nat)
    (hs : Sound h l) (hm : Sound h m) (r : Except PyErr Nat) (h' : Heap)
    (hr : LogPart.runAll fuel ps h l = some (r, h')) : h'.viewLog m = h.viewLog m :=
  (((pipeline_foot fuel ps h l hs _ hr).2 hps).agree hm).view

/-- C89, copies: any pipeline may be run on a deep copy: no log that existed before the copy changes, and when no trace
of the original uses an event twice, the outcome is what the pipeline means on the original without trace attributes and
global values. -/
theorem C89_on_a_copy (fuel : Nat) (ps : List LogPart) (h : Heap) (l : Nat) (hs : Sound h l) :
    (∀ r h', LogPart.runAll fuel ps (h.deepcopyLog l).2 (h.deepcopyLog l).1 = some (r, h') →
      ∀ m, Sound h m → h'.viewLog m = h.viewLog m) ∧
    ((∀ t ∈ (h.logObj l).traces, (h.traceObj t).events.Nodup) →
      (LogPart.runAll fuel ps (h.deepcopyLog l).2 (h.deepcopyLog l).1).map outcome =
        meaningAll fuel ps { (h.viewLog l) with
          traces := (h.viewLog l).traces.map (fun t => { t with attributes := [] }), globals := [] }) := by
  obtain ⟨hx, hv, hso, hown⟩ := deepcopyLog_spec h l hs
  refine ⟨?_, ?_⟩
  · intro r h' hr m hm
    have ha := hx.agree hm
    refine (C89_other_logs fuel ps _ _ m hso (agree_sound ha (fun c hc => hx.inHeap hc) hm) ?_ r h' hr).trans ha.view
    intro c hc ho
    exact absurd (hm c ((ha.owns c).1 hc)) (hown c ho)
  · intro hd
    rw [C88_pipeline_meaning fuel ps _ _ hso (deepcopyLog_separate h l hs hd), (C50_deepcopy_value h l hs).1]

/-! ### Concrete logs -/

/-- Two traces with three events. -/
def partsHeap : Heap :=
  { events := [[("concept:name", .str "a")], [("concept:name", .str "b"), ("cost", .int 3)], [("concept:name", .str "a")]],
    traces := [{ events := [0, 1] }, { events := [2] }],
    logs := [{ traces := [0, 1] }] }

theorem partsHeap_sound : Sound partsHeap 0 := by
  rw [sound_iff]
  decide

theorem partsHeap_separate : Separate partsHeap 0 := by
  unfold Separate
  decide

/-- C89, witness: the returned log is another object, and yet the log that was passed in has changed: keeping the traces
with at least one event and adding artificial events gives the caller's traces artificial events. -/
theorem C89_artificial_events_in_the_callers_log (fuel : Nat) :
    ∃ h', LogPart.runAll fuel [.byCount 0, .addArtificial] partsHeap 0 = some (.ok 1, h') ∧
      (h'.viewLog 0).traces.map (fun t => t.events.map payloadName) =
        [["ARTIFICIAL_START", "a", "b", "ARTIFICIAL_END"], ["ARTIFICIAL_START", "a", "ARTIFICIAL_END"]] ∧
      (partsHeap.viewLog 0).traces.map (fun t => t.events.map payloadName) = [["a", "b"], ["a"]] := by
  refine ⟨_, rfl, ?_, ?_⟩
  · decide
  · decide

/-- C89, witness: removing an event and then applying a class extractor renames the events that are left in the caller's
log, and leaves the removed ones with their old name. -/
theorem C89_renamed_events_in_the_callers_log (fuel : Nat) :
    ∃ h', LogPart.runAll fuel [.removeByName "b", .applyClassExtractor (fun _ => "x") (fun _ => true)] partsHeap 0 =
        some (.ok 1, h') ∧
      (h'.viewLog 0).traces.map (fun t => t.events.map payloadName) = [["x", "b"], ["x"]] := by
  refine ⟨_, rfl, ?_⟩
  decide

/-- The same two pipelines on a deep copy leave the caller's log alone and compute the same. -/
example (fuel : Nat) (ps : List LogPart) (r : Except PyErr Nat) (h' : Heap)
    (hr : LogPart.runAll fuel ps (partsHeap.deepcopyLog 0).2 (partsHeap.deepcopyLog 0).1 = some (r, h')) :
    h'.viewLog 0 = partsHeap.viewLog 0 :=
  (C89_on_a_copy fuel ps partsHeap 0 partsHeap_sound).1 r h' hr 0 partsHeap_sound

/-- The hypotheses of C88 and what three parts make of the log. -/
example : Sound partsHeap 0 ∧ Separate partsHeap 0 ∧ NamedLog (partsHeap.viewLog 0) = true :=
  ⟨partsHeap_sound, partsHeap_separate, by decide⟩

example (fuel : Nat) :
    (LogPart.runAll fuel [.preprocessNames (· ++ "!"), .removeByNames ["b!"], .addArtificial] partsHeap 0).map
      (fun r => (outcome r).toOption.map (fun log => log.traces.map (fun t => t.events.map payloadName))) =
    some (some [["ARTIFICIAL_START", "a!", "ARTIFICIAL_END"], ["ARTIFICIAL_START", "a!", "ARTIFICIAL_END"]]) := by
  rw [show (LogPart.runAll fuel [.preprocessNames (· ++ "!"), .removeByNames ["b!"], .addArtificial] partsHeap 0) =
    some (.ok 1, _) from rfl]
  decide

/-- One after the other in two orders. -/
example (fuel : Nat) :
    (LogPart.runAll fuel [.removeByName "b", .removeByPredicate (fun p => p.contains "cost")] partsHeap 0).map outcome =
      (LogPart.runAll fuel [.removeByPredicate (fun p => p.contains "cost"), .removeByName "b"] partsHeap 0).map outcome :=
  C88_removals_any_order fuel _ _ (List.Perm.swap _ _ _) (by simp [isRemoval]) partsHeap 0 partsHeap_sound
    partsHeap_separate (by decide)

/-- An event without a name, where a part that reads names raises after parts in place have run. -/
example (fuel : Nat) :
    (LogPart.runAll fuel [.preprocessEvents (fun p => .ok (p.del "concept:name")), .removeByName "a"] partsHeap 0).map outcome =
      some (.error .keyError) := by
  rfl

end Ficus
