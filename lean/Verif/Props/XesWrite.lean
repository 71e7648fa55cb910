import Verif.Props.XesExact

/-! Property C05: what is written to XES, and when writing raises. -/

namespace Ficus
open Spec

theorem typed_iff (v : Val) : Typed v ↔ v.tagName.isSome = true := by
  unfold Typed
  cases v <;> simp [Val.tagName]

theorem pyEq_iff (v w : Val) : v.pyEq w = true ↔ EqualValues v w := by
  unfold EqualValues
  cases v <;> cases w <;> simp [Val.pyEq]
  all_goals (rename_i a b; cases a <;> simp) <;> try (cases b <;> simp)

theorem isDefaultValue_iff (globals : Dict String (Dict String Val)) (scope k : String) (v : Val) :
    isDefaultValue globals scope k v = true ↔ ∃ w, Default globals scope k w ∧ EqualValues w v := by
  unfold isDefaultValue Default
  cases hg : globals.get? scope with
  | none => simp
  | some g =>
    cases hk : g.get? k with
    | none => simp [hk]
    | some w => simp [hk, pyEq_iff]

theorem writePayload_written (globals : Dict String (Dict String Val)) (scope : String) (d : Dict String Val) :
    ∃ els, writePayload globals scope d = .ok els ∧ WrittenAs globals scope d els := by
  unfold writePayload
  have hk : ∀ kv ∈ d.filter (fun kv => !isDefaultValue globals scope kv.1 kv.2 && kv.2.tagName.isSome),
      ∃ el, createValueTag kv.1 kv.2 = .ok el := by
    intro kv hkv
    have h := (List.mem_filter.1 hkv).2
    simp only [Bool.and_eq_true] at h
    obtain ⟨tag, ht⟩ := Option.isSome_iff_exists.1 h.2
    exact ⟨_, by unfold createValueTag; rw [ht]⟩
  obtain ⟨els, h1, -⟩ := mapM_ok_of_forall _ _ hk
  refine ⟨els, h1, d.filter (fun kv => !isDefaultValue globals scope kv.1 kv.2 && kv.2.tagName.isSome), List.filter_sublist, fun k v => ?_, ?_⟩
  · rw [List.mem_filter, Bool.and_eq_true, Bool.not_eq_true', typed_iff, ← isDefaultValue_iff]
    simp only [Bool.not_eq_true]
    exact ⟨fun h => ⟨h.1, h.2.2, h.2.1⟩, fun h => ⟨h.1, h.2.2, h.2.1⟩⟩
  · refine (mapM_ok_inv h1).imp (fun kv el h => ?_)
    unfold createValueTag at h
    split at h
    · next t ht => exact ⟨t, ht, (Except.ok.inj h).symm⟩
    · cases h

theorem writeEvent_written (globals : Dict String (Dict String Val)) (e : Payload) :
    ∃ vs, writeEvent globals e = .ok (.mk "event" [] vs) ∧ WrittenAs globals "event" e vs := by
  obtain ⟨vs, h1, h2⟩ := writePayload_written globals "event" e
  exact ⟨vs, by unfold writeEvent; rw [h1]; rfl, h2⟩

theorem writeTrace_written (globals : Dict String (Dict String Val)) (t : Trace Payload) :
    ∃ as es, writeTrace globals t = .ok (.mk "trace" [] (as ++ es)) ∧ WrittenAs globals "trace" t.attributes as ∧
      List.Forall₂ (fun e ee => ∃ vs, ee = .mk "event" [] vs ∧ WrittenAs globals "event" e vs) t.events es := by
  obtain ⟨as, h1, h2⟩ := writePayload_written globals "trace" t.attributes
  obtain ⟨es, h3, -⟩ := mapM_ok_of_forall (writeEvent globals) t.events
    (fun e _ => let ⟨vs, h, _⟩ := writeEvent_written globals e; ⟨_, h⟩)
  refine ⟨as, es, by unfold writeTrace; rw [h1]; simp only [bind, Except.bind]; rw [h3]; rfl, h2, ?_⟩
  refine (mapM_ok_inv h3).imp (fun e ee h => ?_)
  obtain ⟨vs, h4, h5⟩ := writeEvent_written globals e
  rw [h4] at h
  exact ⟨vs, (Except.ok.inj h).symm, h5⟩

theorem mapM_error_iff {α β : Type} (f : α → Except PyErr β) (e : PyErr) (hf : ∀ a x, f a = .error x → x = e) (l : List α)
    (x : PyErr) : l.mapM f = .error x ↔ (∃ a ∈ l, f a = .error e) ∧ x = e := by
  induction l with
  | nil => simp [pure, Except.pure]
  | cons a l ih =>
    rw [List.mapM_cons]
    cases ha : f a with
    | error y =>
      obtain rfl := hf a y ha
      simp only [bind, Except.bind, Except.error.injEq, List.mem_cons, exists_eq_or_imp, ha, true_or, true_and]
      exact ⟨Eq.symm, Eq.symm⟩
    | ok b =>
      simp only [bind, Except.bind, List.mem_cons, exists_eq_or_imp, ha, reduceCtorEq, false_or]
      rw [← ih]
      cases l.mapM f with
      | error y => simp
      | ok bs => simp [pure, Except.pure]

/-- C05m, what is written: the trace elements are those of the traces in their order, with the elements of their attributes and of
their events. Of a payload those entries are written that have a known type and are not equal to the default of their key
in the sense of python, where a truth value is equal to 0 or 1. -/
theorem C05_written (log : Log Payload) (el : XElem) (h : writeXes log = .ok el) :
    el.tag = "log" ∧
    List.Forall₂ (fun t te => ∃ as es, te = .mk "trace" [] (as ++ es) ∧ WrittenAs log.globals "trace" t.attributes as ∧
        List.Forall₂ (fun e ee => ∃ vs, ee = .mk "event" [] vs ∧ WrittenAs log.globals "event" e vs) t.events es)
      log.traces (el.children.filter (fun c => c.tag = "trace")) := by
  obtain ⟨props, globals, traces, h1, h2, h3, rfl⟩ := writeXes_inv h
  refine ⟨rfl, ?_⟩
  have ht : List.Forall₂ (fun t te => ∃ as es, te = XElem.mk "trace" [] (as ++ es) ∧
      WrittenAs log.globals "trace" t.attributes as ∧
      List.Forall₂ (fun e ee => ∃ vs, ee = XElem.mk "event" [] vs ∧ WrittenAs log.globals "event" e vs) t.events es)
      log.traces traces := by
    refine (mapM_ok_inv h3).imp (fun t te h => ?_)
    obtain ⟨as, es, h4, h5⟩ := writeTrace_written log.globals t
    rw [h4] at h
    exact ⟨as, es, (Except.ok.inj h).symm, h5⟩
  have none_of : ∀ (l : List XElem) (s : String), s ≠ "trace" → (∀ x ∈ l, x.tag = s) →
      l.filter (fun c => decide (c.tag = "trace")) = [] := by
    intro l s hs hl
    rw [List.filter_eq_nil_iff]
    intro x hx
    simp [hl x hx, hs]
  have hall : ∀ {α : Type} {f : α → Except PyErr XElem} {l : List α} {r : List XElem} (s : String), l.mapM f = .ok r →
      (∀ a x, f a = .ok x → x.tag = s) → ∀ x ∈ r, x.tag = s := by
    intro α f l r s hr hs x hx
    obtain ⟨i, hi, rfl⟩ := List.mem_iff_getElem.1 hx
    have hf := mapM_ok_inv hr
    exact hs _ _ ((List.forall₂_iff_get.1 hf).2 i (by rw [(List.forall₂_iff_get.1 hf).1]; exact hi) hi)
  have e1 := none_of (log.extensions.map writeExtension) "extension" (by decide) (by
    intro x hx; obtain ⟨a, _, rfl⟩ := List.mem_map.1 hx; rfl)
  have e2 := none_of (log.classifiers.map writeClassifier) "classifier" (by decide) (by
    intro x hx; obtain ⟨a, _, rfl⟩ := List.mem_map.1 hx; rfl)
  have e3 := none_of props "string" (by decide) (hall "string" h1 (by
    intro a x hx; unfold writeProperty at hx; split at hx
    · cases hx; rfl
    · cases hx))
  have e4 := none_of globals "global" (by decide) (hall "global" h2 (by
    intro a x hx; unfold writeGlobal at hx; simp only [bind, Except.bind] at hx; split at hx
    · cases hx
    · cases hx; rfl))
  have e5 : traces.filter (fun c => decide (c.tag = "trace")) = traces := by
    rw [List.filter_eq_self]
    intro x hx
    obtain ⟨i, hi, rfl⟩ := List.mem_iff_getElem.1 hx
    obtain ⟨as, es, h6, _⟩ := (List.forall₂_iff_get.1 ht).2 i (by rw [(List.forall₂_iff_get.1 ht).1]; exact hi) hi
    have h7 : traces[i] = XElem.mk "trace" [] (as ++ es) := h6
    rw [h7]; rfl
  show List.Forall₂ _ _ ((log.extensions.map writeExtension ++ log.classifiers.map writeClassifier ++ props ++ globals ++
    traces).filter _)
  rw [List.filter_append, List.filter_append, List.filter_append, List.filter_append, e1, e2, e3, e4, e5]
  exact ht

/-- C05n, exactly: writing raises `KeyError` if a global value is of an unknown type, else `TypeError` if a property is not a
text, and nothing else. -/
theorem C05_write_raises (log : Log Payload) (e : PyErr) :
    writeXes log = .error e ↔
      (∃ s d k v, (s, d) ∈ log.globals ∧ (k, v) ∈ d ∧ ¬ Typed v) ∧ e = .keyError ∨
      (∀ s d k v, (s, d) ∈ log.globals → (k, v) ∈ d → Typed v) ∧ (∃ k v, (k, v) ∈ log.properties ∧ ∀ s, v ≠ .str s) ∧
        e = .typeError := by
  have hv : ∀ (kv : String × Val) x, createValueTag kv.1 kv.2 = .error x ↔ ¬ Typed kv.2 ∧ x = .keyError := by
    intro kv x
    rw [typed_iff]
    unfold createValueTag
    cases kv.2.tagName with
    | none => simp; exact ⟨Eq.symm, Eq.symm⟩
    | some t => simp
  have hg : ∀ (sd : String × Dict String Val) x, writeGlobal sd = .error x ↔ (∃ kv ∈ sd.2, ¬ Typed kv.2) ∧ x = .keyError := by
    intro sd x
    have h := mapM_error_iff (fun kv : String × Val => createValueTag kv.1 kv.2) .keyError (fun a y h => ((hv a y).1 h).2) sd.2 x
    simp only [hv, and_true] at h
    rw [← h]
    unfold writeGlobal
    simp only [bind, Except.bind]
    cases sd.2.mapM (fun kv : String × Val => createValueTag kv.1 kv.2) with
    | error y => simp
    | ok b => simp [pure, Except.pure]
  have hp : ∀ (kv : String × Val) x, writeProperty kv = .error x ↔ (∀ s, kv.2 ≠ .str s) ∧ x = .typeError := by
    intro kv x
    unfold writeProperty
    cases kv.2 <;> simp <;> exact ⟨Eq.symm, Eq.symm⟩
  have h1 := mapM_error_iff writeGlobal .keyError (fun a y h => ((hg a y).1 h).2) log.globals
  have h2 := mapM_error_iff writeProperty .typeError (fun a y h => ((hp a y).1 h).2) log.properties
  simp only [hg, hp, and_true, Prod.exists] at h1 h2
  have e1 : (∃ s d k v, (s, d) ∈ log.globals ∧ (k, v) ∈ d ∧ ¬ Typed v) ↔
      ∃ a b, (a, b) ∈ log.globals ∧ ∃ a b_1, (a, b_1) ∈ b ∧ ¬ Typed b_1 :=
    ⟨fun ⟨s, d, k, v, h3, h4⟩ => ⟨s, d, h3, k, v, h4⟩, fun ⟨s, d, h3, k, v, h4⟩ => ⟨s, d, k, v, h3, h4⟩⟩
  have e2 : (∀ s d k v, (s, d) ∈ log.globals → (k, v) ∈ d → Typed v) ↔
      ¬ ∃ s d k v, (s, d) ∈ log.globals ∧ (k, v) ∈ d ∧ ¬ Typed v := by
    simp only [not_exists, not_and, not_not]
  rw [e2, e1]
  unfold writeXes
  simp only [bind, Except.bind]
  cases hgl : log.globals.mapM writeGlobal with
  | error y =>
    have h3 := (h1 y).1 hgl
    simp only [Except.error.injEq, h3.1, true_and, not_true_eq_false, false_and, or_false, h3.2]
    exact ⟨Eq.symm, Eq.symm⟩
  | ok gs =>
    have h3 : ¬ ∃ a b, (a, b) ∈ log.globals ∧ ∃ a b_1, (a, b_1) ∈ b ∧ ¬ Typed b_1 := by
      intro h
      rw [(h1 .keyError).2 ⟨h, rfl⟩] at hgl; cases hgl
    obtain ⟨ts, hts, -⟩ := mapM_ok_of_forall (writeTrace log.globals) log.traces
      (fun t _ => let ⟨as, es, h, _⟩ := writeTrace_written log.globals t; ⟨_, h⟩)
    rw [hts]
    simp only [h3, false_and, not_false_eq_true, true_and, false_or]
    rw [← h2]
    cases log.properties.mapM writeProperty with
    | error y => simp
    | ok b => simp [pure, Except.pure]

/-! ### Concrete cases -/

/-- A log whose writing succeeds, with an entry that is equal to its default although of another type, and entries that are
not; its writing raises with a further property or a further global value. -/
def writtenXes : Log Payload :=
  { globals := [("event", [("done", .int 1)])]
    traces := [{ attributes := [("done", .bool true)], events := [[("done", .bool true), ("n", .other "[]"), ("a", .str "x")]] }] }

example : writeXes writtenXes = .ok (.mk "log" [] [.mk "global" [("scope", "event")] [.mk "int" [("key", "done"), ("value", "1")] []],
    .mk "trace" [] [.mk "boolean" [("key", "done"), ("value", "True")] [],
      .mk "event" [] [.mk "string" [("key", "a"), ("value", "x")] []]]]) := rfl

example : writeXes { writtenXes with properties := [("p", .int 1)] } = .error .typeError ∧
    writeXes { writtenXes with properties := [("p", .int 1)], globals := [("event", [("done", .other "[]")])] } =
      .error .keyError := by
  constructor
  · refine (C05_write_raises _ _).2 (.inr ⟨?_, ⟨"p", .int 1, by simp, by simp⟩, rfl⟩)
    intro s d k v h1 h2
    simp only [writtenXes, List.mem_singleton, Prod.mk.injEq] at h1
    rw [h1.2] at h2
    simp only [List.mem_singleton, Prod.mk.injEq] at h2
    rw [h2.2]; intro t ht; cases ht
  · exact (C05_write_raises _ _).2 (.inl ⟨⟨"event", _, "done", .other "[]", List.mem_singleton.2 rfl, List.mem_singleton.2 rfl,
      fun h => h "[]" rfl⟩, rfl⟩)

end Ficus
