import Verif.Spec.Parts
import Verif.Proofs.Heap
import Verif.Proofs.Mutations
import Verif.Props.Pipeline

/-! Lemmas about parts over heaps: filtering creates a new log, artificial events, parts that only create objects. -/

namespace Ficus
open Spec

/-- All objects of the first heap exist in the second and are equal. -/
def Same (h h' : Heap) : Prop := ∀ c, InHeap h c → InHeap h' c ∧ match c with
    | .event e => h'.event e = h.event e
    | .trace t => h'.traceObj t = h.traceObj t
    | .log l => h'.logObj l = h.logObj l

theorem Same.refl (h : Heap) : Same h h := fun c hc => ⟨hc, by cases c <;> rfl⟩

theorem Same.trans {a b c : Heap} (h1 : Same a b) (h2 : Same b c) : Same a c := by
  intro x hx
  obtain ⟨e1, v1⟩ := h1 x hx
  obtain ⟨e2, v2⟩ := h2 x e1
  refine ⟨e2, ?_⟩
  cases x <;> exact v2.trans v1

theorem Extends.same {h h' : Heap} (hx : Extends h h') : Same h h' := by
  intro c hc
  refine ⟨hx.inHeap hc, ?_⟩
  cases c with
  | event e => exact hx.event hc
  | trace t => exact hx.traceObj hc
  | log l => exact hx.logObj hc

theorem Same.agree {h h' : Heap} (hx : Same h h') {l : Nat} (hs : Sound h l) : Agree h h' l :=
  ⟨(hx (.log l) (sound_log hs)).2, fun t ht => (hx (.trace t) (sound_trace hs ht)).2,
    fun _ ht e he => (hx (.event e) (sound_event hs ht he)).2⟩

/-! ### Filtering -/

theorem filterEventsLoop_spec (select : Payload → Bool) (ts : List Nat) (h : Heap) (hts : ∀ t ∈ ts, SoundTrace h t) :
    Extends h (Heap.filterEventsLoop select ts h).2 ∧ (Heap.filterEventsLoop select ts h).2.events = h.events ∧
      (Heap.filterEventsLoop select ts h).2.logs = h.logs ∧
      (Heap.filterEventsLoop select ts h).1.map (fun t => ((Heap.filterEventsLoop select ts h).2.traceObj t)) =
        ((ts.map (fun t => (h.traceObj t).events.filter (fun e => select (h.event e)))).filter
          (fun es => decide (es.length > 0))).map (fun es => { events := es }) ∧
      ∀ t' ∈ (Heap.filterEventsLoop select ts h).1, h.traces.length ≤ t' ∧
        t' < (Heap.filterEventsLoop select ts h).2.traces.length := by
  induction ts generalizing h with
  | nil => exact ⟨Extends.refl h, rfl, rfl, rfl, fun t ht => by simp [Heap.filterEventsLoop] at ht⟩
  | cons t ts ih =>
    unfold Heap.filterEventsLoop
    simp only
    set kept := (h.traceObj t).events.filter (fun e => select (h.event e)) with hkept
    have hx := extends_newTrace h kept
    obtain ⟨b1, b2, b3, b4, b5⟩ := ih (h.newTrace kept).2 (fun x hm => soundTrace_extends hx (hts x (by simp [hm])))
    have hobj : (Heap.filterEventsLoop select ts (h.newTrace kept).2).2.traceObj (h.newTrace kept).1 = { events := kept } := by
      rw [b1.traceObj (by simp [Heap.newTrace])]
      exact newTrace_traceObj h kept
    have hmap : ts.map (fun t => ((h.newTrace kept).2.traceObj t).events.filter (fun e => select ((h.newTrace kept).2.event e))) =
        ts.map (fun t => (h.traceObj t).events.filter (fun e => select (h.event e))) := by
      apply List.map_congr_left
      intro x hm
      rw [hx.traceObj (hts x (by simp [hm])).1]
      rfl
    have hlt : (h.newTrace kept).1 < (Heap.filterEventsLoop select ts (h.newTrace kept).2).2.traces.length :=
      Nat.lt_of_lt_of_le (by simp [Heap.newTrace]) b1.2.1.length_le
    refine ⟨hx.trans b1, b2, b3, ?_, ?_⟩
    · rw [hmap] at b4
      rw [List.map_cons]
      by_cases hk : kept.length > 0
      · rw [if_pos hk, List.map_cons, hobj, b4, List.filter_cons_of_pos (by simpa [← hkept] using hk), List.map_cons]
      · rw [if_neg hk, b4, List.filter_cons_of_neg (by simpa [← hkept] using hk)]
    · intro t' ht'
      have hstep : ∀ t' ∈ (Heap.filterEventsLoop select ts (h.newTrace kept).2).1, h.traces.length ≤ t' ∧
          t' < (Heap.filterEventsLoop select ts (h.newTrace kept).2).2.traces.length := by
        intro t' ht'
        obtain ⟨c1, c2⟩ := b5 t' ht'
        exact ⟨Nat.le_trans hx.2.1.length_le c1, c2⟩
      by_cases hk : kept.length > 0
      · rw [if_pos hk] at ht'
        rcases List.mem_cons.1 ht' with rfl | ht'
        · exact ⟨Nat.le_refl _, hlt⟩
        · exact hstep t' ht'
      · rw [if_neg hk] at ht'
        exact hstep t' ht'

theorem filterEventsInto_extends (h : Heap) (l : Nat) (hs : Sound h l) (select : Payload → Bool) :
    Extends h (h.filterEventsInto l select).2 := by
  have hb := (filterEventsLoop_spec select (h.logObj l).traces h (fun t ht =>
    ⟨sound_trace hs ht, fun e he => sound_event hs ht he⟩)).1
  exact hb.trans (extends_newLog _ _)

/-- The loop extends every heap, whether or not the traces exist. -/
theorem filterEventsLoop_extends (select : Payload → Bool) (ts : List Nat) (h : Heap) :
    Extends h (Heap.filterEventsLoop select ts h).2 := by
  induction ts generalizing h with
  | nil => exact Extends.refl h
  | cons t ts ih =>
    unfold Heap.filterEventsLoop
    exact (extends_newTrace h _).trans (ih _)

theorem filterEventsInto_extends' (h : Heap) (l : Nat) (select : Payload → Bool) :
    Extends h (h.filterEventsInto l select).2 :=
  (filterEventsLoop_extends select _ h).trans (extends_newLog _ _)

theorem filterEventsInto_logObj (h : Heap) (l : Nat) (select : Payload → Bool) :
    (h.filterEventsInto l select).2.logObj (h.filterEventsInto l select).1 =
      { traces := (Heap.filterEventsLoop select (h.logObj l).traces h).1 } := newLog_logObj _ _

/-! ### Artificial events -/

/-- The payloads of the artificial events. -/
def artificialStart : Payload := [("concept:name", .str "ARTIFICIAL_START")]
@[inherit_doc artificialStart] def artificialEnd : Payload := [("concept:name", .str "ARTIFICIAL_END")]

theorem addArtificialToTrace_spec (h : Heap) (t : Nat) (ht : t < h.traces.length) :
    (h.addArtificialToTrace t).logs = h.logs ∧ (h.addArtificialToTrace t).traces.length = h.traces.length ∧
    (h.addArtificialToTrace t).events = h.events ++ [artificialEnd, artificialStart] ∧
    ∀ t', (h.addArtificialToTrace t).traceObj t' = if t = t' then
      { (h.traceObj t) with events := (h.events.length + 1) :: (h.traceObj t).events ++ [h.events.length] }
      else h.traceObj t' := by
  refine ⟨rfl, ?_, ?_, ?_⟩
  · simp [Heap.addArtificialToTrace, Heap.newEvent, Heap.setTrace]
  · simp [Heap.addArtificialToTrace, Heap.newEvent, Heap.setTrace, artificialEnd, artificialStart]
  · intro t'
    unfold Heap.addArtificialToTrace Heap.newEvent
    simp only [setTrace_traceObj]
    have ht2 : t < (({ h with events := h.events ++ [[("concept:name", Val.str "ARTIFICIAL_END")]] } : Heap).setTrace t
        { events := (h.traceObj t).events ++ [h.events.length], attributes := (h.traceObj t).attributes }).traces.length := by
      simpa [Heap.setTrace] using ht
    by_cases hx : t = t'
    · subst hx
      simp only [Heap.setTrace, Heap.traceObj, List.length_set, ht, true_and, if_true, List.getElem?_set_self,
        Option.getD_some, List.length_append, List.length_cons, List.length_nil, List.cons_append]
    · rw [if_neg (fun h => hx h.1), if_neg hx]
      show Heap.traceObj (Heap.setTrace _ _ _) t' = _
      rw [setTrace_traceObj, if_neg (fun h => hx h.1)]
      rfl

theorem addArtificialToTrace_view (h : Heap) (t : Nat) (ht : SoundTrace h t) (t' : Nat) (ht' : SoundTrace h t') :
    SoundTrace (h.addArtificialToTrace t) t' ∧
    (h.addArtificialToTrace t).viewTrace t' = if t = t' then
      { (h.viewTrace t) with events := artificialStart :: (h.viewTrace t).events ++ [artificialEnd] } else h.viewTrace t' := by
  obtain ⟨h1, h2, h3, h4⟩ := addArtificialToTrace_spec h t ht.1
  have hev : ∀ e, e < h.events.length → (h.addArtificialToTrace t).event e = h.event e := by
    intro e he
    unfold Heap.event
    rw [h3, List.getElem?_append_left he]
  have he0 : (h.addArtificialToTrace t).event h.events.length = artificialEnd := by
    unfold Heap.event
    rw [h3, List.getElem?_append_right (Nat.le_refl _)]
    simp
  have he1 : (h.addArtificialToTrace t).event (h.events.length + 1) = artificialStart := by
    unfold Heap.event
    rw [h3, List.getElem?_append_right (by omega)]
    simp
  have hmap : ∀ x, SoundTrace h x → (h.traceObj x).events.map (h.addArtificialToTrace t).event =
      (h.traceObj x).events.map h.event := by
    intro x hx
    apply List.map_congr_left
    intro e he
    exact hev e (hx.2 e he)
  refine ⟨⟨by rw [h2]; exact ht'.1, ?_⟩, ?_⟩
  · intro e he
    rw [h3]
    rw [h4] at he
    simp only [List.length_append, List.length_cons, List.length_nil]
    split at he
    · simp only [List.cons_append, List.mem_cons, List.mem_append, List.not_mem_nil, or_false] at he
      rcases he with he | he | he
      · omega
      · have := ht.2 e he; omega
      · omega
    · have := ht'.2 e he; omega
  · unfold Heap.viewTrace
    rw [h4]
    by_cases hx : t = t'
    · subst hx
      simp only [if_true, List.cons_append, List.map_cons, List.map_append, List.map_nil, he0, he1, hmap t ht]
    · simp only [hx, if_false, hmap t' ht']

theorem addArtificial_fold (ts : List Nat) (h : Heap) (hd : ts.Nodup) (hts : ∀ t ∈ ts, SoundTrace h t) :
    (ts.foldl Heap.addArtificialToTrace h).logs = h.logs ∧
    ∀ t', SoundTrace h t' → (ts.foldl Heap.addArtificialToTrace h).viewTrace t' = if t' ∈ ts then
      { (h.viewTrace t') with events := artificialStart :: (h.viewTrace t').events ++ [artificialEnd] } else h.viewTrace t' := by
  induction ts generalizing h with
  | nil => exact ⟨rfl, fun t' _ => by simp⟩
  | cons t ts ih =>
    rw [List.foldl_cons]
    obtain ⟨hno, hd'⟩ := List.nodup_cons.1 hd
    have ht := hts t (by simp)
    obtain ⟨i1, i2⟩ := ih (h.addArtificialToTrace t) hd' (fun x hx =>
      (addArtificialToTrace_view h t ht x (hts x (by simp [hx]))).1)
    refine ⟨i1.trans (addArtificialToTrace_spec h t ht.1).1, ?_⟩
    intro t' ht'
    obtain ⟨s1, s2⟩ := addArtificialToTrace_view h t ht t' ht'
    rw [i2 t' s1, s2]
    by_cases hx : t = t'
    · subst hx
      simp [hno]
    · simp [hx, Ne.symm hx]

/-! ### Parts that only create objects -/

theorem onlyCreates_iff (f : Input → LogPy Input) : OnlyCreates f ↔ ∀ v w, Same w.rest (f v w).2.rest := Iff.rfl

theorem same_bind {A B : Type} {x : LogPy A} {f : A → LogPy B} {w : World Nat Heap} (hx : Same w.rest (x w).2.rest)
    (hf : ∀ a w', Same w'.rest (f a w').2.rest) : Same w.rest (Py.bind x f w).2.rest := by
  cases h : x w with
  | mk r w' =>
    rw [h] at hx
    cases r with
    | error e => rw [Py.bind_error h]; exact hx
    | ok a => rw [Py.bind_ok h]; exact hx.trans (hf a w')

theorem same_copyInput (v : Input) (w : World Nat Heap) : (copyInput v w).2.rest = w.rest := by
  cases v <;> rfl

mutual
theorem creating_part : ∀ p : Part Nat Heap, Creating p → ∀ v w, Same w.rest (p.exec v w).2.rest
  | .prim f, h, v, w => by
    simp only [Creating] at h
    rw [Part.exec]
    exact h v w
  | .parallel ps, h, v, w => by
    simp only [Creating] at h
    rw [Part.exec]
    exact creating_parallel ps h v none w
  | .withTemp t m p, h, v, w => by
    simp only [Creating] at h
    rw [Part.exec]
    refine same_bind (h.1 v w) (fun t w' => ?_)
    refine same_bind (Same.refl _) (fun _ w'' => ?_)
    exact same_bind (creating_parts p h.2.2 t w'') (fun r w3 => h.2.1 v r w3)
  | .withCopy p, h, v, w => by
    simp only [Creating] at h
    rw [Part.exec]
    refine same_bind (by rw [same_copyInput]; exact Same.refl _) (fun t w' => ?_)
    refine same_bind (Same.refl _) (fun _ w'' => ?_)
    exact same_bind (creating_parts p h t w'') (fun r w3 => Same.refl _)
  | .cond c p, h, v, w => by
    simp only [Creating] at h
    rw [Part.exec]
    refine same_bind (by rw [h.1 v w]; exact Same.refl _) (fun b w' => ?_)
    cases b with
    | false => exact Same.refl _
    | true => exact same_bind (Same.refl _) (fun _ w'' => creating_parts p h.2 v w'')
theorem creating_parts : ∀ ps : List (Part Nat Heap), CreatingL ps → ∀ v w, Same w.rest (execParts ps v w).2.rest
  | [], _, v, w => by rw [execParts]; exact Same.refl _
  | p :: ps, h, v, w => by
    simp only [CreatingL] at h
    rw [execParts]
    exact same_bind (creating_part p h.1 v w) (fun v' w' => creating_parts ps h.2 v' w')
theorem creating_parallel : ∀ ps : List (List (Part Nat Heap)), CreatingLL ps → ∀ v last w,
    Same w.rest (execParallel ps v last w).2.rest
  | [], _, v, last, w => by rw [execParallel]; exact Same.refl _
  | p :: ps, h, v, last, w => by
    simp only [CreatingLL] at h
    rw [execParallel]
    refine same_bind (by rw [same_copyInput]; exact Same.refl _) (fun t w' => ?_)
    refine same_bind (Same.refl _) (fun _ w'' => ?_)
    exact same_bind (creating_parts p h.1 t w'') (fun r w3 => creating_parallel ps h.2 v r w3)
end

end Ficus
