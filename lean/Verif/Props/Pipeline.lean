import Verif.Spec.Pipeline
import Verif.Proofs.Dict

/-! Properties C41, C42 and the first half of C43: composition of pipelines, contexts and isolation of contexts. -/

namespace Ficus
open Spec
variable {V S : Type}

/-! ### Computations -/

theorem Py.bind_assoc {A B C : Type} (x : Py V S A) (f : A → Py V S B) (g : B → Py V S C) :
    Py.bind (Py.bind x f) g = Py.bind x (fun a => Py.bind (f a) g) := by
  funext w
  unfold Py.bind
  cases hx : x w with
  | mk r w' => cases r <;> rfl

theorem Py.ret_bind {A B : Type} (a : A) (f : A → Py V S B) : Py.bind (Py.ret a) f = f a := rfl

theorem Py.bind_ret {A : Type} (x : Py V S A) : Py.bind x Py.ret = x := by
  funext w
  unfold Py.bind
  cases hx : x w with
  | mk r w' => cases r <;> rfl

theorem Py.bind_ok {A B : Type} {x : Py V S A} {f : A → Py V S B} {w w' : World V S} {a : A}
    (h : x w = (.ok a, w')) : Py.bind x f w = f a w' := by
  unfold Py.bind; rw [h]

theorem Py.bind_error {A B : Type} {x : Py V S A} {f : A → Py V S B} {w w' : World V S} {e : PyErr}
    (h : x w = (.error e, w')) : Py.bind x f w = (.error e, w') := by
  unfold Py.bind; rw [h]

/-! ### C41 -/

/-- C41a: a pipeline is constructed exactly if all arguments are parts or `None`; then it consists of the parts in
order; otherwise TypeError is raised. -/
theorem C41_construction (args : List (PartArg V S)) :
    (OnlyParts args → createPipelinesList args = .ok (partsOf args)) ∧
    (¬ OnlyParts args → createPipelinesList args = .error .typeError) := by
  induction args with
  | nil => exact ⟨fun _ => rfl, fun h => absurd (by simp [OnlyParts]) h⟩
  | cons a rest ih =>
    cases a with
    | none =>
      have hiff : OnlyParts (PartArg.none :: rest) ↔ OnlyParts rest := by simp [OnlyParts]
      rw [hiff]
      exact ih
    | part p =>
      have hiff : OnlyParts (PartArg.part p :: rest) ↔ OnlyParts rest := by simp [OnlyParts]
      rw [hiff]
      refine ⟨fun h => ?_, fun h => ?_⟩
      · unfold createPipelinesList; rw [ih.1 h]; rfl
      · unfold createPipelinesList; rw [ih.2 h]; rfl
    | other =>
      refine ⟨fun h => absurd rfl (h .other (by simp)), fun _ => rfl⟩

theorem execParts_append (a b : List (Part V S)) (v : Input) :
    execParts (a ++ b) v = Py.bind (execParts a v) (fun v' => execParts b v') := by
  induction a generalizing v with
  | nil => rfl
  | cons p a ih =>
    rw [List.cons_append, execParts, execParts, Py.bind_assoc]
    congr 1
    funext v'
    exact ih v'

/-- C41b: running a pipeline resets the unique colours and then runs the first parts and, on their result, the remaining
parts, wherever the list of parts is cut. -/
theorem C41_sequential (a b : List (Part V S)) (v : Input) :
    runPipeline (a ++ b) v = Py.bind (runPipeline a v) (fun v' => execParts b v') := by
  unfold runPipeline
  rw [Py.bind_assoc]
  congr 1
  funext _
  exact execParts_append a b v

/-- C41c: an empty pipeline returns its input. -/
theorem C41_empty (v : Input) (w : World V S) : runPipeline [] v w = (.ok v, { w with used := [] }) := rfl

/-- C41d: the first failing part aborts the run: the parts behind it are not executed, and the error and the state it
left are those of the whole pipeline. -/
theorem C41_first_failure_aborts (a b : List (Part V S)) (p : Part V S) (v v' : Input) (w w' w'' : World V S)
    (e : PyErr) (ha : runPipeline a v w = (.ok v', w')) (hp : p.exec v' w' = (.error e, w'')) :
    runPipeline (a ++ p :: b) v w = (.error e, w'') := by
  rw [C41_sequential, Py.bind_ok ha, execParts]
  exact Py.bind_error hp

/-- C41e: a nested pipeline with a condition that holds equals its parts in place, preceded by a reset of the unique
colours. -/
theorem C41_nesting_is_inlining (a inner b : List (Part V S)) (v : Input) :
    runPipeline (a ++ .cond (fun _ => Py.ret true) inner :: b) v =
      runPipeline (a ++ .prim (fun v => Py.bind resetColors (fun _ => Py.ret v)) :: (inner ++ b)) v := by
  rw [C41_sequential, C41_sequential]
  congr 1
  funext v'
  rw [execParts, execParts, Part.exec, Part.exec, Py.ret_bind, if_pos rfl, Py.bind_assoc, Py.bind_assoc]
  congr 1
  funext _
  rw [Py.ret_bind, execParts_append]

/-- C41f: a nested pipeline whose condition does not hold is skipped. -/
theorem C41_condition_false (inner b : List (Part V S)) (v : Input) :
    execParts (.cond (fun _ => Py.ret false) inner :: b) v = execParts b v := by
  rw [execParts, Part.exec, Py.ret_bind]
  rfl

/-- C41g: appending runs the part last; inserting runs it between the two halves; removing what was inserted gives the
pipeline back; removing beyond the end raises IndexError. -/
theorem C41_editing (ps : List (Part V S)) (p : Part V S) (i : Nat) (hi : i ≤ ps.length) (v : Input) :
    execParts (appendPart ps p) v = Py.bind (execParts ps v) (fun v' => p.exec v') ∧
    execParts (insertPart ps i p) v = Py.bind (execParts (ps.take i) v) (fun v' =>
      Py.bind (p.exec v') (fun v'' => execParts (ps.drop i) v'')) ∧
    removePart (insertPart ps i p) i = .ok ps ∧
    removePart ps ps.length = .error .indexError := by
  refine ⟨?_, ?_, ?_, ?_⟩
  · unfold appendPart
    rw [execParts_append]
    congr 1
    funext v'
    rw [execParts]
    exact Py.bind_ret _
  · unfold insertPart
    rw [execParts_append]
    congr 1
  · have hl : (ps.take i).length = i := by simp [hi]
    unfold removePart insertPart
    rw [if_pos (by simp; omega), List.eraseIdx_append_of_length_le (by omega), hl, Nat.sub_self, List.eraseIdx_cons_zero,
      List.take_append_drop]
  · unfold removePart
    rw [if_neg (by omega)]

/-! ### C42 -/

theorem ctx_setCtx (w : World V S) (r q : Nat) (d : Dict String V) (hr : r < w.ctxs.length) :
    (w.setCtx r d).ctx q = if r = q then d else w.ctx q := by
  unfold World.setCtx World.ctx
  simp only [List.getElem?_set]
  by_cases h : r = q
  · subst h; simp [hr]
  · simp [h]

theorem length_setCtx (w : World V S) (r : Nat) (d : Dict String V) : (w.setCtx r d).ctxs.length = w.ctxs.length := by
  simp [World.setCtx]

theorem setCtx_invalid (w : World V S) (r : Nat) (d : Dict String V) (hr : w.ctxs.length ≤ r) : w.setCtx r d = w := by
  unfold World.setCtx
  rw [List.set_eq_of_length_le hr]

/-- The world left by `cached_colors`. -/
theorem cachedColors_world (f : V) (r : Nat) (w : World V S) :
    (cachedColors f r w).2 = if (w.ctx r).contains "cached_colors" then w else (withValue r "cached_colors" f w).2 := by
  have hg : ∀ (w : World V S) (k : String), (getOrThrow r k w).2 = w := fun w k => by
    unfold getOrThrow; cases (w.ctx r).get? k <;> rfl
  unfold cachedColors Py.bind hasValue
  simp only
  by_cases h : (w.ctx r).contains "cached_colors" = true
  · simp only [h, if_true, Py.ret, hg]
  · simp only [Bool.not_eq_true] at h
    simp only [h, Bool.false_eq_true, if_false]
    unfold withValue
    simp only [hg]

theorem copyContext_ctx (w : World V S) (r q : Nat) (hq : q < w.ctxs.length) : ((copyContext r w).2).ctx q = w.ctx q := by
  unfold copyContext World.ctx
  simp only
  rw [List.getElem?_append_left hq]

theorem newContext_ctx (w : World V S) (q : Nat) (hq : q < w.ctxs.length) : ((newContext w).2).ctx q = w.ctx q := by
  unfold newContext World.ctx
  simp only
  rw [List.getElem?_append_left hq]

theorem run_length (op : CtxOp V) (w : World V S) : w.ctxs.length ≤ (op.run w).ctxs.length := by
  cases op with
  | put r k v => simp [CtxOp.run, withValue, length_setCtx]
  | remove r k =>
    unfold CtxOp.run removeValue
    simp only
    cases (w.ctx r).get? k with
    | none => exact Nat.le_refl _
    | some v => simp [length_setCtx]
  | colors r f =>
    simp only [CtxOp.run, cachedColors_world]
    split
    · exact Nat.le_refl _
    · simp [withValue, length_setCtx]
  | copy r => simp [CtxOp.run, copyContext]
  | create => simp [CtxOp.run, newContext]

theorem withValue_ctx (w : World V S) (r q : Nat) (k : String) (v : V) (hr : r < w.ctxs.length) :
    ((withValue r k v w).2).ctx q = if r = q then (w.ctx r).set k v else w.ctx q := by
  unfold withValue
  exact ctx_setCtx w r q _ hr

theorem withValue_invalid (w : World V S) (r : Nat) (k : String) (v : V) (hr : w.ctxs.length ≤ r) :
    (withValue r k v w).2 = w := setCtx_invalid w r _ hr

theorem removeValue_ctx (w : World V S) (r q : Nat) (k : String) (hr : r < w.ctxs.length) :
    ((removeValue r k w).2).ctx q = if r = q ∧ (w.ctx r).contains k then (w.ctx r).del k else w.ctx q := by
  unfold removeValue Dict.contains
  cases h : (w.ctx r).get? k with
  | none => simp
  | some v => simp only [Option.isSome_some, and_true]; exact ctx_setCtx w r q _ hr

theorem removeValue_invalid (w : World V S) (r : Nat) (k : String) (hr : w.ctxs.length ≤ r) :
    (removeValue r k w).2 = w := by
  unfold removeValue
  cases (w.ctx r).get? k with
  | none => rfl
  | some v => exact setCtx_invalid w r _ hr

/-- One operation that does not write the key keeps a value that is there. -/
theorem run_keeps_value (op : CtxOp V) (w : World V S) (r : Nat) (k : String) (v : V) (hr : r < w.ctxs.length)
    (hw : ¬ op.Writes r k) (hv : (w.ctx r).get? k = some v) : ((op.run w).ctx r).get? k = some v := by
  cases op with
  | put q k' v' =>
    simp only [CtxOp.run]
    by_cases hq : q < w.ctxs.length
    · rw [withValue_ctx _ _ _ _ _ hq]
      by_cases h : q = r
      · subst h
        rw [if_pos rfl, Dict.get?_set, if_neg (fun h => hw ⟨rfl, h⟩), hv]
      · rw [if_neg h, hv]
    · rw [withValue_invalid _ _ _ _ (by omega), hv]
  | remove q k' =>
    simp only [CtxOp.run]
    by_cases hq : q < w.ctxs.length
    · rw [removeValue_ctx _ _ _ _ hq]
      split
      · rename_i h
        obtain ⟨h, _⟩ := h
        subst h
        rw [Dict.get?_del, if_neg (fun h => hw ⟨rfl, h⟩), hv]
      · exact hv
    · rw [removeValue_invalid _ _ _ (by omega), hv]
  | colors q f =>
    simp only [CtxOp.run, cachedColors_world]
    split
    · exact hv
    · rename_i hc
      by_cases hq : q < w.ctxs.length
      · rw [withValue_ctx _ _ _ _ _ hq]
        by_cases h : q = r
        · subst h
          rw [if_pos rfl, Dict.get?_set]
          by_cases hk : "cached_colors" = k
          · subst hk
            exact absurd (by unfold Dict.contains; rw [hv]; rfl) hc
          · rw [if_neg hk, hv]
        · rw [if_neg h, hv]
      · rw [withValue_invalid _ _ _ _ (by omega), hv]
  | copy q => simp only [CtxOp.run]; rw [copyContext_ctx _ _ _ hr, hv]
  | create => simp only [CtxOp.run]; rw [newContext_ctx _ _ hr, hv]

/-- One operation that does not put the key keeps it absent. -/
theorem run_keeps_absent (op : CtxOp V) (w : World V S) (r : Nat) (k : String) (hr : r < w.ctxs.length)
    (hw : ¬ op.Puts r k) (hv : (w.ctx r).get? k = none) : ((op.run w).ctx r).get? k = none := by
  cases op with
  | put q k' v' =>
    simp only [CtxOp.run]
    by_cases hq : q < w.ctxs.length
    · rw [withValue_ctx _ _ _ _ _ hq]
      by_cases h : q = r
      · subst h
        rw [if_pos rfl, Dict.get?_set, if_neg (fun h => hw ⟨rfl, h⟩), hv]
      · rw [if_neg h, hv]
    · rw [withValue_invalid _ _ _ _ (by omega), hv]
  | remove q k' =>
    simp only [CtxOp.run]
    by_cases hq : q < w.ctxs.length
    · rw [removeValue_ctx _ _ _ _ hq]
      split
      · rename_i h
        obtain ⟨h, _⟩ := h
        subst h
        rw [Dict.get?_del, hv]
        split <;> rfl
      · exact hv
    · rw [removeValue_invalid _ _ _ (by omega), hv]
  | colors q f =>
    simp only [CtxOp.run, cachedColors_world]
    split
    · exact hv
    · by_cases hq : q < w.ctxs.length
      · rw [withValue_ctx _ _ _ _ _ hq]
        by_cases h : q = r
        · subst h
          rw [if_pos rfl, Dict.get?_set, if_neg (fun h => hw ⟨rfl, h⟩), hv]
        · rw [if_neg h, hv]
      · rw [withValue_invalid _ _ _ _ (by omega), hv]
  | copy q => simp only [CtxOp.run]; rw [copyContext_ctx _ _ _ hr, hv]
  | create => simp only [CtxOp.run]; rw [newContext_ctx _ _ hr, hv]

theorem getOrThrow_eq (w : World V S) (r : Nat) (k : String) :
    getOrThrow r k w = (match (w.ctx r).get? k with
      | none => .error .valueError
      | some v => .ok v, w) := by
  unfold getOrThrow; cases (w.ctx r).get? k <;> rfl

/-- C42a: a value put under a key of an existing context is returned after every history of operations that neither puts
nor removes this key of this context. -/
theorem C42_value_stays (w : World V S) (r : Nat) (k : String) (v : V) (hr : r < w.ctxs.length) (ops : List (CtxOp V))
    (hops : ∀ op ∈ ops, ¬ op.Writes r k) :
    (getOrThrow r k (history ops (withValue r k v w).2)).1 = .ok v := by
  have key : ∀ (ops : List (CtxOp V)) (w : World V S), r < w.ctxs.length → (∀ op ∈ ops, ¬ op.Writes r k) →
      (w.ctx r).get? k = some v → ((history ops w).ctx r).get? k = some v := by
    intro ops
    induction ops with
    | nil => intro w _ _ h; exact h
    | cons op ops ih =>
      intro w hr hops h
      exact ih (op.run w) (Nat.lt_of_lt_of_le hr (run_length op w)) (fun o ho => hops o (by simp [ho]))
        (run_keeps_value op w r k v hr (hops op (by simp)) h)
  rw [getOrThrow_eq, key ops _ (by simpa [withValue, length_setCtx] using hr) hops
    (by rw [withValue_ctx _ _ _ _ _ hr, if_pos rfl, Dict.get?_set, if_pos rfl])]

/-- C42b: after removing a key reading it raises ValueError after every history of operations that does not put this
key. -/
theorem C42_absent_raises (w : World V S) (r : Nat) (k : String) (hr : r < w.ctxs.length) (ops : List (CtxOp V))
    (hops : ∀ op ∈ ops, ¬ op.Puts r k) :
    (getOrThrow r k (history ops (removeValue r k w).2)).1 = .error .valueError := by
  have key : ∀ (ops : List (CtxOp V)) (w : World V S), r < w.ctxs.length → (∀ op ∈ ops, ¬ op.Puts r k) →
      (w.ctx r).get? k = none → ((history ops w).ctx r).get? k = none := by
    intro ops
    induction ops with
    | nil => intro w _ _ h; exact h
    | cons op ops ih =>
      intro w hr hops h
      exact ih (op.run w) (Nat.lt_of_lt_of_le hr (run_length op w)) (fun o ho => hops o (by simp [ho]))
        (run_keeps_absent op w r k hr (hops op (by simp)) h)
  have hstart : (((removeValue r k w).2).ctx r).get? k = none := by
    rw [removeValue_ctx _ _ _ _ hr]
    by_cases hc : (w.ctx r).contains k = true
    · rw [if_pos ⟨rfl, hc⟩, Dict.get?_del, if_pos rfl]
    · rw [if_neg (fun h => hc h.2)]
      unfold Dict.contains at hc
      cases hg : (w.ctx r).get? k with
      | none => rfl
      | some v => rw [hg] at hc; exact absurd rfl hc
  have := key ops (removeValue r k w).2 (Nat.lt_of_lt_of_le hr (run_length (.remove r k) w)) hops hstart
  rw [getOrThrow_eq, this]

/-- C42c: a new context has no value, so every read raises ValueError and every removal KeyError. -/
theorem C42_new_context_empty (w : World V S) (k : String) :
    ∃ r w', newContext w = (.ok r, w') ∧ (getOrThrow r k w').1 = .error .valueError ∧
      (removeValue r k w').1 = .error .keyError ∧ (hasValue r k w').1 = .ok false := by
  refine ⟨w.ctxs.length, _, rfl, ?_⟩
  have h : World.ctx (V := V) (S := S) { w with ctxs := w.ctxs ++ [[]] } w.ctxs.length = [] := by
    simp [World.ctx]
  refine ⟨by rw [getOrThrow_eq, h]; rfl, ?_, ?_⟩
  · unfold removeValue; rw [h]; rfl
  · unfold hasValue; rw [h]; rfl

/-- One operation changes no context but its target. -/
theorem run_frame (op : CtxOp V) (w : World V S) (r : Nat) (hr : r < w.ctxs.length) (ht : op.target ≠ some r) :
    (op.run w).ctx r = w.ctx r := by
  cases op with
  | put q k v =>
    have hne : q ≠ r := fun h => ht (by simp [CtxOp.target, h])
    simp only [CtxOp.run]
    by_cases hq : q < w.ctxs.length
    · rw [withValue_ctx _ _ _ _ _ hq, if_neg hne]
    · rw [withValue_invalid _ _ _ _ (by omega)]
  | remove q k =>
    have hne : q ≠ r := fun h => ht (by simp [CtxOp.target, h])
    simp only [CtxOp.run]
    by_cases hq : q < w.ctxs.length
    · rw [removeValue_ctx _ _ _ _ hq, if_neg (fun h => hne h.1)]
    · rw [removeValue_invalid _ _ _ (by omega)]
  | colors q f =>
    have hne : q ≠ r := fun h => ht (by simp [CtxOp.target, h])
    simp only [CtxOp.run, cachedColors_world]
    split
    · rfl
    · by_cases hq : q < w.ctxs.length
      · rw [withValue_ctx _ _ _ _ _ hq, if_neg hne]
      · rw [withValue_invalid _ _ _ _ (by omega)]
  | copy q => exact copyContext_ctx _ _ _ hr
  | create => exact newContext_ctx _ _ hr

theorem history_frame (ops : List (CtxOp V)) (w : World V S) (r : Nat) (hr : r < w.ctxs.length)
    (ht : ∀ op ∈ ops, op.target ≠ some r) : (history ops w).ctx r = w.ctx r := by
  induction ops generalizing w with
  | nil => rfl
  | cons op ops ih =>
    refine (ih (op.run w) (Nat.lt_of_lt_of_le hr (run_length op w)) (fun o ho => ht o (by simp [ho]))).trans ?_
    exact run_frame op w r hr (ht op (by simp))

/-- C42d: a copy is a new context that answers every read like the original; after every history of operations on other
contexts than the copy the copy still answers as the original did, and after every history of operations on other
contexts than the original the original still answers as before. -/
theorem C42_copy_isolates (w : World V S) (r : Nat) (hr : r < w.ctxs.length) :
    ∃ c w', copyContext r w = (.ok c, w') ∧ c ≠ r ∧ c = w.ctxs.length ∧
      (∀ ops, (∀ op ∈ ops, op.target ≠ some c) → ∀ k,
        (getOrThrow c k (history ops w')).1 = (getOrThrow r k w).1) ∧
      (∀ ops, (∀ op ∈ ops, op.target ≠ some r) → ∀ k,
        (getOrThrow r k (history ops w')).1 = (getOrThrow r k w).1) := by
  refine ⟨w.ctxs.length, _, rfl, by omega, rfl, ?_, ?_⟩
  · intro ops ht k
    have hc : (World.ctx (V := V) (S := S) { w with ctxs := w.ctxs ++ [w.ctx r] } w.ctxs.length) = w.ctx r := by
      simp [World.ctx]
    rw [getOrThrow_eq, getOrThrow_eq, history_frame ops _ _ (by simp) ht, hc]
  · intro ops ht k
    rw [getOrThrow_eq, getOrThrow_eq, history_frame ops _ _ (by simp; omega) ht]
    have := copyContext_ctx w r r hr
    unfold copyContext at this
    rw [this]

/-! ### C43, contexts -/

theorem _root_.Ficus.Spec.Keeps.refl (A : Nat → Prop) (w : World V S) : Keeps A w w := ⟨Nat.le_refl _, fun _ _ _ => rfl⟩

/-- Two steps, where the second may in addition change what did not exist before the first. -/
theorem _root_.Ficus.Spec.Keeps.trans {A B : Nat → Prop} {w w' w'' : World V S} (h1 : Keeps A w w') (h2 : Keeps B w' w'')
    (hB : ∀ q, q < w.ctxs.length → B q → A q) : Keeps A w w'' := by
  refine ⟨Nat.le_trans h1.1 h2.1, ?_⟩
  intro q hq hA
  rw [h2.2 q (Nat.lt_of_lt_of_le hq h1.1) (fun hb => hA (hB q hq hb)), h1.2 q hq hA]

theorem keeps_reset (A : Nat → Prop) (w : World V S) : Keeps A w { w with used := [] } :=
  ⟨Nat.le_refl _, fun _ _ _ => rfl⟩

theorem valid_mono {v : Input} {w w' : World V S} (h : Valid v w) (hl : w.ctxs.length ≤ w'.ctxs.length) : Valid v w' :=
  fun r hr => Nat.lt_of_lt_of_le (h r hr) hl

/-- A result of a confined step: the input, nothing, or new. -/
def Result (v v' : Input) (w w' : World V S) : Prop := v' = v ∨ v' = none ∨ Fresh v' w w'

theorem Result.valid {v v' : Input} {w w' : World V S} (h : Result v v' w w') (hv : Valid v w)
    (hl : w.ctxs.length ≤ w'.ctxs.length) : Valid v' w' := by
  rcases h with h | h | ⟨q, h, _, hq⟩
  · subst h; exact valid_mono hv hl
  · subst h; intro r hr; simp at hr
  · subst h; intro r hr; cases hr; exact hq

theorem Result.trans {v v' v'' : Input} {w w' w'' : World V S} (h1 : Result v v' w w') (h2 : Result v' v'' w' w'')
    (hl : w.ctxs.length ≤ w'.ctxs.length) (hl' : w'.ctxs.length ≤ w''.ctxs.length) : Result v v'' w w'' := by
  rcases h2 with h | h | ⟨q, h, hq1, hq2⟩
  · subst h
    rcases h1 with h | h | ⟨q, h, hq1, hq2⟩
    · exact Or.inl h
    · exact Or.inr (Or.inl h)
    · exact Or.inr (Or.inr ⟨q, h, hq1, Nat.lt_of_lt_of_le hq2 hl'⟩)
  · exact Or.inr (Or.inl h)
  · exact Or.inr (Or.inr ⟨q, h, Nat.le_trans hl hq1, hq2⟩)

theorem Result.allowed {v v' : Input} {w w' : World V S} (h : Result v v' w w') :
    ∀ q, q < w.ctxs.length → v' = some q → v = some q := by
  intro q hq hv
  rcases h with h | h | ⟨p, h, hp, _⟩
  · rw [← h]; exact hv
  · rw [h] at hv; simp at hv
  · rw [h] at hv; cases hv; omega

/-- Sequencing of confined computations. -/
theorem confined_bind {f : Input → Py V S Input} {g : Input → Py V S Input} (hf : Confined f) (hg : Confined g) :
    Confined (fun v => Py.bind (f v) g) := by
  intro v w hv
  obtain ⟨hk, hr⟩ := hf v w hv
  cases hx : f v w with
  | mk res w' =>
    rw [hx] at hk hr
    cases res with
    | error e =>
      have he : Py.bind (f v) g w = (.error e, w') := Py.bind_error hx
      show Keeps _ w (Py.bind (f v) g w).2 ∧ _
      simp only [he]
      exact ⟨hk, fun v' h => by simp at h⟩
    | ok a =>
      have he : Py.bind (f v) g w = g a w' := Py.bind_ok hx
      show Keeps _ w (Py.bind (f v) g w).2 ∧ _
      simp only [he]
      have hra : Result v a w w' := hr a rfl
      obtain ⟨hk2, hr2⟩ := hg a w' (hra.valid hv hk.1)
      refine ⟨hk.trans hk2 hra.allowed, fun v' h => ?_⟩
      exact hra.trans (hr2 v' h) hk.1 hk2.1

theorem confined_ret : Confined (fun v : Input => (Py.ret v : Py V S Input)) :=
  fun _ w _ => ⟨Keeps.refl _ w, fun _ h => Or.inl (Except.ok.inj h).symm⟩

theorem confined_reset {f : Input → Py V S Input} (hf : Confined f) :
    Confined (fun v => Py.bind resetColors (fun _ => f v)) := by
  intro v w hv
  have := hf v { w with used := [] } hv
  exact this

/-- The copy of an input: nothing, or a new context with the same keys and values. -/
theorem copyInput_spec (v : Input) (w : World V S) (hv : Valid v w) :
    ∃ c w', copyInput v w = (.ok c, w') ∧ Keeps (fun _ => False) w w' ∧ (c = none ∨ Fresh c w w') ∧
      (∀ r, v = some r → ∃ q, c = some q ∧ w.ctxs.length ≤ q ∧ w'.ctx q = w.ctx r) := by
  cases v with
  | none => exact ⟨none, w, rfl, Keeps.refl _ w, Or.inl rfl, fun r hr => by simp at hr⟩
  | some r =>
    refine ⟨some w.ctxs.length, _, rfl, ⟨by simp, ?_⟩, Or.inr ⟨_, rfl, Nat.le_refl _, by simp⟩, ?_⟩
    · intro q hq _
      simp only
      rw [List.getElem?_append_left hq]
    · intro r' hr'
      cases hr'
      exact ⟨_, rfl, Nat.le_refl _, by simp [World.ctx]⟩

/-- Running a confined computation on a copy changes no existing context. -/
theorem on_copy {f : Input → Py V S Input} (hf : Confined f) (v : Input) (w : World V S) (hv : Valid v w) :
    Keeps (fun _ => False) w (Py.bind (copyInput v) f w).2 ∧
      ∀ v', (Py.bind (copyInput v) f w).1 = .ok v' → v' = none ∨ Fresh v' w (Py.bind (copyInput v) f w).2 := by
  obtain ⟨c, w', h, hk, hc, _⟩ := copyInput_spec v w hv
  rw [Py.bind_ok h]
  have hvc : Valid c w' := by
    rcases hc with hc | ⟨q, hc, _, hq⟩
    · subst hc; intro r hr; simp at hr
    · subst hc; intro r hr; cases hr; exact hq
  obtain ⟨hk2, hr2⟩ := hf c w' hvc
  refine ⟨hk.trans hk2 ?_, ?_⟩
  · intro q hq hcq
    rcases hc with hc | ⟨p, hc, hp, _⟩
    · subst hc; simp at hcq
    · subst hc; cases hcq; omega
  · intro v' hv'
    rcases hr2 v' hv' with h1 | h1 | ⟨q, h1, h2, h3⟩
    · subst h1
      rcases hc with hc | ⟨q, hc, h2, h3⟩
      · exact Or.inl hc
      · exact Or.inr ⟨q, hc, h2, Nat.lt_of_lt_of_le h3 hk2.1⟩
    · exact Or.inl h1
    · exact Or.inr ⟨q, h1, Nat.le_trans hk.1 h2, h3⟩

mutual
theorem confined_part : ∀ p : Part V S, Disciplined p → Confined p.exec
  | .prim f, h => by
    simp only [Disciplined] at h
    intro v w hv
    rw [Part.exec]
    exact h v w hv
  | .parallel ps, h => by
    simp only [Disciplined] at h
    intro v w hv
    rw [Part.exec]
    obtain ⟨h1, h2⟩ := keeps_parallel ps h v none w hv (fun r hr => by simp at hr)
    exact ⟨⟨h1.1, fun q hq _ => h1.2 q hq (fun h => h)⟩, fun v' hv' => by
      rcases h2 v' hv' with h | h | h
      · exact Or.inr (Or.inl h)
      · exact Or.inr (Or.inl h)
      · exact Or.inr (Or.inr h)⟩
  | .withTemp t m p, h => by
    simp only [Disciplined] at h
    obtain ⟨ht, hm, hp⟩ := h
    have hin := confined_bind ht (confined_reset (confined_parts p hp))
    intro v w hv
    rw [Part.exec]
    have he : Py.bind (t v) (fun t => Py.bind resetColors (fun _ => Py.bind (execParts p t) (fun r => m v r))) =
        Py.bind (Py.bind (t v) (fun v => Py.bind resetColors (fun _ => execParts p v))) (fun r => m v r) := by
      rw [Py.bind_assoc]
      congr 1
    rw [he]
    obtain ⟨hk, hr⟩ := hin v w hv
    cases hx : Py.bind (t v) (fun v => Py.bind resetColors (fun _ => execParts p v)) w with
    | mk res w' =>
      simp only at hk hr
      rw [hx] at hk hr
      cases res with
      | error e =>
        rw [Py.bind_error hx]
        exact ⟨hk, fun v' h => by simp at h⟩
      | ok a =>
        rw [Py.bind_ok hx]
        have hra : Result v a w w' := hr a rfl
        obtain ⟨hk2, hr2⟩ := hm v a w' (valid_mono hv hk.1) (hra.valid hv hk.1)
        refine ⟨hk.trans hk2 ?_, fun v' h => ?_⟩
        · intro q hq hor
          rcases hor with h | h
          · exact h
          · exact hra.allowed q hq h
        · rcases hr2 v' h with h | h | h | ⟨q, h, h1, h2⟩
          · exact Or.inl h
          · subst h
            exact hra.trans (Or.inl rfl) hk.1 hk2.1
          · exact Or.inr (Or.inl h)
          · exact Or.inr (Or.inr ⟨q, h, Nat.le_trans hk.1 h1, h2⟩)
  | .withCopy p, h => by
    simp only [Disciplined] at h
    have hin := confined_reset (confined_parts p h)
    intro v w hv
    rw [Part.exec]
    have he : Py.bind (copyInput v) (fun c => Py.bind resetColors (fun _ => Py.bind (execParts p c) (fun _ => Py.ret v))) =
        Py.bind (Py.bind (copyInput v) (fun v => Py.bind resetColors (fun _ => execParts p v))) (fun _ => Py.ret v) := by
      rw [Py.bind_assoc]
      congr 1
    rw [he]
    obtain ⟨hk, _⟩ := on_copy hin v w hv
    cases hx : Py.bind (copyInput v) (fun v => Py.bind resetColors (fun _ => execParts p v)) w with
    | mk res w' =>
      rw [hx] at hk
      have hk' : Keeps (fun q => v = some q) w w' := ⟨hk.1, fun q hq _ => hk.2 q hq (fun h => h)⟩
      cases res with
      | error e =>
        rw [Py.bind_error hx]
        exact ⟨hk', fun v' h => by simp at h⟩
      | ok a =>
        rw [Py.bind_ok hx]
        exact ⟨hk', fun v' h => Or.inl (Except.ok.inj h).symm⟩
  | .cond c p, h => by
    simp only [Disciplined] at h
    obtain ⟨hc, hp⟩ := h
    have hin := confined_reset (confined_parts p hp)
    intro v w hv
    rw [Part.exec]
    have hk := hc v w hv
    cases hx : c v w with
    | mk res w' =>
      rw [hx] at hk
      cases res with
      | error e =>
        rw [Py.bind_error hx]
        exact ⟨hk, fun v' h => by simp at h⟩
      | ok b =>
        rw [Py.bind_ok hx]
        cases b with
        | false => exact ⟨hk, fun v' h => Or.inl (Except.ok.inj h).symm⟩
        | true =>
          obtain ⟨hk2, hr2⟩ := hin v w' (valid_mono hv hk.1)
          refine ⟨hk.trans hk2 (fun q _ h => h), fun v' h => ?_⟩
          exact Result.trans (Or.inl rfl) (hr2 v' h) hk.1 hk2.1
theorem confined_parts : ∀ ps : List (Part V S), DisciplinedL ps → Confined (execParts ps)
  | [], _ => by
    intro v w hv
    rw [execParts]
    exact confined_ret v w hv
  | p :: ps, h => by
    simp only [DisciplinedL] at h
    have := confined_bind (confined_part p h.1) (confined_parts ps h.2)
    intro v w hv
    rw [execParts]
    exact this v w hv
theorem keeps_parallel : ∀ ps : List (List (Part V S)), DisciplinedLL ps → ∀ (v last : Input) (w : World V S),
    Valid v w → Valid last w →
    Keeps (fun _ => False) w (execParallel ps v last w).2 ∧
      ∀ v', (execParallel ps v last w).1 = .ok v' → v' = last ∨ v' = none ∨ Fresh v' w (execParallel ps v last w).2
  | [], _, v, last, w, _, _ => by
    rw [execParallel]
    exact ⟨Keeps.refl _ w, fun v' h => Or.inl (Except.ok.inj h).symm⟩
  | p :: ps, h, v, last, w, hv, hl => by
    simp only [DisciplinedLL] at h
    have hin := confined_reset (confined_parts p h.1)
    rw [execParallel]
    have he : Py.bind (copyInput v) (fun c => Py.bind resetColors (fun _ => Py.bind (execParts p c)
          (fun r => execParallel ps v r))) =
        Py.bind (Py.bind (copyInput v) (fun v => Py.bind resetColors (fun _ => execParts p v)))
          (fun r => execParallel ps v r) := by
      rw [Py.bind_assoc]
      congr 1
    rw [he]
    obtain ⟨hk, hr⟩ := on_copy hin v w hv
    cases hx : Py.bind (copyInput v) (fun v => Py.bind resetColors (fun _ => execParts p v)) w with
    | mk res w' =>
      rw [hx] at hk hr
      cases res with
      | error e =>
        rw [Py.bind_error hx]
        exact ⟨hk, fun v' h => by simp at h⟩
      | ok a =>
        rw [Py.bind_ok hx]
        have hra : Result none a w w' := by
          rcases hr a rfl with h | h
          · exact Or.inl h
          · exact Or.inr (Or.inr h)
        have hva : Valid a w' := hra.valid (fun r hr => by simp at hr) hk.1
        obtain ⟨hk2, hr2⟩ := keeps_parallel ps h.2 v a w' (valid_mono hv hk.1) hva
        refine ⟨hk.trans hk2 (fun _ _ h => h), fun v' h => ?_⟩
        rcases hra.trans (hr2 v' h) hk.1 hk2.1 with h | h | h
        · exact Or.inr (Or.inl h)
        · exact Or.inr (Or.inl h)
        · exact Or.inr (Or.inr h)
end

/-- C43a: whatever disciplined pipeline runs inside WithInputCopy, whether it succeeds or raises, no existing context
changes its keys or values; on success the caller gets its own context back. -/
theorem C43_with_copy_isolates_contexts (p : List (Part V S)) (hp : DisciplinedL p) (r : Nat) (w : World V S)
    (hr : r < w.ctxs.length) :
    (∀ q, q < w.ctxs.length → (((Part.withCopy p).exec (some r) w).2).ctx q = w.ctx q) ∧
    ∀ v', ((Part.withCopy p).exec (some r) w).1 = .ok v' → v' = some r := by
  have hv : Valid (some r) w := fun q hq => by cases hq; exact hr
  rw [Part.exec]
  have he : Py.bind (copyInput (some r)) (fun c => Py.bind resetColors (fun _ => Py.bind (execParts p c)
        (fun _ => Py.ret (some r)))) =
      Py.bind (Py.bind (copyInput (some r)) (fun v => Py.bind resetColors (fun _ => execParts p v)))
        (fun _ => (Py.ret (some r) : Py V S Input)) := by
    rw [Py.bind_assoc]
    congr 1
  rw [he]
  obtain ⟨hk, _⟩ := on_copy (confined_reset (confined_parts p hp)) (some r) w hv
  cases hx : Py.bind (copyInput (some r)) (fun v => Py.bind resetColors (fun _ => execParts p v)) w with
  | mk res w' =>
    rw [hx] at hk
    have hq : ∀ q, q < w.ctxs.length → w'.ctx q = w.ctx q := by
      intro q hq
      unfold World.ctx
      rw [hk.2 q hq (fun h => h)]
    cases res with
    | error e => rw [Py.bind_error hx]; exact ⟨hq, fun v' h => by simp at h⟩
    | ok a => rw [Py.bind_ok hx]; exact ⟨hq, fun v' h => (Except.ok.inj h).symm⟩

/-- C43b: the same for ParallelPipeline. -/
theorem C43_parallel_isolates_contexts (ps : List (List (Part V S))) (hp : DisciplinedLL ps) (r : Nat) (w : World V S)
    (hr : r < w.ctxs.length) (q : Nat) (hq : q < w.ctxs.length) :
    (((Part.parallel ps).exec (some r) w).2).ctx q = w.ctx q := by
  have hv : Valid (some r) w := fun q hq => by cases hq; exact hr
  rw [Part.exec]
  unfold World.ctx
  rw [(keeps_parallel ps hp (some r) none w hv (fun r hr => by simp at hr)).1.2 q hq (fun h => h)]

theorem execParallel_append (a b : List (List (Part V S))) (v last : Input) :
    execParallel (a ++ b) v last = Py.bind (execParallel a v last) (fun l => execParallel b v l) := by
  induction a generalizing last with
  | nil => rfl
  | cons p a ih =>
    rw [List.cons_append, execParallel, execParallel]
    simp only [Py.bind_assoc]
    congr 1
    funext c
    congr 1
    funext _
    congr 1
    funext r
    exact ih r

/-- C43c: every branch of a ParallelPipeline is run on a new context with the keys and values that the caller's context
had at the start, and with the unique colours reset; what the branches before it did to their contexts is not seen. -/
theorem C43_branches_start_alike (a b : List (List (Part V S))) (p : List (Part V S)) (ha : DisciplinedLL a) (r : Nat)
    (w w' : World V S) (hr : r < w.ctxs.length) (last : Input)
    (hrun : (Part.parallel a).exec (some r) w = (.ok last, w')) :
    ∃ c w'', w.ctxs.length ≤ c ∧ w''.ctx c = w.ctx r ∧ w''.used = [] ∧ w''.rest = w'.rest ∧
      (Part.parallel (a ++ p :: b)).exec (some r) w =
        Py.bind (execParts p (some c)) (fun l => execParallel b (some r) l) w'' := by
  rw [Part.exec] at hrun
  have hv : Valid (some r) w := fun q hq => by cases hq; exact hr
  have hk := (keeps_parallel a ha (some r) none w hv (fun r hr => by simp at hr)).1
  rw [hrun] at hk
  refine ⟨w'.ctxs.length, { w' with ctxs := w'.ctxs ++ [w'.ctx r], used := [] }, hk.1, ?_, rfl, rfl, ?_⟩
  · simp only [World.ctx, List.getElem?_concat_length, Option.getD_some]
    rw [hk.2 r hr (fun h => h)]
  · rw [Part.exec, execParallel_append, Py.bind_ok hrun, execParallel]
    rfl

/-- C43d: without branches the result is `None`. -/
theorem C43_parallel_empty (v : Input) (w : World V S) : (Part.parallel []).exec v w = (.ok none, w) := rfl

/-! ### Concrete cases -/

/-- A part that puts a value into its context. -/
def putPart (key : String) (v : Nat) : Part Nat Nat := .prim (fun i => match i with
  | none => Py.fail .attributeError
  | some r => Py.bind (withValue r key v) (fun c => Py.ret (some c)))

/-- A part that marks a colour as used. -/
def colorPart (c : String) : Part Nat Nat := .prim (fun i w => (.ok i, { w with used := w.used ++ [c] }))

/-- A part that raises. -/
def failPart : Part Nat Nat := .prim (fun _ => Py.fail .zeroDivision)

/-- A world with one context. -/
def oneContext : World Nat Nat := { ctxs := [[("log", 7)]], used := [], rest := 0 }

/-- C41h, disagreement with "nesting equals inlining" without the reset: the colours marked as used before the nested
pipeline are forgotten. -/
theorem C41_nesting_forgets_colours :
    (runPipeline [colorPart "#000001", .cond (fun _ => Py.ret true) [colorPart "#000002"]] (some 0) oneContext).2.used =
      ["#000002"] ∧
    (runPipeline [colorPart "#000001", colorPart "#000002"] (some 0) oneContext).2.used = ["#000001", "#000002"] := by
  decide

/-- C41i, disagreement: a `Pipeline` itself is rejected as a part, as it is not a `PipelinePart`. -/
theorem C41_pipeline_is_not_a_part (p : Part Nat Nat) :
    createPipelinesList [.part p, .none, .other] = .error .typeError := rfl

/-- A failing part: the part behind it is not run, what the part before it did stays. -/
example : (runPipeline [putPart "a" 1, failPart, putPart "b" 2] (some 0) oneContext) =
    (.error .zeroDivision, { ctxs := [[("log", 7), ("a", 1)]], used := [], rest := 0 }) := rfl

/-- Values stay and are isolated: put in the copy, the original keeps the old value. -/
example : (getOrThrow 0 "log" (history [.copy 0, .put 1 "log" 9, .remove 1 "log", .colors 0 5, .create] oneContext)).1 = .ok 7 ∧
    (getOrThrow 1 "log" (history [.copy 0, .put 1 "log" 9] oneContext)).1 = .ok 9 := by
  decide

/-- The parts above are disciplined, so that C43 applies to nested pipelines made of them. -/
theorem putPart_disciplined (key : String) (v : Nat) : Disciplined (putPart key v) := by
  unfold putPart
  simp only [Disciplined]
  intro i w hi
  cases i with
  | none => exact ⟨Keeps.refl _ _, fun v' h => by simp [Py.fail] at h⟩
  | some r =>
    refine ⟨⟨by simp [Py.bind, withValue, Py.ret, length_setCtx], ?_⟩, fun v' h => Or.inl (Except.ok.inj h).symm⟩
    intro q hq hne
    simp only [Py.bind, withValue, Py.ret, World.setCtx]
    rw [List.getElem?_set_ne (fun h => hne (by rw [h]))]

example : DisciplinedL [putPart "log" 9, .parallel [[putPart "log" 10], [putPart "x" 1]]] ∧
    ((Part.withCopy [putPart "log" 9, .parallel [[putPart "log" 10], [putPart "x" 1]]]).exec (some 0) oneContext).1 =
      .ok (some 0) ∧
    ((Part.withCopy [putPart "log" 9, .parallel [[putPart "log" 10], [putPart "x" 1]]]).exec (some 0) oneContext).2.ctxs =
      [[("log", 7)], [("log", 9)], [("log", 10)], [("log", 9), ("x", 1)]] := by
  refine ⟨?_, rfl, rfl⟩
  simp only [DisciplinedL, Disciplined, DisciplinedLL]
  exact ⟨putPart_disciplined _ _, ⟨⟨putPart_disciplined _ _, trivial⟩, ⟨putPart_disciplined _ _, trivial⟩, trivial⟩,
    trivial⟩

end Ficus
