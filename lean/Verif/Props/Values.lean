import Verif.Proofs.Values

/-! Property C79: the initial context of remote pipelines. -/

namespace Ficus
open Values Values.Spec

variable {F : Type}

/-- C79a: the initial context is made exactly when every value arrives, and then has the keys and values in their order. -/
theorem C79_context_arrives (f32 : F → Nat) (items : List (String × Value F)) (ctx : List (String × GValue)) :
    initialContext f32 items [] = .ok ctx ↔
      List.Forall₂ (fun kv kg => kg.1 = kv.1 ∧ Arrives f32 kv.2 kg.2) items ctx := by
  constructor
  · intro h
    rcases initialContext_cases f32 items [] with ⟨c, hc, hf⟩ | ⟨e, pre, kv, post, he, _⟩
    · rw [h] at hc
      simp only [List.nil_append, Except.ok.injEq] at hc
      rw [hc]
      exact hf
    · rw [h] at he; cases he
  · intro h
    rcases initialContext_cases f32 items [] with ⟨c, hc, hf⟩ | ⟨e, pre, kv, post, he, rfl, hpre, hr⟩
    · rw [hc]
      congr 1
      simp only [List.nil_append]
      clear hc
      induction hf generalizing ctx with
      | nil => cases h; rfl
      | cons h1 _ ih =>
        cases h with
        | cons h2 h3 =>
          rw [ih _ h3]
          congr 1
          exact Prod.ext (h1.1.trans h2.1.symm) (arrives_unique h1.2 h2.2)
    · exfalso
      have : ∃ g, Arrives f32 kv.2 g := by
        clear he hpre
        induction pre generalizing ctx with
        | nil => cases h with | cons h1 _ => exact ⟨_, h1.2⟩
        | cons x xs ih => cases h with | cons _ h2 => exact ih _ h2
      obtain ⟨g, hg⟩ := this
      exact arrives_not_rejected hg hr

/-- C79b: otherwise the error is that of the first value that is rejected, whatever comes after it: `ValueError` for a
number, a hash or a count that does not fit, `AttributeError` for an object that is not a context value, and `TypeError`
for every `EventLogInfo`, although it is a context value: its conversion is a message of another type. -/
theorem C79_context_fails (f32 : F → Nat) (items : List (String × Value F)) (e : PyErr) :
    initialContext f32 items [] = .error e ↔
      ∃ pre kv post, items = pre ++ kv :: post ∧ (∀ x ∈ pre, ∃ g, Arrives f32 x.2 g) ∧ Rejected kv.2 e := by
  constructor
  · intro h
    rcases initialContext_cases f32 items [] with ⟨c, hc, _⟩ | ⟨e', pre, kv, post, he, h1, h2, h3⟩
    · rw [h] at hc; cases hc
    · rw [h] at he
      cases he
      exact ⟨pre, kv, post, h1, h2, h3⟩
  · rintro ⟨pre, kv, post, rfl, h2, h3⟩
    rcases initialContext_cases f32 (pre ++ kv :: post) [] with ⟨c, hc, hf⟩ | ⟨e', pre', kv', post', he, h1', h2', h3'⟩
    · exfalso
      clear hc
      induction pre generalizing c with
      | nil => cases hf with | cons h1 _ => exact arrives_not_rejected h1.2 h3
      | cons x xs ih => cases hf with | cons _ hr => exact ih (fun y hy => h2 y (by simp [hy])) _ hr
    · rw [he]
      congr 1
      clear he
      induction pre generalizing pre' with
      | nil =>
        cases pre' with
        | nil =>
          simp only [List.nil_append, List.cons.injEq] at h1'
          rw [← h1'.1] at h3'
          exact rejected_unique h3' h3
        | cons y ys =>
          simp only [List.nil_append, List.cons_append, List.cons.injEq] at h1'
          obtain ⟨g, hg⟩ := h2' y (by simp)
          rw [← h1'.1] at hg
          exact absurd h3 (arrives_not_rejected hg)
      | cons x xs ih =>
        cases pre' with
        | nil =>
          simp only [List.nil_append, List.cons_append, List.cons.injEq] at h1'
          obtain ⟨g, hg⟩ := h2 x (by simp)
          rw [h1'.1] at hg
          exact absurd h3' (arrives_not_rejected hg)
        | cons y ys =>
          simp only [List.cons_append, List.cons.injEq] at h1'
          exact ih (fun z hz => h2 z (by simp [hz])) ys h1'.2 (fun z hz => h2' z (by simp [hz]))

/-- C79c: every context either arrives or fails; and different contexts arrive differently, if the
floats in them are not rounded to the same one. -/
theorem C79_context_determined (f32 : F → Nat) (items items' : List (String × Value F))
    (hf : ∀ i ∈ items, ∀ j ∈ items', ∀ x y, i.2 = .float x → j.2 = .float y → f32 x = f32 y → x = y)
    (ctx : List (String × GValue)) (h : initialContext f32 items [] = .ok ctx)
    (h' : initialContext f32 items' [] = .ok ctx) : items = items' := by
  rw [C79_context_arrives] at h h'
  induction h generalizing items' with
  | nil => cases h'; rfl
  | cons h1 _ ih =>
    cases h' with
    | cons h2 h3 =>
      rw [ih _ (fun i hi j hj => hf i (by simp [hi]) j (by simp [hj])) h3]
      congr 1
      exact Prod.ext (h1.1.symm.trans h2.1) (arrives_back (hf _ (by simp) _ (by simp)) h1.2 h2.2)

/-- C79d: a log of names is read back as it was sent. -/
theorem C79_names_log (f32 : F → Nat) (log : List (List String)) :
    ∃ sent, (Value.namesLog log : Value F).convert f32 = .ok (.value (.namesLog sent)) ∧ fromGrpcNamesLog sent = log := by
  refine ⟨namesTraces log, rfl, ?_⟩
  rw [fromGrpcNamesLog_eq, namesTraces_eq]

/-- C79e: the numbers of an `EventLogInfo` are read back as they were sent. -/
theorem C79_info (f32 : F → Nat) (v : Value F) (i : GInfo) (h : v.convert f32 = .ok (.info i)) : fromGrpcInfo i = v := by
  cases v with
  | info e c t =>
    simp only [Value.convert, bound32] at h
    rcases unsigned_cases (2 ^ 32) e with ⟨m, h1, hf⟩ | ⟨h1, hf⟩
    · rcases unsigned_cases (2 ^ 32) t with ⟨m2, h2, hf2⟩ | ⟨h2, hf2⟩
      · rcases unsigned_cases (2 ^ 32) c with ⟨m3, h3, hf3⟩ | ⟨h3, hf3⟩
        · rw [h1, h2, h3] at h
          cases h
          simp only [fromGrpcInfo]
          rw [hf.1, hf2.1, hf3.1]
        · rw [h1, h2, h3] at h; cases h
      · rw [h1, h2] at h; cases h
    · rw [h1] at h; cases h
  | uint32 n =>
    simp only [Value.convert] at h
    cases h1 : unsigned 4294967296 n <;> rw [h1] at h <;> cases h
  | hashesLog log =>
    simp only [Value.convert] at h
    cases h1 : hashesTraces log [] <;> rw [h1] at h <;> cases h
  | _ => cases h

example : initialContext (F := Nat) id
    [("path", .string "log.xes"), ("hashes", .hashesLog [[5, 18446744073709551615], []]), ("names", .namesLog [["A", "B"], ["A"]]),
     ("n", .uint32 7)] [] =
    .ok [("path", .scalar (.string "log.xes")), ("hashes", .hashesLog [[5, 18446744073709551615], []]),
     ("names", .namesLog [["A", "B"], ["A"]]), ("n", .scalar (.uint32 7))] := by decide +kernel

/-- Floats that are rounded to even numbers: the contexts with 4 and with 7 arrive differently, those with 6 and 7 do not. -/
example : (∀ items', (∀ j ∈ items', ∀ y : Nat, j.2 = .float y → y / 2 = 2 → y = 4) →
      initialContext (· / 2) items' [] = .ok [("x", .scalar (.float 2))] → items' = [("x", .float 4)]) ∧
    initialContext (· / 2) [("x", .float 6)] [] = initialContext (· / 2) [("x", .float 7)] [] := by
  refine ⟨fun items' hf h => ?_, by decide +kernel⟩
  refine C79_context_determined (· / 2) items' [("x", .float 4)] ?_ _ h (by decide +kernel)
  intro i hi j hj x y hx hy he
  obtain rfl := List.mem_singleton.1 hj
  cases hy
  exact hf i hi x hx he

example : initialContext (F := Nat) id [("n", .uint32 7), ("info", .info 3 2 1), ("backend", .foreign)] [] = .error .typeError ∧
    initialContext (F := Nat) id [("h", .hashesLog [[1], [2, -1]]), ("info", .info 3 2 1)] [] = .error .valueError := by
  decide +kernel

example : (Value.info 3 2 1 : Value Nat).convert id = .ok (.info ⟨3, 1, 2⟩) := by decide +kernel

end Ficus
