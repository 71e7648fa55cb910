import Verif.Spec.Values

namespace Ficus.Values
open Spec
variable {F : Type}

theorem unsigned_ok {b : Nat} {n : Int} {m : Nat} : unsigned b n = .ok m ↔ Fits b n m := by
  unfold unsigned Fits
  split
  · rename_i h
    simp only [Except.ok.injEq]
    omega
  · rename_i h
    simp only [reduceCtorEq, false_iff]
    omega

theorem unsigned_cases (b : Nat) (n : Int) :
    (∃ m, unsigned b n = .ok m ∧ Fits b n m) ∨ (unsigned b n = .error .valueError ∧ ∀ m, ¬ Fits b n m) := by
  cases h : unsigned b n with
  | ok m => exact Or.inl ⟨m, rfl, unsigned_ok.1 h⟩
  | error e =>
    refine Or.inr ⟨?_, fun m hm => ?_⟩
    · unfold unsigned at h
      split at h <;> simp_all
    · rw [unsigned_ok.2 hm] at h; cases h

theorem fits_unique {b : Nat} {n : Int} {m k : Nat} (h : Fits b n m) (h' : Fits b n k) : m = k := by
  have := h.1; have := h'.1; omega

theorem bound64 : (18446744073709551616 : Nat) = 2 ^ 64 := by norm_num
theorem bound32 : (4294967296 : Nat) = 2 ^ 32 := by norm_num

theorem hashesTrace_cases (t : List Int) : ∀ acc,
    (∃ g, hashesTrace t acc = .ok (acc ++ g) ∧ List.Forall₂ (Fits (2 ^ 64)) t g) ∨
    (hashesTrace t acc = .error .valueError ∧ ∃ n ∈ t, ∀ m, ¬ Fits (2 ^ 64) n m) := by
  induction t with
  | nil => intro acc; exact Or.inl ⟨[], by simp [hashesTrace], .nil⟩
  | cons e es ih =>
    intro acc
    unfold hashesTrace
    rw [bound64]
    rcases unsigned_cases (2 ^ 64) e with ⟨m, h, hf⟩ | ⟨h, hf⟩
    · rw [h]
      rcases ih (acc ++ [m]) with ⟨g, hg, h2⟩ | ⟨hg, n, hn, h2⟩
      · exact Or.inl ⟨m :: g, by simpa [bind, Except.bind] using hg, .cons hf h2⟩
      · exact Or.inr ⟨by simpa [bind, Except.bind] using hg, n, by simp [hn], h2⟩
    · rw [h]
      exact Or.inr ⟨rfl, e, by simp, hf⟩

theorem hashesTraces_cases (log : List (List Int)) : ∀ acc,
    (∃ g, hashesTraces log acc = .ok (acc ++ g) ∧ List.Forall₂ (List.Forall₂ (Fits (2 ^ 64))) log g) ∨
    (hashesTraces log acc = .error .valueError ∧ ∃ t ∈ log, ∃ n ∈ t, ∀ m, ¬ Fits (2 ^ 64) n m) := by
  induction log with
  | nil => intro acc; exact Or.inl ⟨[], by simp [hashesTraces], .nil⟩
  | cons t ts ih =>
    intro acc
    unfold hashesTraces
    rcases hashesTrace_cases t [] with ⟨m, h, hf⟩ | ⟨h, hf⟩
    · rw [h]
      rcases ih (acc ++ [m]) with ⟨g, hg, h2⟩ | ⟨hg, n, hn, h2⟩
      · exact Or.inl ⟨m :: g, by simpa [bind, Except.bind] using hg, .cons hf h2⟩
      · exact Or.inr ⟨by simpa [bind, Except.bind] using hg, n, by simp [hn], h2⟩
    · rw [h]
      exact Or.inr ⟨rfl, t, by simp, hf⟩

theorem append_loop {A : Type} (l acc : List A) : l.foldl (fun g e => g ++ [e]) acc = acc ++ l := by
  induction l generalizing acc with
  | nil => simp
  | cons a l ih => simp [ih]

theorem copy_loop {A : Type} (l acc : List (List A)) :
    l.foldl (fun acc t => acc ++ [t.foldl (fun g e => g ++ [e]) []]) acc = acc ++ l := by
  induction l generalizing acc with
  | nil => simp
  | cons a l ih => rw [List.foldl_cons, ih, append_loop]; simp

theorem namesTraces_eq (log : List (List String)) : namesTraces log = log := by
  unfold namesTraces; rw [copy_loop]; rfl

theorem fromGrpcNamesLog_eq (log : List (List String)) : fromGrpcNamesLog log = log := by
  unfold fromGrpcNamesLog; rw [copy_loop]; rfl

/-- The conversion of a value with the assignment to the field. -/
theorem value_cases (f32 : F → Nat) (v : Value F) :
    (∃ g, v.convert f32 >>= asField = .ok g ∧ Arrives f32 v g) ∨
    (∃ e, v.convert f32 >>= asField = .error e ∧ Rejected v e) := by
  cases v with
  | string s => exact Or.inl ⟨_, rfl, .string⟩
  | float s => exact Or.inl ⟨_, rfl, .float⟩
  | bool s => exact Or.inl ⟨_, rfl, .bool⟩
  | enum s t => exact Or.inl ⟨_, rfl, .enum⟩
  | strings s => exact Or.inl ⟨_, rfl, .strings⟩
  | base => exact Or.inl ⟨_, rfl, .base⟩
  | foreign => exact Or.inr ⟨_, rfl, .foreign⟩
  | namesLog log =>
    refine Or.inl ⟨.namesLog log, ?_, .namesLog⟩
    simp only [Value.convert]
    rw [namesTraces_eq]
    rfl
  | uint32 n =>
    simp only [Value.convert]
    rw [bound32]
    rcases unsigned_cases (2 ^ 32) n with ⟨m, h, hf⟩ | ⟨h, hf⟩
    · rw [h]; exact Or.inl ⟨_, rfl, .uint32 hf⟩
    · rw [h]; exact Or.inr ⟨_, rfl, .uint32 hf⟩
  | hashesLog log =>
    simp only [Value.convert]
    rcases hashesTraces_cases log [] with ⟨m, h, hf⟩ | ⟨h, t, ht, n, hn, hf⟩
    · rw [h]; exact Or.inl ⟨_, rfl, .hashesLog (by simpa using hf)⟩
    · rw [h]; exact Or.inr ⟨_, rfl, .hash ht hn hf⟩
  | info e c t =>
    refine Or.inr ?_
    simp only [Value.convert]
    rw [bound32]
    rcases unsigned_cases (2 ^ 32) e with ⟨m, h, hf⟩ | ⟨h, hf⟩
    · rcases unsigned_cases (2 ^ 32) t with ⟨m2, h2, hf2⟩ | ⟨h2, hf2⟩
      · rcases unsigned_cases (2 ^ 32) c with ⟨m3, h3, hf3⟩ | ⟨h3, hf3⟩
        · rw [h, h2, h3]
          refine ⟨_, rfl, .info ?_⟩
          intro n hn
          simp only [List.mem_cons, List.not_mem_nil, or_false] at hn
          rcases hn with rfl | rfl | rfl
          exacts [⟨_, hf⟩, ⟨_, hf3⟩, ⟨_, hf2⟩]
        · rw [h, h2, h3]
          exact ⟨_, rfl, .count (n := c) (by simp) hf3⟩
      · rw [h, h2]
        exact ⟨_, rfl, .count (n := t) (by simp) hf2⟩
    · rw [h]
      exact ⟨_, rfl, .count (n := e) (by simp) hf⟩

theorem fits_pair {a b : Nat} : ∀ {l : List Int} {g g' : List Nat}, List.Forall₂ (Fits a) l g → List.Forall₂ (Fits b) l g' → g = g'
  | _, _, _, .nil, .nil => rfl
  | _, _, _, .cons h hs, .cons h' hs' => by
    have h1 := h.1; have h2 := h'.1
    rw [fits_pair hs hs']
    congr 1
    omega

theorem fits_log {a b : Nat} : ∀ {l : List (List Int)} {g g' : List (List Nat)},
    List.Forall₂ (List.Forall₂ (Fits a)) l g → List.Forall₂ (List.Forall₂ (Fits b)) l g' → g = g'
  | _, _, _, .nil, .nil => rfl
  | _, _, _, .cons h hs, .cons h' hs' => by rw [fits_log hs hs', fits_pair h h']

theorem fits_back {a b : Nat} : ∀ {l l' : List Int} {g : List Nat}, List.Forall₂ (Fits a) l g → List.Forall₂ (Fits b) l' g → l = l'
  | _, _, _, .nil, .nil => rfl
  | _, _, _, .cons h hs, .cons h' hs' => by rw [fits_back hs hs', h.1, h'.1]

theorem fits_log_back {a b : Nat} : ∀ {l l' : List (List Int)} {g : List (List Nat)},
    List.Forall₂ (List.Forall₂ (Fits a)) l g → List.Forall₂ (List.Forall₂ (Fits b)) l' g → l = l'
  | _, _, _, .nil, .nil => rfl
  | _, _, _, .cons h hs, .cons h' hs' => by rw [fits_log_back hs hs', fits_back h h']

theorem arrives_unique {f32 : F → Nat} {v : Value F} {g g' : GValue} (h : Arrives f32 v g) (h' : Arrives f32 v g') : g = g' := by
  cases h <;> cases h'
  case uint32.uint32 h _ h' => rw [fits_unique h h']
  case hashesLog.hashesLog h _ h' => rw [fits_log h h']
  all_goals rfl

theorem arrives_back {f32 : F → Nat} {v w : Value F} {g : GValue}
    (hf : ∀ x y, v = .float x → w = .float y → f32 x = f32 y → x = y)
    (h : Arrives f32 v g) (h' : Arrives f32 w g) : v = w := by
  generalize hg : g = k at h'
  cases h <;> cases h' <;> simp only [GValue.scalar.injEq, Scalar.string.injEq, Scalar.float.injEq, Scalar.uint32.injEq,
    Scalar.bool.injEq, Scalar.enum.injEq, Scalar.strings.injEq, GValue.hashesLog.injEq, GValue.namesLog.injEq, reduceCtorEq] at hg
  case string.string => rw [hg]
  case float.float => rw [hf _ _ rfl rfl hg]
  case uint32.uint32 h _ _ h' => subst hg; rw [h.1, h'.1]
  case bool.bool => rw [hg]
  case hashesLog.hashesLog h _ _ h' => subst hg; rw [fits_log_back h h']
  case namesLog.namesLog => rw [hg]
  case enum.enum => rw [hg.1, hg.2]
  case strings.strings => rw [hg]
  case base.base => rfl

theorem fits_no_misfit {a : Nat} : ∀ {l : List Int} {g : List Nat}, List.Forall₂ (Fits a) l g → ∀ n ∈ l, ∃ m, Fits a n m
  | _, _, .nil => by simp
  | _, _, .cons h hs => by
    intro n hn
    rcases List.mem_cons.1 hn with rfl | hn
    · exact ⟨_, h⟩
    · exact fits_no_misfit hs n hn

theorem fits_log_no_misfit {a : Nat} : ∀ {l : List (List Int)} {g : List (List Nat)}, List.Forall₂ (List.Forall₂ (Fits a)) l g →
    ∀ t ∈ l, ∀ n ∈ t, ∃ m, Fits a n m
  | _, _, .nil => by simp
  | _, _, .cons h hs => by
    intro t ht
    rcases List.mem_cons.1 ht with rfl | ht
    · exact fits_no_misfit h
    · exact fits_log_no_misfit hs t ht

theorem arrives_not_rejected {f32 : F → Nat} {v : Value F} {g : GValue} {e : PyErr} (h : Arrives f32 v g) : ¬ Rejected v e := by
  intro hr
  cases h <;> cases hr
  case uint32.uint32 h h' => exact h' _ h
  case hashesLog.hash =>
    rename_i h _ _ hn h' ht
    obtain ⟨m, hm⟩ := fits_log_no_misfit h _ ht _ hn
    exact h' m hm

theorem rejected_unique {v : Value F} {e e' : PyErr} (h : Rejected v e) (h' : Rejected v e') : e = e' := by
  cases h <;> cases h' <;> try rfl
  case count.info hn hf h =>
    obtain ⟨m, hm⟩ := h _ hn
    exact absurd hm (hf m)
  case info.count =>
    rename_i h n hf hn
    obtain ⟨m, hm⟩ := h _ hn
    exact absurd hm (hf m)

theorem initialContext_cases (f32 : F → Nat) (items : List (String × Value F)) : ∀ acc,
    (∃ ctx, initialContext f32 items acc = .ok (acc ++ ctx) ∧
      List.Forall₂ (fun kv kg => kg.1 = kv.1 ∧ Arrives f32 kv.2 kg.2) items ctx) ∨
    (∃ e pre kv post, initialContext f32 items acc = .error e ∧ items = pre ++ kv :: post ∧
      (∀ x ∈ pre, ∃ g, Arrives f32 x.2 g) ∧ Rejected kv.2 e) := by
  induction items with
  | nil => intro acc; exact Or.inl ⟨[], by simp [initialContext], .nil⟩
  | cons kv rest ih =>
    intro acc
    obtain ⟨key, v⟩ := kv
    have hstep : initialContext f32 ((key, v) :: rest) acc =
        (v.convert f32 >>= asField) >>= fun g => initialContext f32 rest (acc ++ [(key, g)]) := by
      show (v.convert f32 >>= fun c => asField c >>= fun g => initialContext f32 rest (acc ++ [(key, g)])) = _
      rw [bind_assoc]
    rw [hstep]
    rcases value_cases f32 v with ⟨g, hg, ha⟩ | ⟨e, he, hr⟩
    · rw [hg]
      show _ ∨ _
      have hb : ((Except.ok g : Except PyErr GValue) >>= fun g => initialContext f32 rest (acc ++ [(key, g)])) =
          initialContext f32 rest (acc ++ [(key, g)]) := rfl
      rw [hb]
      rcases ih (acc ++ [(key, g)]) with ⟨ctx, h1, h2⟩ | ⟨e, pre, kv, post, h1, h2, h3, h4⟩
      · exact Or.inl ⟨(key, g) :: ctx, by simpa using h1, .cons ⟨rfl, ha⟩ h2⟩
      · refine Or.inr ⟨e, (key, v) :: pre, kv, post, h1, by simp [h2], ?_, h4⟩
        intro x hx
        rcases List.mem_cons.1 hx with rfl | hx
        · exact ⟨g, ha⟩
        · exact h3 x hx
    · rw [he]
      exact Or.inr ⟨e, [], (key, v), rest, rfl, rfl, by simp, hr⟩

end Ficus.Values
