import Verif.Model.Entropy
import Verif.Props.Info
import Mathlib.Tactic.FieldSimp
import Mathlib.Tactic.Linarith
import Mathlib.Tactic.Positivity

/-! Lemmas for the directly-follows entropies. -/

namespace Ficus
open Spec

theorem sum_indicator {K : Type} [DecidableEq K] (L : List K) (y : K) (hL : L.Nodup) :
    (L.map (fun x => if y = x then 1 else 0)).sum = if y ∈ L then 1 else 0 := by
  induction L with
  | nil => rfl
  | cons a L ih =>
    obtain ⟨h1, h2⟩ := List.nodup_cons.1 hL
    rw [List.map_cons, List.sum_cons, ih h2]
    by_cases h : y = a
    · subst h; simp [h1]
    · simp [h]

/-- Summing pair counts over a complete list of partners. -/
theorem sum_count_partners {K : Type} [DecidableEq K] [BEq K] [LawfulBEq K] (P : List K) (f : K → Option String) (mk : String → K)
    (hmk : ∀ p ∈ P, ∀ x, p = mk x ↔ f p = some x) (L : List String) (hL : L.Nodup)
    (h : ∀ p ∈ P, ∀ x, f p = some x → x ∈ L) :
    (L.map (fun x => P.count (mk x))).sum = (P.filter (fun p => (f p).isSome)).length := by
  induction P with
  | nil =>
    simp
  | cons p P ih =>
    have ih' := ih (fun q hq => hmk q (by simp [hq])) (fun q hq => h q (by simp [hq]))
    have e : (L.map (fun x => (p :: P).count (mk x))).sum =
        (L.map (fun x => P.count (mk x))).sum + (L.map (fun x => if p = mk x then 1 else 0)).sum := by
      rw [← List.sum_map_add]
      congr 1
      apply List.map_congr_left
      intro x _
      rw [List.count_cons]
      simp
    rw [e, ih']
    cases hf : f p with
    | none =>
      have : (L.map (fun x => if p = mk x then 1 else 0)) = L.map (fun _ => 0) := by
        apply List.map_congr_left
        intro x _
        rw [if_neg]; intro hp
        rw [(hmk p (by simp) x).1 hp] at hf; cases hf
      rw [this]; simp [hf]
    | some y =>
      have : (L.map (fun x => if p = mk x then 1 else 0)) = L.map (fun x => if y = x then 1 else 0) := by
        apply List.map_congr_left
        intro x _
        have := hmk p (by simp) x
        rw [hf, Option.some.injEq] at this
        simp only [this]
      rw [this, sum_indicator L y hL, if_pos (h p (by simp) y hf)]
      simp [hf]

variable {E : Type} [HasName E]

/-- The recorded pairs of a log. -/
def pairsList (log : Log E) (ignored : Option (List String)) : List (String × String) :=
  log.evs.flatMap (fun t => adjacent (framed fakeStart fakeEnd (kept (ignored.getD []) t)))

/-- The recorded names of a log. -/
def namesList (log : Log E) (ignored : Option (List String)) : List String :=
  (log.evs.map (kept (ignored.getD []))).flatten

theorem info_eq (log : Log E) (ignored : Option (List String)) :
    createLogInformation log ignored =
      { pairs := counter (pairsList log ignored), eventsCount := counter (namesList log ignored) } := by
  rw [createLogInformation_eq]
  simp only [keptNames_eq, List.flatMap_map, recordedPairs_none_true]
  rfl

theorem mem_adjacent_framed {p : String × String} {t : List String}
    (h : p ∈ adjacent (framed fakeStart fakeEnd t)) : (p.1 = fakeStart ∨ p.1 ∈ t) ∧ (p.2 = fakeEnd ∨ p.2 ∈ t) := by
  have h1 : p.1 ∈ (framed fakeStart fakeEnd t).dropLast := by
    rw [← adjacent_map_fst]; exact List.mem_map_of_mem h
  have h2 : p.2 ∈ (framed fakeStart fakeEnd t).tail := by
    rw [← adjacent_map_snd]; exact List.mem_map_of_mem h
  rw [framed_dropLast] at h1
  rw [framed_tail] at h2
  by_cases ht : t = []
  · simp [ht] at h1
  · simp only [ht, if_false, List.mem_cons] at h1
    simp only [ht, if_false, List.mem_append, List.mem_singleton] at h2
    exact ⟨h1, h2.symm⟩

theorem mem_pairsList {p : String × String} {log : Log E} {ignored : Option (List String)}
    (h : p ∈ pairsList log ignored) :
    (p.1 = fakeStart ∨ p.1 ∈ namesList log ignored) ∧ (p.2 = fakeEnd ∨ p.2 ∈ namesList log ignored) := by
  obtain ⟨t, ht, hp⟩ := List.mem_flatMap.1 h
  obtain ⟨h1, h2⟩ := mem_adjacent_framed hp
  have hm : ∀ x, x ∈ kept (ignored.getD []) t → x ∈ namesList log ignored := by
    intro x hx
    exact List.mem_flatten.2 ⟨_, List.mem_map_of_mem ht, hx⟩
  exact ⟨h1.imp_right (hm _), h2.imp_right (hm _)⟩

/-- Outgoing pair counts over the vector of `dfr` sum to the number of occurrences. -/
theorem dfr_sum (log : Log E) (ignored : Option (List String)) (a : String) (ha : a ≠ fakeStart)
    (hend : fakeEnd ∉ namesList log ignored) :
    (((createLogInformation log ignored).eventsCount.keys ++ [fakeEnd]).map
      (fun x => pairCount (createLogInformation log ignored) a x)).sum = (namesList log ignored).count a := by
  have hL : ((createLogInformation log ignored).eventsCount.keys ++ [fakeEnd]).Nodup := by
    rw [info_eq]
    rw [List.nodup_append]
    refine ⟨counter_WF _, by simp, ?_⟩
    intro x hx y hy hxy
    rw [List.mem_singleton] at hy
    subst hxy; subst hy
    exact hend ((mem_counter_keys _ _).1 hx)
  have h1 : ∀ x, pairCount (createLogInformation log ignored) a x = (pairsList log ignored).count (a, x) := by
    intro x; unfold pairCount; rw [info_eq]; exact counter_getD _ _
  simp only [h1]
  have := sum_count_partners (pairsList log ignored) (fun p => if p.1 = a then some p.2 else none) (fun x => (a, x))
    (by
      intro p _ x
      obtain ⟨p1, p2⟩ := p
      by_cases h : p1 = a
      · simp [h]
      · simp [h]) _ hL (by
      intro p hp x hx
      by_cases h : p.1 = a
      · simp only [h, if_true, Option.some.injEq] at hx
        subst hx
        rcases (mem_pairsList hp).2 with h2 | h2
        · simp [h2]
        · rw [info_eq]; simp [(mem_counter_keys (namesList log ignored) p.2).2 h2]
      · simp [h] at hx)
  rw [this]
  have h3 := C10_outgoing_sum log ignored a ha
  rw [sum_out_aux log ignored (fun k => decide (k.1 = a)), info_eq] at h3
  simp only [counter_getD] at h3
  rw [← h3]
  show _ = ((pairsList log ignored).filter _).length
  congr 1
  apply List.filter_congr
  intro p _
  by_cases h : p.1 = a <;> simp [h]

/-- Incoming pair counts over the vector of `dpr` sum to the number of occurrences. -/
theorem dpr_sum (log : Log E) (ignored : Option (List String)) (a : String) (ha : a ≠ fakeEnd)
    (hstart : fakeStart ∉ namesList log ignored) :
    (((createLogInformation log ignored).eventsCount.keys ++ [fakeStart]).map
      (fun x => pairCount (createLogInformation log ignored) x a)).sum = (namesList log ignored).count a := by
  have hL : ((createLogInformation log ignored).eventsCount.keys ++ [fakeStart]).Nodup := by
    rw [info_eq]
    rw [List.nodup_append]
    refine ⟨counter_WF _, by simp, ?_⟩
    intro x hx y hy hxy
    rw [List.mem_singleton] at hy
    subst hxy; subst hy
    exact hstart ((mem_counter_keys _ _).1 hx)
  have h1 : ∀ x, pairCount (createLogInformation log ignored) x a = (pairsList log ignored).count (x, a) := by
    intro x; unfold pairCount; rw [info_eq]; exact counter_getD _ _
  simp only [h1]
  have := sum_count_partners (pairsList log ignored) (fun p => if p.2 = a then some p.1 else none) (fun x => (x, a))
    (by
      intro p _ x
      obtain ⟨p1, p2⟩ := p
      by_cases h : p2 = a
      · simp [h]
      · simp [h]) _ hL (by
      intro p hp x hx
      by_cases h : p.2 = a
      · simp only [h, if_true, Option.some.injEq] at hx
        subst hx
        rcases (mem_pairsList hp).1 with h2 | h2
        · simp [h2]
        · rw [info_eq]; simp [(mem_counter_keys (namesList log ignored) p.1).2 h2]
      · simp [h] at hx)
  rw [this]
  have h3 := C10_incoming_sum log ignored a ha
  rw [sum_out_aux log ignored (fun k => decide (k.2 = a)), info_eq] at h3
  simp only [counter_getD] at h3
  rw [← h3]
  show _ = ((pairsList log ignored).filter _).length
  congr 1
  apply List.filter_congr
  intro p _
  by_cases h : p.2 = a <;> simp [h]

/-! ### Ratios -/

/-- The value of a ratio for a name with a positive count. -/
def ratioValue (laplace : Bool) (classes c pairs : Nat) : ℚ :=
  if laplace then (1 / c + pairs) / (1 / c * (classes + 1) + c) else pairs / c

theorem ratioOf_ok (laplace : Bool) (info : LogInfo) (a : String) (pairs c : Nat) (h : info.eventsCount.get? a = some c)
    (hc : 0 < c) : ratioOf laplace info a pairs = .ok (ratioValue laplace info.eventsCount.length c pairs) := by
  have hg : info.eventsCount.getE a = .ok c := by simp [Dict.getE, h]
  have hq : (c : ℚ) ≠ 0 := by positivity
  cases laplace with
  | false =>
    simp only [ratioOf, Bool.false_eq_true, if_false, plainRatio, hg, bind, Except.bind, pyDiv, hq, ratioValue]
  | true =>
    have hy : (1 / (c : ℚ) * (info.eventsCount.length + 1) + c) ≠ 0 := by positivity
    simp only [ratioOf, if_true, laplaceRatio, hg, bind, Except.bind, pyDiv, hq, if_false, ratioValue]
    rw [if_neg hy]

theorem ratioValue_nonneg (laplace : Bool) (classes c pairs : Nat) : 0 ≤ ratioValue laplace classes c pairs := by
  cases laplace <;> simp only [ratioValue] <;> positivity

theorem mapM_ok_map {A B : Type} (f : A → Except PyErr B) (g : A → B) (l : List A) (h : ∀ a ∈ l, f a = .ok (g a)) :
    l.mapM f = .ok (l.map g) := by
  induction l with
  | nil => rfl
  | cons a l ih =>
    rw [List.mapM_cons, h a (by simp), ih (fun x hx => h x (by simp [hx]))]; rfl

theorem mapM_length {A B : Type} {f : A → Except PyErr B} {l : List A} {r : List B} (h : l.mapM f = .ok r) :
    r.length = l.length := by
  induction l generalizing r with
  | nil => cases h; rfl
  | cons a l ih =>
    rw [List.mapM_cons] at h
    cases hf : f a with
    | error e => rw [hf] at h; cases h
    | ok b =>
      cases hl : l.mapM f with
      | error e => rw [hf, hl] at h; cases h
      | ok bs => rw [hf, hl] at h; cases h; simp [ih hl]

theorem sum_map_div (l : List Nat) (c : ℚ) : (l.map (fun n : Nat => (n : ℚ) / c)).sum = (l.sum : ℚ) / c := by
  induction l with
  | nil => simp
  | cons a l ih => simp only [List.map_cons, List.sum_cons, ih, Nat.cast_add]; ring

theorem sum_ratioValue (laplace : Bool) (classes c : Nat) (hc : 0 < c) (ps : List Nat) (hsum : ps.sum = c)
    (hlen : ps.length = classes + 1) : (ps.map (ratioValue laplace classes c)).sum = 1 := by
  have hq : (c : ℚ) ≠ 0 := by positivity
  cases laplace with
  | false =>
    have : (ps.map (ratioValue false classes c)) = ps.map (fun n : Nat => (n : ℚ) / c) := by
      apply List.map_congr_left; intro n _; simp [ratioValue]
    rw [this, sum_map_div, hsum, div_self hq]
  | true =>
    have hy : (1 / (c : ℚ) * (classes + 1) + c) ≠ 0 := by positivity
    have key : ∀ l : List Nat, (l.map (ratioValue true classes c)).sum =
        (1 / (c : ℚ) * l.length + l.sum) / (1 / (c : ℚ) * (classes + 1) + c) := by
      intro l
      induction l with
      | nil => simp
      | cons a l ih =>
        simp only [List.map_cons, List.sum_cons, ih, List.length_cons, Nat.cast_add, ratioValue, if_true]
        push_cast
        rw [← add_div]
        congr 1
        ring
    rw [key, hlen, hsum]
    push_cast
    exact div_self hy

/-- All entries of a non-negative list are bounded by its sum. -/
theorem le_sum_of_mem {l : List ℚ} (h : ∀ x ∈ l, 0 ≤ x) {x : ℚ} (hx : x ∈ l) : x ≤ l.sum := by
  exact List.single_le_sum h x hx

theorem vectorEntropy_eq (v : List ℚ) :
    vectorEntropy v = (v.map (fun q : ℚ => -((q : ℝ) * Real.logb 2 (q : ℝ)))).sum := by
  unfold vectorEntropy
  have : ∀ (e : ℝ), v.foldl (fun e (item : ℚ) => if item ≠ 0 then e - (item : ℝ) * Real.logb 2 (item : ℝ) else e) e =
      e + (v.map (fun q : ℚ => -((q : ℝ) * Real.logb 2 (q : ℝ)))).sum := by
    induction v with
    | nil => intro e; simp
    | cons q v ih =>
      intro e
      rw [List.foldl_cons, ih, List.map_cons, List.sum_cons]
      by_cases h : q = 0
      · simp [h]
      · rw [if_pos h]; ring
  rw [this]; simp

theorem vectorEntropy_nonneg (v : List ℚ) (h : ∀ q ∈ v, 0 ≤ q ∧ q ≤ 1) : 0 ≤ vectorEntropy v := by
  rw [vectorEntropy_eq]
  apply List.sum_nonneg
  intro x hx
  obtain ⟨q, hq, rfl⟩ := List.mem_map.1 hx
  obtain ⟨h0, h1⟩ := h q hq
  have h0' : (0 : ℝ) ≤ q := by exact_mod_cast h0
  have h1' : (q : ℝ) ≤ 1 := by exact_mod_cast h1
  have := Real.logb_nonpos (b := 2) (by norm_num) h0' h1'
  have := mul_nonpos_of_nonneg_of_nonpos h0' this
  linarith

end Ficus
