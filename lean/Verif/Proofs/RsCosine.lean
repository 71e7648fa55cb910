import Verif.Model.RsDistance
import Verif.Spec.RsDistance
import Mathlib.Tactic.Ring
import Mathlib.Tactic.Linarith
import Mathlib.Tactic.FieldSimp
import Mathlib.Tactic.Positivity

/-! Helpers for the distance by angles. -/

namespace Ficus.Rs.Cl

/-- The sum of the products of pairs. -/
noncomputable def pairSum (pairs : List (ℝ × ℝ)) : ℝ := (pairs.map (fun p => p.1 * p.2)).sum

theorem sumOfProducts_eq (pairs : List (ℝ × ℝ)) : sumOfProducts pairs = pairSum pairs := by
  have : ∀ (l : List (ℝ × ℝ)) (c : ℝ), l.foldl (fun sum p => sum + p.1 * p.2) c = c + pairSum l := by
    intro l
    induction l with
    | nil => intro c; simp [pairSum]
    | cons p l ih => intro c; rw [List.foldl_cons, ih]; simp only [pairSum, List.map_cons, List.sum_cons]; ring
  rw [sumOfProducts, this, zero_add]

/-- The sum of the squares of the first and of the second entries. -/
noncomputable def firsts (pairs : List (ℝ × ℝ)) : ℝ := pairSum (pairs.map (fun p => (p.1, p.1)))
/-- See `firsts`. -/
noncomputable def seconds (pairs : List (ℝ × ℝ)) : ℝ := pairSum (pairs.map (fun p => (p.2, p.2)))

theorem combination (q s : ℝ) (l : List (ℝ × ℝ)) :
    (l.map (fun p => (q * p.1 - s * p.2) ^ 2)).sum = q ^ 2 * firsts l - 2 * q * s * pairSum l + s ^ 2 * seconds l := by
  induction l with
  | nil => simp [firsts, seconds, pairSum]
  | cons p l ih =>
    simp only [firsts, seconds, pairSum, List.map_cons, List.sum_cons] at ih ⊢
    rw [ih]
    ring

theorem sum_sq_nonneg {A : Type} (f : A → ℝ) (l : List A) : 0 ≤ (l.map (fun p => f p ^ 2)).sum :=
  List.sum_nonneg (by simp only [List.mem_map]; rintro _ ⟨p, _, rfl⟩; positivity)

theorem sum_sq_zero {A : Type} (f : A → ℝ) : ∀ (l : List A), (l.map (fun p => f p ^ 2)).sum = 0 → ∀ p ∈ l, f p = 0
  | [], _, p, hp => by simp at hp
  | q :: l, h, p, hp => by
    have h1 : 0 ≤ f q ^ 2 := by positivity
    have h2 := sum_sq_nonneg f l
    simp only [List.map_cons, List.sum_cons] at h
    rcases List.mem_cons.1 hp with rfl | hp
    · exact pow_eq_zero_iff (two_ne_zero) |>.1 (by linarith)
    · exact sum_sq_zero f l (by linarith) p hp

theorem firsts_eq (l : List (ℝ × ℝ)) : firsts l = (l.map (fun p => p.1 ^ 2)).sum := by
  simp only [firsts, pairSum, List.map_map]
  congr 1
  exact List.map_congr_left (fun p _ => by simp only [Function.comp_apply]; ring)

theorem seconds_eq (l : List (ℝ × ℝ)) : seconds l = (l.map (fun p => p.2 ^ 2)).sum := by
  simp only [seconds, pairSum, List.map_map]
  congr 1
  exact List.map_congr_left (fun p _ => by simp only [Function.comp_apply]; ring)

theorem firsts_nonneg (l : List (ℝ × ℝ)) : 0 ≤ firsts l := firsts_eq l ▸ sum_sq_nonneg _ l
theorem seconds_nonneg (l : List (ℝ × ℝ)) : 0 ≤ seconds l := seconds_eq l ▸ sum_sq_nonneg _ l

theorem firsts_zero {l : List (ℝ × ℝ)} : firsts l = 0 ↔ ∀ p ∈ l, p.1 = 0 := by
  constructor
  · intro h
    rw [firsts_eq] at h
    exact sum_sq_zero _ l h
  · intro h
    rw [firsts_eq]
    refine List.sum_eq_zero ?_
    simp only [List.mem_map]
    rintro _ ⟨p, hp, rfl⟩
    rw [h p hp]; ring

theorem seconds_zero {l : List (ℝ × ℝ)} : seconds l = 0 ↔ ∀ p ∈ l, p.2 = 0 := by
  constructor
  · intro h
    rw [seconds_eq] at h
    exact sum_sq_zero _ l h
  · intro h
    rw [seconds_eq]
    refine List.sum_eq_zero ?_
    simp only [List.mem_map]
    rintro _ ⟨p, hp, rfl⟩
    rw [h p hp]; ring

theorem cauchy_schwarz (l : List (ℝ × ℝ)) : pairSum l ^ 2 ≤ firsts l * seconds l := by
  rcases (seconds_nonneg l).eq_or_lt with h | h
  · have hz := seconds_zero.1 h.symm
    have : pairSum l = 0 := by
      refine List.sum_eq_zero ?_
      simp only [List.mem_map]
      rintro _ ⟨p, hp, rfl⟩
      rw [hz p hp]; ring
    rw [this, ← h]; simp
  · have := combination (seconds l) (pairSum l) l
    have nn := sum_sq_nonneg (fun p : ℝ × ℝ => seconds l * p.1 - pairSum l * p.2) l
    rw [this] at nn
    have : 0 ≤ seconds l * (firsts l * seconds l - pairSum l ^ 2) := by nlinarith
    have := nonneg_of_mul_nonneg_right this h
    linarith

/-- The distance in terms of the sums. -/
theorem cosineDistance_eq (a b : List ℝ) : cosineDistance a b =
    if firsts (a.zip b) = 0 ∨ seconds (a.zip b) = 0 then none
    else some (1 - pairSum (a.zip b) / √(firsts (a.zip b) * seconds (a.zip b))) := by
  rw [cosineDistance]
  simp only [sumOfProducts_eq]
  change (if √(firsts (a.zip b)) * √(seconds (a.zip b)) = 0 then none
    else some (1 - pairSum (a.zip b) / (√(firsts (a.zip b)) * √(seconds (a.zip b))))) = _
  have e : √(firsts (a.zip b)) * √(seconds (a.zip b)) = 0 ↔ firsts (a.zip b) = 0 ∨ seconds (a.zip b) = 0 := by
    rw [mul_eq_zero, Real.sqrt_eq_zero (firsts_nonneg _), Real.sqrt_eq_zero (seconds_nonneg _)]
  by_cases h : firsts (a.zip b) = 0 ∨ seconds (a.zip b) = 0
  · rw [if_pos (e.2 h), if_pos h]
  · rw [if_neg (fun k => h (e.1 k)), if_neg h, Real.sqrt_mul (firsts_nonneg _)]

theorem mem_zip_first {a b : List ℝ} (h : a.length = b.length) : (∀ p ∈ a.zip b, p.1 = 0) ↔ ∀ x ∈ a, x = 0 := by
  have : a = (a.zip b).map Prod.fst := (List.map_fst_zip (by omega)).symm
  constructor
  · intro k x hx
    rw [this] at hx
    obtain ⟨p, hp, rfl⟩ := List.mem_map.1 hx
    exact k p hp
  · intro k p hp
    exact k _ (List.of_mem_zip hp).1

theorem mem_zip_second {a b : List ℝ} (h : a.length = b.length) : (∀ p ∈ a.zip b, p.2 = 0) ↔ ∀ x ∈ b, x = 0 := by
  have : b = (a.zip b).map Prod.snd := (List.map_snd_zip (by omega)).symm
  constructor
  · intro k x hx
    rw [this] at hx
    obtain ⟨p, hp, rfl⟩ := List.mem_map.1 hx
    exact k p hp
  · intro k p hp
    exact k _ (List.of_mem_zip hp).2

theorem pairSum_swap (a b : List ℝ) : pairSum (b.zip a) = pairSum (a.zip b) ∧ firsts (b.zip a) = seconds (a.zip b) ∧
    seconds (b.zip a) = firsts (a.zip b) := by
  rw [← List.zip_swap a b]
  simp only [firsts, seconds, pairSum, List.map_map]
  refine ⟨?_, rfl, rfl⟩
  congr 1
  exact List.map_congr_left (fun p _ => mul_comm _ _)

theorem cosine_ratio {l : List (ℝ × ℝ)} (h : ¬(firsts l = 0 ∨ seconds l = 0)) :
    0 < √(firsts l * seconds l) ∧ |pairSum l| ≤ √(firsts l * seconds l) := by
  rw [not_or] at h
  have hf := lt_of_le_of_ne (firsts_nonneg l) (Ne.symm h.1)
  have hs := lt_of_le_of_ne (seconds_nonneg l) (Ne.symm h.2)
  exact ⟨Real.sqrt_pos.2 (mul_pos hf hs), Real.abs_le_sqrt (cauchy_schwarz l)⟩

theorem proportional {l : List (ℝ × ℝ)} (h : ¬(firsts l = 0 ∨ seconds l = 0)) (e : pairSum l = √(firsts l * seconds l)) :
    0 < pairSum l / seconds l ∧ ∀ p ∈ l, p.1 = pairSum l / seconds l * p.2 := by
  have hpos := (cosine_ratio h).1
  rw [not_or] at h
  have hs := lt_of_le_of_ne (seconds_nonneg l) (Ne.symm h.2)
  have sq : pairSum l ^ 2 = firsts l * seconds l := by
    rw [e, Real.sq_sqrt (mul_nonneg (firsts_nonneg l) (seconds_nonneg l))]
  have := combination (seconds l) (pairSum l) l
  have hz : (l.map (fun p => (seconds l * p.1 - pairSum l * p.2) ^ 2)).sum = 0 := by
    rw [this]
    have : seconds l ^ 2 * firsts l = seconds l * pairSum l ^ 2 := by rw [sq]; ring
    rw [this]; ring
  refine ⟨div_pos (e ▸ hpos) hs, fun p hp => ?_⟩
  have := sum_sq_zero (fun p : ℝ × ℝ => seconds l * p.1 - pairSum l * p.2) l hz p hp
  field_simp
  linarith

end Ficus.Rs.Cl
