import Verif.Proofs.RsDistance
import Verif.Proofs.RsCosine

/-! Properties C148 and C149: the distances of rows. -/

namespace Ficus.Rs

open Cl

/-! ### C148: the distance by edits -/

/-- C148: for rows of the same length, as those of a data set, the distance is a number: the least number of edits that make the second
row of the first one, where the first entry of the first row can be deleted for free. -/
theorem C148_distance_partial {A : Type} [DecidableEq A] {a b : List A} (h : a.length = b.length) :
    ∃ n, editDistance a b = some n ∧ IsLeast {m | Edits m a b ∨ Edits m a.tail b} n :=
  editDistance_least h

example : editDistance [1, 2, 3, 0] [2, 3, 3, 0] = some 1 := by decide

/-- C148: the distance is zero for equal rows only. -/
theorem C148_zero {A : Type} [DecidableEq A] {a b : List A} (h : a.length = b.length) :
    editDistance a b = some 0 ↔ a = b := by
  obtain ⟨n, e, l⟩ := editDistance_least h
  rw [e]
  constructor
  · rintro ⟨⟩
    rcases l.1 with k | k
    · exact k.zero
    · have := k.zero
      cases a with
      | nil => exact k.zero
      | cons x a =>
        rw [List.tail_cons] at this
        rw [this] at h
        simp at h
  · rintro rfl
    have := l.2 (.inl (Edits.refl a) : (0 : Nat) ∈ {m | Edits m a a ∨ Edits m a.tail a})
    rw [Nat.le_zero.1 this]

example : editDistance [1, 2, 0] [1, 2, 0] = some 0 ∧ editDistance [1, 2, 0] [2, 1, 0] ≠ some 0 := by decide

/-- C148: the distance is the edit distance or less by one. -/
theorem C148_bounds {A : Type} [DecidableEq A] {a b : List A} (h : a.length = b.length) {d : Nat} (hd : IsEditDistance d a b) :
    ∃ n, editDistance a b = some n ∧ n ≤ d ∧ d ≤ n + 1 := by
  obtain ⟨n, e, l⟩ := editDistance_least h
  refine ⟨n, e, l.2 (.inl hd.1), ?_⟩
  rcases l.1 with k | k
  · exact (hd.2 k).trans (by omega)
  · cases a with
    | nil => exact (hd.2 k).trans (by omega)
    | cons x a => exact hd.2 (.delete x k)

example : IsEditDistance 2 [1, 2, 0] [2, 0, 0] := by
  refine ⟨.delete 1 (.keep 2 (.keep 0 (.insert 0 .done))), fun m hm => ?_⟩
  by_contra hlt
  have h : m = 0 ∨ m = 1 := by omega
  rcases h with rfl | rfl
  · exact absurd (Edits.zero hm) (by decide)
  · cases hm with
    | replace _ _ k => exact absurd k.zero (by decide)
    | delete _ k => exact absurd k.zero (by decide)
    | insert _ k => exact absurd k.zero (by decide)

/-- C148: not in general the edit distance: two rows with the edit distance two have the distance one. -/
theorem C148_too_small : ∃ a b : List Nat, a.length = b.length ∧ editDistance a b = some 1 ∧ ¬Edits 1 a b := by
  refine ⟨[1, 2, 0], [2, 0, 0], rfl, by decide, fun hm => ?_⟩
  cases hm with
  | replace _ _ k => exact absurd k.zero (by decide)
  | delete _ k => exact absurd k.zero (by decide)
  | insert _ k => exact absurd k.zero (by decide)

/-- C148: and it depends on the order of the two rows. -/
theorem C148_not_symmetric : ∃ a b : List Nat, editDistance a b = some 1 ∧ editDistance b a = some 2 :=
  ⟨[1, 2, 0], [2, 0, 0], by decide⟩

/-! ### C149: the distance by angles -/

/-- C149: the distance is not a number exactly if one of the two rows, which have the same length, consists of zeros. -/
theorem C149_defined {a b : List ℝ} (h : a.length = b.length) :
    cosineDistance a b = none ↔ (∀ x ∈ a, x = 0) ∨ ∀ x ∈ b, x = 0 := by
  rw [cosineDistance_eq, ← mem_zip_first h, ← mem_zip_second h, ← firsts_zero, ← seconds_zero]
  split
  · rename_i k; simp [k]
  · rename_i k; simp [k]

example : cosineDistance [0, 0] [1, 2] = none := (C149_defined (by rfl)).2 (.inl (by simp))

/-- C149: the distance does not depend on the order of the rows. -/
theorem C149_symmetric (a b : List ℝ) : cosineDistance a b = cosineDistance b a := by
  rw [cosineDistance_eq, cosineDistance_eq, (pairSum_swap a b).1, (pairSum_swap a b).2.1, (pairSum_swap a b).2.2, mul_comm]
  by_cases h : firsts (a.zip b) = 0 ∨ seconds (a.zip b) = 0
  · rw [if_pos h, if_pos h.symm]
  · rw [if_neg h, if_neg (fun k => h k.symm)]

/-- C149: it is between zero and two, and at most one if no entry is negative, as in the data sets. -/
theorem C149_range {a b : List ℝ} {d : ℝ} (h : cosineDistance a b = some d) :
    0 ≤ d ∧ d ≤ 2 ∧ ((∀ x ∈ a, 0 ≤ x) → (∀ x ∈ b, 0 ≤ x) → d ≤ 1) := by
  rw [cosineDistance_eq] at h
  split at h
  · cases h
  · rename_i k
    cases h
    obtain ⟨hpos, hle⟩ := cosine_ratio k
    rw [abs_le] at hle
    have h1 : pairSum (a.zip b) / √(firsts (a.zip b) * seconds (a.zip b)) ≤ 1 := (div_le_one hpos).2 hle.2
    have h2 : -1 ≤ pairSum (a.zip b) / √(firsts (a.zip b) * seconds (a.zip b)) := by
      rw [le_div_iff₀ hpos]; linarith [hle.1]
    refine ⟨by linarith, by linarith, fun ha hb => ?_⟩
    have : 0 ≤ pairSum (a.zip b) := by
      refine List.sum_nonneg ?_
      simp only [List.mem_map]
      rintro _ ⟨p, hp, rfl⟩
      exact mul_nonneg (ha _ (List.of_mem_zip hp).1) (hb _ (List.of_mem_zip hp).2)
    have : 0 ≤ pairSum (a.zip b) / √(firsts (a.zip b) * seconds (a.zip b)) := div_nonneg this hpos.le
    linarith

example : ∃ d, cosineDistance [1, 2] [2, 1] = some d := by
  rcases h : cosineDistance [1, 2] [2, 1] with _ | d
  · rcases (C149_defined (by rfl)).1 h with k | k
    · exact absurd (k 1 (by simp)) (by norm_num)
    · exact absurd (k 1 (by simp)) (by norm_num)
  · exact ⟨d, rfl⟩

/-- C149: it is zero exactly if the rows are not zero and one of them is a positive multiple of the other. -/
theorem C149_zero {a b : List ℝ} (h : a.length = b.length) :
    cosineDistance a b = some 0 ↔ (∃ x ∈ b, x ≠ 0) ∧ ∃ c > 0, a = b.map (fun x => c * x) := by
  rw [cosineDistance_eq]
  constructor
  · intro k
    split at k
    · cases k
    · rename_i nz
      have e : pairSum (a.zip b) = √(firsts (a.zip b) * seconds (a.zip b)) := by
        have : 1 - pairSum (a.zip b) / √(firsts (a.zip b) * seconds (a.zip b)) = 0 := by simpa using k
        have pos := (cosine_ratio nz).1
        have : pairSum (a.zip b) / √(firsts (a.zip b) * seconds (a.zip b)) = 1 := by linarith
        rwa [div_eq_one_iff_eq pos.ne'] at this
      obtain ⟨hc, hp⟩ := proportional nz e
      refine ⟨?_, _, hc, ?_⟩
      · by_contra no
        push Not at no
        exact nz (.inr (seconds_zero.2 ((mem_zip_second h).2 no)))
      · have ea : a = (a.zip b).map Prod.fst := (List.map_fst_zip (by omega)).symm
        have eb : b = (a.zip b).map Prod.snd := (List.map_snd_zip (by omega)).symm
        conv_lhs => rw [ea]
        conv_rhs => rw [eb]
        rw [List.map_map]
        refine List.map_congr_left (fun p hp' => ?_)
        have := hp p hp'
        rw [Function.comp_apply, this, ← eb]
  · rintro ⟨⟨x, hx, nx⟩, c, hc, rfl⟩
    have ez : (b.map (fun x => c * x)).zip b = b.map (fun x => (c * x, x)) := by
      have : ∀ l : List ℝ, (l.map (fun x => c * x)).zip l = l.map (fun x => (c * x, x)) := by
        intro l
        induction l with
        | nil => rfl
        | cons y l ih => simp [ih]
      exact this b
    have nn := seconds_nonneg ((b.map (fun x => c * x)).zip b)
    have es : seconds ((b.map (fun x => c * x)).zip b) ≠ 0 := by
      rw [Ne, seconds_zero, ez]
      intro k
      exact nx (k (c * x, x) (List.mem_map.2 ⟨x, hx, rfl⟩))
    have ef : firsts ((b.map (fun x => c * x)).zip b) = c ^ 2 * seconds ((b.map (fun x => c * x)).zip b) := by
      rw [firsts_eq, seconds_eq, ez, List.map_map, List.map_map, ← List.sum_map_mul_left]
      congr 1
      exact List.map_congr_left (fun p _ => by simp only [Function.comp_apply]; ring)
    have ep : pairSum ((b.map (fun x => c * x)).zip b) = c * seconds ((b.map (fun x => c * x)).zip b) := by
      rw [pairSum, seconds_eq, ez, List.map_map, List.map_map, ← List.sum_map_mul_left]
      congr 1
      exact List.map_congr_left (fun p _ => by simp only [Function.comp_apply]; ring)
    generalize seconds ((b.map (fun x => c * x)).zip b) = s at es ef ep nn
    generalize pairSum ((b.map (fun x => c * x)).zip b) = q at ep
    generalize firsts ((b.map (fun x => c * x)).zip b) = f at ef
    subst ef ep
    have root : √(c ^ 2 * s * s) = c * s := by
      rw [show c ^ 2 * s * s = (c * s) ^ 2 by ring, Real.sqrt_sq (mul_nonneg hc.le nn)]
    have hcs : c * s ≠ 0 := mul_ne_zero hc.ne' es
    rw [if_neg, root, div_self hcs, sub_self]
    rintro (k | k)
    · exact mul_ne_zero (pow_ne_zero 2 hc.ne') es k
    · exact es k

example : cosineDistance [2, 4] [1, 2] = some 0 :=
  (C149_zero (by rfl)).2 ⟨⟨1, by simp, by norm_num⟩, 2, by norm_num, by norm_num⟩
example : cosineDistance [2, 4] [1, 3] ≠ some 0 := by
  rw [Ne, C149_zero (by rfl)]
  rintro ⟨-, c, -, h⟩
  simp only [List.map_cons, List.map_nil, List.cons.injEq, and_true] at h
  linarith [h.1, h.2]

end Ficus.Rs
