import Verif.Model.Summaries
import Verif.Props.TillEnd

/-! Property C104: summaries of entropies. -/

namespace Ficus
open Spec
variable {E : Type} [HasName E]

theorem sum_le_of_le (l : List ℝ) (b : ℝ) (h : ∀ x ∈ l, x ≤ b) : l.sum ≤ l.length * b := by
  induction l with
  | nil => simp
  | cons x l ih =>
    rw [List.sum_cons, List.length_cons]
    have h1 := h x (by simp)
    have h2 := ih (fun y hy => h y (by simp [hy]))
    push_cast
    linarith

theorem sum_nonneg_of (l : List ℝ) (h : ∀ x ∈ l, 0 ≤ x) : 0 ≤ l.sum := by
  induction l with
  | nil => simp
  | cons x l ih =>
    rw [List.sum_cons]
    have h1 := h x (by simp)
    have h2 := ih (fun y hy => h y (by simp [hy]))
    linarith

/-- C104a: for a log without the artificial names, with `n` counted names, the sum of the entropies exists and is between 0 and
`2 n log2 (n + 1)`, and it is `n` times the average. -/
theorem C104_default_sum (laplace : Bool) (log : Log E) (ignored : Option (List String)) (hf : NoFakeNames log) :
    ∃ s avg, defaultEntropySum laplace log ignored = .ok s ∧ defaultEntropyAverage laplace log ignored = .ok avg ∧
      let n : ℝ := ((createLogInformation log ignored).eventsCount.length : ℝ)
      0 ≤ s ∧ s ≤ n * (2 * Real.logb 2 (n + 1)) ∧ s = n * avg := by
  obtain ⟨d, hd, hk, _, hb⟩ := C16_entropies laplace log ignored hf
  have hlen : (createLogInformation log ignored).eventsCount.length = d.length := by
    have := congrArg List.length hk
    simpa [Dict.keys] using this.symm
  refine ⟨entropySum d, entropyAvg d, by rw [defaultEntropySum, hd]; rfl, by rw [defaultEntropyAverage, hd]; rfl, ?_⟩
  intro n
  have hn : n = (d.length : ℝ) := by simp only [n, hlen]
  have hall : ∀ x ∈ d.map Prod.snd, 0 ≤ x ∧ x ≤ 2 * Real.logb 2 (d.length + 1) := by
    intro x hx
    obtain ⟨p, hp, rfl⟩ := List.mem_map.1 hx
    exact hb p.1 p.2 hp
  refine ⟨sum_nonneg_of _ (fun x hx => (hall x hx).1), ?_, ?_⟩
  · have := sum_le_of_le (d.map Prod.snd) _ (fun x hx => (hall x hx).2)
    rw [List.length_map] at this
    rw [hn]
    exact this
  · rw [hn, entropyAvg]
    split
    · rename_i h0
      have : d = [] := List.length_eq_zero_iff.1 h0
      subst this
      simp [entropySum]
    · rename_i h0
      have : (d.length : ℝ) ≠ 0 := by exact_mod_cast h0
      field_simp

/-- C104b: the table of entropies has one row for each name of the log, with its entropy, in descending order, if the sorting
function is one. -/
theorem C104_table (sort : List (String × ℝ) → List (String × ℝ)) (hs : ∀ l, (sort l).Perm l)
    (ho : ∀ l, (sort l).Pairwise (fun a b => b.2 ≤ a.2)) (log : Log E) (hf : NoFakeNames log) :
    ∃ d rows, calculateEntropies false log = .ok d ∧ entropiesTable sort log = .ok rows ∧
      (rows.map Prod.fst).Nodup ∧ (∀ n, n ∈ rows.map Prod.fst ↔ occurrences log n ≠ 0) ∧
      (∀ n e, (n, e) ∈ rows ↔ Dict.get? d n = some e) ∧
      (∀ first rest, rows = first :: rest → ∀ n e, Dict.get? d n = some e → e ≤ first.2) := by
  obtain ⟨d, hd, hk, _, _⟩ := C16_entropies false log none hf
  have hwf : d.keys.Nodup := by rw [hk]; exact (C09_wellformed log none true).2
  have hmem : ∀ n e, (n, e) ∈ d ↔ Dict.get? d n = some e := fun n e => (Dict.get?_eq_some_iff hwf).symm
  refine ⟨d, sort d, hd, by rw [entropiesTable, hd]; rfl, ?_, ?_, ?_, ?_⟩
  · exact ((hs d).map Prod.fst).nodup_iff.2 hwf
  · intro n
    rw [((hs d).map Prod.fst).mem_iff]
    have h1 := mem_keys_iff log none n
    rw [← hk] at h1
    rw [show d.map Prod.fst = d.keys from rfl, h1]
    simp
  · intro n e
    rw [(hs d).mem_iff, hmem]
  · intro first rest h n e he
    have h1 : (n, e) ∈ sort d := (hs d).mem_iff.2 ((hmem n e).2 he)
    have h2 := ho d
    rw [h] at h1 h2
    rcases List.mem_cons.1 h1 with h1 | h1
    · rw [← h1]
    · exact (List.pairwise_cons.1 h2).1 _ h1

open Classical in
example : ∃ sort : List (String × ℝ) → List (String × ℝ), (∀ l, (sort l).Perm l) ∧
    (∀ l, (sort l).Pairwise (fun a b => b.2 ≤ a.2)) := by
  refine ⟨fun l => l.mergeSort (fun a b => decide (b.2 ≤ a.2)), fun l => List.mergeSort_perm _ _, fun l => ?_⟩
  have h := List.pairwise_mergeSort (le := fun a b : String × ℝ => decide (b.2 ≤ a.2))
    (by intro a b c h1 h2; simp only [decide_eq_true_eq] at *; exact le_trans h2 h1)
    (by intro a b; simp only [Bool.or_eq_true, decide_eq_true_eq]; exact le_total _ _) l
  exact h.imp (fun hab => by simpa using hab)

/-- C104c: the sum of the position entropies does not depend on the implementation or on precomputed positions. -/
theorem C104_sums_agree (log : Log E) (ign : Option IgnoredEvents) (hp : IgnoreArg log ign)
    (cached : Option (List TracePositions)) (hc : cached = none ∨ cached = some (createEventsPositions log)) :
    positionFastSum log ign cached = positionSum log ign := by
  rw [positionFastSum, positionSum, C17_entropies_equal log ign hp cached hc]

theorem values_of_range (d : Dict String (Option ℝ)) (h : ∀ n v, (n, v) ∈ d → ∃ e, v = some e ∧ 0 ≤ e ∧ e ≤ 1) :
    ∃ xs : List ℝ, d.map Prod.snd = xs.map some ∧ ∀ x ∈ xs, 0 ≤ x ∧ x ≤ 1 := by
  induction d with
  | nil => exact ⟨[], rfl, by simp⟩
  | cons p d ih =>
    obtain ⟨xs, h1, h2⟩ := ih (fun n v hv => h n v (by simp [hv]))
    obtain ⟨e, he, h0⟩ := h p.1 p.2 (by simp)
    refine ⟨e :: xs, by rw [List.map_cons, he, h1, List.map_cons], ?_⟩
    intro x hx
    rcases List.mem_cons.1 hx with rfl | hx
    · exact h0
    · exact h2 x hx

theorem meanNan_some (xs : List ℝ) (h : xs ≠ []) : meanNan (xs.map some) = some (xs.sum / xs.length) := by
  have : xs.length ≠ 0 := by simpa using h
  simp only [meanNan, sumNan_some, List.length_map]
  rw [if_neg this]

theorem varNan_some (xs : List ℝ) (h : xs ≠ []) :
    varNan (xs.map some) =
      some ((xs.map (fun x => (x - xs.sum / (xs.length : ℝ)) ^ 2)).sum / (xs.length : ℝ)) := by
  rw [varNan, meanNan_some xs h]
  have e : (xs.map some).map (fun x : Option ℝ => x.map (fun r => (r - xs.sum / (xs.length : ℝ)) ^ 2)) =
      (xs.map (fun x => (x - xs.sum / (xs.length : ℝ)) ^ 2)).map some := by simp [List.map_map, Function.comp_def]
  simp only [e]
  rw [meanNan_some _ (by simpa using h), List.length_map]

theorem sum_sq_le (xs : List ℝ) (m : ℝ) (h : ∀ x ∈ xs, 0 ≤ x ∧ x ≤ 1) :
    (xs.map (fun x => (x - m) ^ 2)).sum ≤ xs.sum - 2 * m * xs.sum + xs.length * m ^ 2 := by
  induction xs with
  | nil => simp
  | cons x xs ih =>
    have h1 := ih (fun y hy => h y (by simp [hy]))
    obtain ⟨h2, h3⟩ := h x (by simp)
    simp only [List.map_cons, List.sum_cons, List.length_cons]
    push_cast
    nlinarith

theorem sum_sq_zero (xs : List ℝ) (m : ℝ) : (xs.map (fun x => (x - m) ^ 2)).sum = 0 ↔ ∀ x ∈ xs, x = m := by
  induction xs with
  | nil => simp
  | cons x xs ih =>
    have h1 : 0 ≤ (xs.map (fun x => (x - m) ^ 2)).sum := sum_nonneg_of _ (by
      intro y hy; obtain ⟨z, _, rfl⟩ := List.mem_map.1 hy; positivity)
    simp only [List.map_cons, List.sum_cons, List.mem_cons, forall_eq_or_imp]
    rw [← ih]
    constructor
    · intro h
      have h2 : (x - m) ^ 2 = 0 := by nlinarith [sq_nonneg (x - m)]
      exact ⟨by nlinarith [pow_eq_zero_iff (n := 2) (a := x - m) (by norm_num) |>.1 h2], by nlinarith [sq_nonneg (x - m)]⟩
    · rintro ⟨rfl, h⟩
      rw [h]; simp

/-- C104d: with at least two non-empty traces, and `n` names in the log, the sum of the position entropies is between 0 and
`n`, the variance is between 0 and 1/4 and the deviation is its root and at most 1/2. The variance is 0 exactly if all
entropies are the same. -/
theorem C104_position_summaries (log : Log E) (h2 : 2 ≤ nonEmptyCount (keptOf log none)) :
    ∃ xs : List ℝ, positionHistogram log = .ok (xs.map some) ∧
      xs.length = (createLogInformation log).eventsCount.length ∧ xs ≠ [] ∧
      ∃ s v, positionFastSum log = .ok (some s) ∧ positionVar log = .ok (some v) ∧ positionStd log = .ok (some (Real.sqrt v)) ∧
        s = xs.sum ∧ 0 ≤ s ∧ s ≤ xs.length ∧ 0 ≤ v ∧ v ≤ 1 / 4 ∧ Real.sqrt v ≤ 1 / 2 ∧
        (v = 0 ↔ ∀ x ∈ xs, ∀ y ∈ xs, x = y) := by
  obtain ⟨d, hslow, hfast, hkeys, hrange⟩ := C19_all_entropies_range log none trivial h2
  obtain ⟨xs, hxs, hx01⟩ := values_of_range d hrange
  have hlen : xs.length = (createLogInformation log).eventsCount.length := by
    have h1 := congrArg List.length hxs
    rw [C17_slow_entropies log none trivial] at hslow
    cases hslow
    simpa [Dict.keys] using h1.symm
  have hne : xs ≠ [] := by
    rintro rfl
    have hd : d = [] := by simpa using hxs
    have : ∃ n, occurrences log n ≠ 0 := by
      by_contra hno
      push Not at hno
      have h0 : nonEmptyCount (keptOf log none) = 0 := by
        rw [keptOf_none]
        unfold nonEmptyCount
        rw [List.length_eq_zero_iff, List.filter_eq_nil_iff]
        intro t ht
        obtain ⟨u, hu, rfl⟩ := List.mem_map.1 ht
        cases u with
        | nil => simp
        | cons e u =>
          exfalso
          have hz := hno (name e)
          unfold occurrences at hz
          rw [List.count_eq_zero] at hz
          exact hz (List.mem_map.2 ⟨e, List.mem_flatten.2 ⟨e :: u, hu, by simp⟩, rfl⟩)
      omega
    obtain ⟨n, hn⟩ := this
    have := (hkeys n).2 ⟨by simp [ignoredNames], hn⟩
    rw [hd] at this
    simp [Dict.keys] at this
  have hpos : (0 : ℝ) < xs.length := by
    have : 0 < xs.length := List.length_pos_iff.2 hne
    exact_mod_cast this
  set m : ℝ := xs.sum / xs.length with hm
  set v : ℝ := (xs.map (fun x => (x - m) ^ 2)).sum / xs.length with hv
  have hmS : xs.sum = m * xs.length := by rw [hm]; field_simp
  have hv0 : 0 ≤ v := div_nonneg (sum_nonneg_of _ (by
    intro y hy; obtain ⟨z, _, rfl⟩ := List.mem_map.1 hy; positivity)) hpos.le
  have hv4 : v ≤ 1 / 4 := by
    rw [hv, div_le_iff₀ hpos]
    have := sum_sq_le xs m hx01
    rw [hmS] at this
    nlinarith [sq_nonneg (m - 1 / 2)]
  refine ⟨xs, by rw [positionHistogram, hfast]; exact congrArg Except.ok hxs, hlen, hne, xs.sum, v, ?_, ?_, ?_, rfl,
    sum_nonneg_of _ (fun x hx => (hx01 x hx).1), ?_, hv0, hv4, ?_, ?_⟩
  · rw [positionFastSum, hfast]; exact congrArg Except.ok (by beta_reduce; rw [hxs]; exact sumNan_some xs)
  · rw [positionVar, hfast]; exact congrArg Except.ok (by beta_reduce; rw [hxs]; exact varNan_some xs hne)
  · rw [positionStd, hfast]; exact congrArg Except.ok (by beta_reduce; rw [hxs, stdNan, varNan_some xs hne]; rfl)
  · have := sum_le_of_le xs 1 (fun x hx => (hx01 x hx).2)
    linarith
  · rw [Real.sqrt_le_left (by norm_num)]
    norm_num at hv4 ⊢
    exact hv4
  · rw [hv, div_eq_zero_iff]
    have : (xs.length : ℝ) ≠ 0 := hpos.ne'
    simp only [this, or_false]
    rw [sum_sq_zero]
    constructor
    · intro h x hx y hy
      rw [h x hx, h y hy]
    · intro h x hx
      have hs : xs.sum = xs.length * x := by
        have h1 : xs = List.replicate xs.length x := List.eq_replicate_of_mem (fun y hy => h y hy x hx)
        conv_lhs => rw [h1]
        simp
      rw [hm, hs]
      field_simp

/-- C104e: with one non-empty trace the sum and the deviation are no numbers; without events the sum is 0 and the variance is no
number. -/
theorem C104_no_number (log : Log E) (h1 : nonEmptyCount (keptOf log none) ≤ 1) :
    (∀ n, occurrences log n ≠ 0 → positionFastSum log = .ok none ∧ positionVar log = .ok none ∧ positionStd log = .ok none) ∧
    ((∀ n, occurrences log n = 0) → positionFastSum log = .ok (some 0) ∧ positionVar log = .ok none) := by
  have hslow := C17_slow_entropies log none trivial
  have hfast := C17_entropies_equal log none trivial none (.inl rfl)
  rw [hslow] at hfast
  constructor
  · intro n hn
    have hmem : none ∈ (((createLogInformation log (Option.map (·.ignored) (none : Option IgnoredEvents))).eventsCount.keys.map
        (fun k => (k, positionEntropy (positionTable (keptOf log none) k) (nonEmptyCount (keptOf log none))))).map Prod.snd) := by
      rw [List.map_map]
      refine List.mem_map.2 ⟨n, (mem_keys_iff log none n).2 ⟨by simp, hn⟩, ?_⟩
      simp only [Function.comp_apply, positionEntropy]
      rw [if_pos (.inl h1)]
    have hv : varNan (((createLogInformation log (Option.map (·.ignored) (none : Option IgnoredEvents))).eventsCount.keys.map
        (fun k => (k, positionEntropy (positionTable (keptOf log none) k) (nonEmptyCount (keptOf log none))))).map Prod.snd) =
        none := by
      rw [varNan, meanNan, sumNan_none hmem]
    refine ⟨?_, ?_, ?_⟩
    · rw [positionFastSum, hfast]; exact congrArg Except.ok (sumNan_none hmem)
    · rw [positionVar, hfast]; exact congrArg Except.ok hv
    · rw [positionStd, hfast]; exact congrArg Except.ok (by beta_reduce; rw [stdNan, hv]; rfl)
  · intro h0
    have hk : (createLogInformation log (Option.map (·.ignored) (none : Option IgnoredEvents))).eventsCount.keys = [] := by
      rw [List.eq_nil_iff_forall_not_mem]
      intro n hn
      exact ((mem_keys_iff log none n).1 hn).2 (h0 n)
    rw [hk] at hfast
    refine ⟨by rw [positionFastSum, hfast]; rfl, by rw [positionVar, hfast]; simp [Except.map, varNan, meanNan, sumNan]⟩

example : 2 ≤ nonEmptyCount (keptOf exPosLog none) ∧ NoFakeNames exPosLog ∧ IgnoreArg exPosLog none :=
  ⟨by decide, by unfold NoFakeNames; decide, trivial⟩

example : nonEmptyCount (keptOf exSingleLog none) ≤ 1 ∧ occurrences exSingleLog "a" ≠ 0 := by decide

end Ficus
