import Verif.Proofs.Entropy
import Mathlib.Analysis.SpecialFunctions.Log.NegMulLog
import Mathlib.Analysis.Convex.Jensen

/-! Property C16: the vectors behind the directly-follows entropies are probability vectors. -/

namespace Ficus
open Spec
variable {E : Type} [HasName E]

/-- No event carries an artificial name. -/
def NoFakeNames (log : Log E) : Prop := occurrences log "FAKE_START" = 0 ∧ occurrences log "FAKE_END" = 0

/-- `v` is a probability vector. -/
def IsProbability (v : List ℚ) : Prop := (∀ q ∈ v, 0 ≤ q ∧ q ≤ 1) ∧ v.sum = 1

theorem mem_namesList_iff (log : Log E) (ignored : Option (List String)) (n : String) :
    n ∈ namesList log ignored ↔ n ∉ ignored.getD [] ∧ occurrences log n ≠ 0 := by
  have h := C09_events_count_exact log ignored true n
  rw [info_eq, counter_get?] at h
  rw [← List.count_pos_iff]
  by_cases h1 : (namesList log ignored).count n = 0
  · rw [if_pos h1] at h
    by_cases h2 : n ∈ ignored.getD [] ∨ occurrences log n = 0
    · rcases h2 with h2 | h2 <;> simp [h1, h2]
    · rw [if_neg h2] at h; cases h
  · rw [if_neg h1] at h
    by_cases h2 : n ∈ ignored.getD [] ∨ occurrences log n = 0
    · rw [if_pos h2] at h; cases h
    · rw [not_or] at h2
      constructor
      · intro _; exact h2
      · intro _; omega

theorem count_namesList (log : Log E) (ignored : Option (List String)) (n : String) (h : n ∉ ignored.getD []) :
    (namesList log ignored).count n = occurrences log n := by
  have h1 := C09_events_count_exact log ignored true n
  rw [info_eq, counter_get?] at h1
  by_cases h2 : (namesList log ignored).count n = 0
  · rw [h2]
    by_contra h3
    have := (mem_namesList_iff log ignored n).2 ⟨h, fun e => h3 e.symm⟩
    rw [← List.count_pos_iff] at this; omega
  · rw [if_neg h2] at h1
    by_cases h3 : n ∈ ignored.getD [] ∨ occurrences log n = 0
    · rw [if_pos h3] at h1; cases h1
    · rw [if_neg h3] at h1; exact Option.some.inj h1

theorem eventsCount_get? (log : Log E) (ignored : Option (List String)) (a : String) (hi : a ∉ ignored.getD [])
    (ho : occurrences log a ≠ 0) :
    (createLogInformation log ignored).eventsCount.get? a = some (occurrences log a) := by
  rw [C09_events_count_exact, if_neg (by rw [not_or]; exact ⟨hi, ho⟩)]

theorem vector_aux (laplace : Bool) (log : Log E) (ignored : Option (List String)) (a last : String)
    (hi : a ∉ ignored.getD []) (ho : occurrences log a ≠ 0) (cnt : String → Nat)
    (hsum : (((createLogInformation log ignored).eventsCount.keys ++ [last]).map cnt).sum =
      (namesList log ignored).count a) :
    ∃ v, ((createLogInformation log ignored).eventsCount.keys ++ [last]).mapM
        (fun x => ratioOf laplace (createLogInformation log ignored) a (cnt x)) = .ok v ∧
      v = ((createLogInformation log ignored).eventsCount.keys ++ [last]).map
        (fun x => ratioValue laplace (createLogInformation log ignored).eventsCount.length (occurrences log a) (cnt x)) ∧
      IsProbability v := by
  have hg := eventsCount_get? log ignored a hi ho
  have hc : 0 < occurrences log a := Nat.pos_of_ne_zero ho
  refine ⟨_, mapM_ok_map _ _ _ (fun x _ => ratioOf_ok laplace _ a (cnt x) _ hg hc), rfl, ?_⟩
  have hs : (((createLogInformation log ignored).eventsCount.keys ++ [last]).map
      (fun x => ratioValue laplace (createLogInformation log ignored).eventsCount.length (occurrences log a) (cnt x))).sum =
        1 := by
    have := sum_ratioValue laplace (createLogInformation log ignored).eventsCount.length (occurrences log a) hc
      (((createLogInformation log ignored).eventsCount.keys ++ [last]).map cnt)
      (by rw [hsum, count_namesList log ignored a hi]) (by simp [Dict.keys])
    rw [List.map_map] at this
    exact this
  refine ⟨?_, hs⟩
  intro q hq
  have hnn : ∀ x ∈ ((createLogInformation log ignored).eventsCount.keys ++ [last]).map
      (fun x => ratioValue laplace (createLogInformation log ignored).eventsCount.length (occurrences log a) (cnt x)),
      0 ≤ x := by
    intro x hx
    obtain ⟨y, _, rfl⟩ := List.mem_map.1 hx
    exact ratioValue_nonneg _ _ _ _
  exact ⟨hnn q hq, hs ▸ le_sum_of_mem hnn hq⟩

/-- C16a: for every counted event the directly-follows vector is computed without an error and is a probability vector,
plain and Laplace smoothed. -/
theorem C16_dfr_probability (laplace : Bool) (log : Log E) (ignored : Option (List String)) (a : String)
    (hf : NoFakeNames log) (hi : a ∉ ignored.getD []) (ho : occurrences log a ≠ 0) :
    ∃ v, dfrVector laplace (createLogInformation log ignored) a = .ok v ∧ IsProbability v := by
  have ha : a ≠ fakeStart := by rintro rfl; exact ho hf.1
  have hend : fakeEnd ∉ namesList log ignored := fun h => ((mem_namesList_iff log ignored _).1 h).2 hf.2
  obtain ⟨v, h1, _, h3⟩ := vector_aux laplace log ignored a fakeEnd hi ho _ (dfr_sum log ignored a ha hend)
  exact ⟨v, h1, h3⟩

/-- C16b: the same for the directly-precedes vector. -/
theorem C16_dpr_probability (laplace : Bool) (log : Log E) (ignored : Option (List String)) (a : String)
    (hf : NoFakeNames log) (hi : a ∉ ignored.getD []) (ho : occurrences log a ≠ 0) :
    ∃ v, dprVector laplace (createLogInformation log ignored) a = .ok v ∧ IsProbability v := by
  have ha : a ≠ fakeEnd := by rintro rfl; exact ho hf.2
  have hst : fakeStart ∉ namesList log ignored := fun h => ((mem_namesList_iff log ignored _).1 h).2 hf.1
  obtain ⟨v, h1, _, h3⟩ := vector_aux laplace log ignored a fakeStart hi ho _ (dpr_sum log ignored a ha hst)
  exact ⟨v, h1, h3⟩

example : dfrVector false (createLogInformation exInfoLog) "b" = .ok [1/3, 0, 0, 1/3, 1/3] ∧
    dfrVector true (createLogInformation exInfoLog) "b" = .ok [2/7, 1/14, 1/14, 2/7, 2/7] ∧
    dprVector false (createLogInformation exInfoLog) "b" = .ok [1/3, 1/3, 0, 0, 1/3] ∧
    NoFakeNames exInfoLog ∧ occurrences exInfoLog "b" ≠ 0 := by
  unfold NoFakeNames; decide +kernel

/-- The number of times `b` directly follows `a` in the framed traces without ignored events. -/
def follows (log : Log E) (ignored : Option (List String)) (a b : String) : Nat :=
  (log.evs.flatMap (fun t => adjacent (framed "FAKE_START" "FAKE_END" (kept (ignored.getD []) t)))).count (a, b)

theorem pairCount_eq (log : Log E) (ignored : Option (List String)) (a b : String) :
    pairCount (createLogInformation log ignored) a b = follows log ignored a b := by
  unfold pairCount; rw [info_eq, counter_getD]; rfl

/-- C16c: the entries of the plain vectors are the ratios of adjacent pairs to occurrences, for the names in the order of
the count dictionary followed by the artificial end (resp. start). -/
theorem C16_plain_values (log : Log E) (ignored : Option (List String)) (a : String)
    (hi : a ∉ ignored.getD []) (ho : occurrences log a ≠ 0) :
    dfrVector false (createLogInformation log ignored) a =
      .ok (((createLogInformation log ignored).eventsCount.keys ++ ["FAKE_END"]).map
        (fun x => (follows log ignored a x : ℚ) / occurrences log a)) ∧
    dprVector false (createLogInformation log ignored) a =
      .ok (((createLogInformation log ignored).eventsCount.keys ++ ["FAKE_START"]).map
        (fun x => (follows log ignored x a : ℚ) / occurrences log a)) := by
  have hg := eventsCount_get? log ignored a hi ho
  have hc : 0 < occurrences log a := Nat.pos_of_ne_zero ho
  constructor
  · refine mapM_ok_map _ _ _ (fun x _ => ?_)
    rw [ratioOf_ok false _ a _ _ hg hc, pairCount_eq]; simp [ratioValue]
  · refine mapM_ok_map _ _ _ (fun x _ => ?_)
    rw [ratioOf_ok false _ a _ _ hg hc, pairCount_eq]; simp [ratioValue]

/-- C16d: the entries of the smoothed vectors: every pair count gets the pseudo count `1/c`, `c` the occurrences of the
event, and the sum is renormalised over all classes and the artificial one. -/
theorem C16_laplace_values (log : Log E) (ignored : Option (List String)) (a : String)
    (hi : a ∉ ignored.getD []) (ho : occurrences log a ≠ 0) :
    let c : ℚ := occurrences log a
    let m : ℚ := (createLogInformation log ignored).eventsCount.length + 1
    dfrVector true (createLogInformation log ignored) a =
      .ok (((createLogInformation log ignored).eventsCount.keys ++ ["FAKE_END"]).map
        (fun x => (1 / c + follows log ignored a x) / (m / c + c))) ∧
    dprVector true (createLogInformation log ignored) a =
      .ok (((createLogInformation log ignored).eventsCount.keys ++ ["FAKE_START"]).map
        (fun x => (1 / c + follows log ignored x a) / (m / c + c))) := by
  have hg := eventsCount_get? log ignored a hi ho
  have hc : 0 < occurrences log a := Nat.pos_of_ne_zero ho
  constructor
  · refine mapM_ok_map _ _ _ (fun x _ => ?_)
    rw [ratioOf_ok true _ a _ _ hg hc, pairCount_eq]
    simp only [ratioValue, if_true]; congr 3; ring
  · refine mapM_ok_map _ _ _ (fun x _ => ?_)
    rw [ratioOf_ok true _ a _ _ hg hc, pairCount_eq]
    simp only [ratioValue, if_true]; congr 3; ring

/-- Gibbs: the entropy of a probability vector with `m` entries is at most `log2 m`. -/
theorem vectorEntropy_le (v : List ℚ) (h : IsProbability v) : vectorEntropy v ≤ Real.logb 2 v.length := by
  obtain ⟨h01, hs⟩ := h
  have hne : v ≠ [] := by rintro rfl; simp at hs
  have hm : 0 < v.length := List.length_pos_iff.2 hne
  have hm' : (0 : ℝ) < v.length := by exact_mod_cast hm
  have hsumR : ∑ i : Fin v.length, ((v[i.1] : ℚ) : ℝ) = 1 := by
    rw [Fin.sum_univ_fun_getElem v (fun q : ℚ => (q : ℝ))]
    have h1 : ((v.sum : ℚ) : ℝ) = 1 := by rw [hs]; norm_num
    rw [← h1, Rat.cast_list_sum]
  have hj := Real.concaveOn_negMulLog.le_map_sum (t := Finset.univ) (w := fun _ : Fin v.length => 1 / (v.length : ℝ))
    (p := fun i => ((v[i.1] : ℚ) : ℝ)) (fun i _ => by positivity)
    (by simp [hm'.ne']) (fun i _ => by
      have := (h01 v[i.1] (List.getElem_mem i.2)).1
      rw [Set.mem_Ici]
      exact_mod_cast this)
  simp only [smul_eq_mul] at hj
  rw [← Finset.mul_sum, ← Finset.mul_sum, hsumR] at hj
  have e1 : Real.negMulLog (1 / (v.length : ℝ) * 1) = 1 / (v.length : ℝ) * Real.log v.length := by
    unfold Real.negMulLog
    rw [mul_one, one_div, Real.log_inv]; ring
  rw [e1] at hj
  have hj2 : ∑ i : Fin v.length, Real.negMulLog ((v[i.1] : ℚ) : ℝ) ≤ Real.log v.length :=
    le_of_mul_le_mul_left hj (by positivity)
  have e2 : vectorEntropy v = (∑ i : Fin v.length, Real.negMulLog ((v[i.1] : ℚ) : ℝ)) / Real.log 2 := by
    rw [vectorEntropy_eq, Fin.sum_univ_fun_getElem v (fun q : ℚ => Real.negMulLog (q : ℝ))]
    clear * -
    induction v with
    | nil => simp
    | cons a v ih =>
      rw [List.map_cons, List.map_cons, List.sum_cons, List.sum_cons, ih, add_div]
      congr 1
      unfold Real.negMulLog Real.logb; ring
  rw [e2, Real.logb]
  exact div_le_div_of_nonneg_right hj2 (Real.log_nonneg (by norm_num))

/-- C16e: the entropies are computed for every log without artificial names, exactly for the counted events, and each is
between 0 and `2 log2 (n + 1)`, `n` the number of event classes. -/
theorem C16_entropies (laplace : Bool) (log : Log E) (ignored : Option (List String)) (hf : NoFakeNames log) :
    ∃ d, calculateEntropies laplace log ignored = .ok d ∧
      d.keys = (createLogInformation log ignored).eventsCount.keys ∧
      (∀ a e, (a, e) ∈ d → ∃ f p, dfrVector laplace (createLogInformation log ignored) a = .ok f ∧
        dprVector laplace (createLogInformation log ignored) a = .ok p ∧
        e = (f.map (fun q : ℚ => -((q : ℝ) * Real.logb 2 q))).sum + (p.map (fun q : ℚ => -((q : ℝ) * Real.logb 2 q))).sum) ∧
      ∀ a e, (a, e) ∈ d → 0 ≤ e ∧ e ≤ 2 * Real.logb 2 (d.length + 1) := by
  have hk : ∀ a ∈ (createLogInformation log ignored).eventsCount.keys, a ∉ ignored.getD [] ∧ occurrences log a ≠ 0 := by
    intro a ha
    rw [info_eq] at ha
    exact (mem_namesList_iff log ignored a).1 ((mem_counter_keys _ _).1 ha)
  have hwf : (createLogInformation log ignored).eventsCount.keys.Nodup := (C09_wellformed log ignored true).2
  have step : ∀ (ks : List String) (d : Dict String ℝ), (∀ a ∈ ks, a ∉ ignored.getD [] ∧ occurrences log a ≠ 0) →
      (d.keys ++ ks).Nodup →
      ∃ r, ks.foldlM (entropyLoop laplace (createLogInformation log ignored)) d = .ok r ∧ r.keys = d.keys ++ ks ∧
        ∀ a e, (a, e) ∈ r → (a, e) ∈ d ∨ ∃ f p, dfrVector laplace (createLogInformation log ignored) a = .ok f ∧
          dprVector laplace (createLogInformation log ignored) a = .ok p ∧
          e = vectorEntropy f + vectorEntropy p ∧ a ∈ ks := by
    intro ks
    induction ks with
    | nil => intro d _ _; exact ⟨d, rfl, by simp, fun a e h => Or.inl h⟩
    | cons a ks ih =>
      intro d hks hnd
      obtain ⟨f, hf1, _⟩ := C16_dfr_probability laplace log ignored a hf (hks a (by simp)).1 (hks a (by simp)).2
      obtain ⟨p, hp1, _⟩ := C16_dpr_probability laplace log ignored a hf (hks a (by simp)).1 (hks a (by simp)).2
      have hna : a ∉ d.keys := by
        intro hm; exact (List.nodup_append.1 hnd).2.2 a hm a (by simp) rfl
      have h1 : entropyLoop laplace (createLogInformation log ignored) d a =
          .ok (d ++ [(a, vectorEntropy f + vectorEntropy p)]) := by
        simp only [entropyLoop, hf1, hp1, bind, Except.bind, pure, Except.pure]
        rw [set_append_of_notMem d a _ hna]
      have hkeys : Dict.keys (d ++ [(a, vectorEntropy f + vectorEntropy p)]) = d.keys ++ [a] := by simp [Dict.keys]
      obtain ⟨r, hr, hrk, hre⟩ := ih (d ++ [(a, vectorEntropy f + vectorEntropy p)]) (fun x hx => hks x (by simp [hx]))
        (by rw [hkeys]; simpa using hnd)
      refine ⟨r, ?_, ?_, ?_⟩
      · rw [List.foldlM_cons, h1]; exact hr
      · rw [hrk, hkeys]; simp
      · intro x e hx
        rcases hre x e hx with h2 | ⟨f', p', h2, h3, h4, h5⟩
        · rcases List.mem_append.1 h2 with h2 | h2
          · exact Or.inl h2
          · rw [List.mem_singleton, Prod.mk.injEq] at h2
            obtain ⟨rfl, rfl⟩ := h2
            exact Or.inr ⟨f, p, hf1, hp1, rfl, by simp⟩
        · exact Or.inr ⟨f', p', h2, h3, h4, by simp [h5]⟩
  obtain ⟨d, hd, hdk, hde⟩ := step _ [] hk (by simpa [Dict.keys] using hwf)
  have hdk' : d.keys = (createLogInformation log ignored).eventsCount.keys := by rw [hdk]; simp [Dict.keys]
  refine ⟨d, hd, hdk', ?_, ?_⟩
  · intro a e hae
    rcases hde a e hae with h | ⟨f, p, h1, h2, h3, _⟩
    · simp at h
    · exact ⟨f, p, h1, h2, by rw [h3, vectorEntropy_eq, vectorEntropy_eq]⟩
  · intro a e hae
    rcases hde a e hae with h | ⟨f, p, h1, h2, h3, h4⟩
    · simp at h
    · obtain ⟨f', hf1, hfp⟩ := C16_dfr_probability laplace log ignored a hf (hk a h4).1 (hk a h4).2
      obtain ⟨p', hp1, hpp⟩ := C16_dpr_probability laplace log ignored a hf (hk a h4).1 (hk a h4).2
      rw [h1] at hf1; cases hf1
      rw [h2] at hp1; cases hp1
      have hlen : d.length = (createLogInformation log ignored).eventsCount.keys.length := by
        rw [← hdk']; simp [Dict.keys]
      have lenf : f.length = d.length + 1 := by
        have := mapM_length h1; simp at this; omega
      have lenp : p.length = d.length + 1 := by
        have := mapM_length h2; simp at this; omega
      have b1 := vectorEntropy_le f hfp
      have b2 := vectorEntropy_le p hpp
      rw [lenf] at b1
      rw [lenp] at b2
      push_cast at b1 b2
      rw [h3]
      exact ⟨add_nonneg (vectorEntropy_nonneg f hfp.1) (vectorEntropy_nonneg p hpp.1), by linarith⟩

/-- C16f: with an event that carries the artificial end name the vector is not a probability vector (its sum exceeds 1), so
the hypothesis of C16a is needed. -/
theorem C16_fake_name_breaks_sum :
    dfrVector false (createLogInformation (Log.ofEvs [["a", "FAKE_END"], ["a"]])) "a" = .ok [0, 1, 1] := by decide +kernel

end Ficus
