import Verif.Model.Tandem
import Verif.Spec.Tandem
import Verif.Proofs.Hash
import Verif.Props.Hash

namespace Ficus
open Spec

theorem blockEq_iff (t : List Int) (cur start n i : Nat) :
    blockEq t cur start n i = true ↔ ∀ j, i ≤ j → j < i + n → t[cur + j]? = t[start + j]? := by
  induction n generalizing i with
  | zero => simp [blockEq]; omega
  | succ n ih =>
    unfold blockEq
    by_cases h : t[cur + i]? = t[start + i]?
    · rw [if_neg (by simpa using h), ih]
      constructor
      · intro hj j h1 h2
        rcases Nat.lt_or_ge i j with h3 | h3
        · exact hj j h3 (by omega)
        · have : j = i := by omega
          subst this; exact h
      · intro hj j h1 h2; exact hj j (by omega) (by omega)
    · rw [if_pos h]
      simp only [Bool.false_eq_true, false_iff]
      intro hj; exact h (hj i (le_refl _) (by omega))

theorem factor_eq_iff (t : List Int) (a b n : Nat) :
    factor t a n = factor t b n ↔ ∀ j < n, t[a + j]? = t[b + j]? := by
  unfold factor
  constructor
  · intro h j hj
    have := congrArg (fun l => l[j]?) h
    simpa [List.getElem?_take, hj] using this
  · intro h
    apply List.ext_getElem?
    intro j
    by_cases hj : j < n
    · simp [hj, h j hj]
    · simp [hj]

theorem blockEq_factor (t : List Int) (cur start n : Nat) :
    blockEq t cur start n 0 = true ↔ factor t cur n = factor t start n := by
  rw [blockEq_iff, factor_eq_iff]; simp

theorem factor_add {α : Type} (t : List α) (i a b : Nat) : factor t i (a + b) = factor t i a ++ factor t (i + a) b := by
  simp [factor, List.take_add, List.drop_drop]

theorem factor_length {α : Type} (t : List α) (i l : Nat) (h : i + l ≤ t.length) : (factor t i l).length = l := by
  simp [factor]; omega

theorem wordPow_succ {α : Type} (w : List α) (k : Nat) : wordPow w (k + 1) = wordPow w k ++ w := by
  simp [wordPow, List.replicate_succ']

theorem wordPow_length {α : Type} (w : List α) (k : Nat) : (wordPow w k).length = k * w.length := by
  induction k with
  | zero => simp [wordPow]
  | succ k ih => rw [wordPow_succ, List.length_append, ih]; ring

theorem Repeats_zero {α : Type} (t : List α) (i l : Nat) (h : i ≤ t.length) : Repeats t i l 0 := by
  simp [Repeats, factor, wordPow, h]

theorem Repeats_one {α : Type} (t : List α) (i l : Nat) (h : i + l ≤ t.length) : Repeats t i l 1 := by
  simp [Repeats, wordPow, h]

theorem Repeats_succ {α : Type} (t : List α) (i l k : Nat) :
    Repeats t i l (k + 1) ↔ Repeats t i l k ∧ i + (k + 1) * l ≤ t.length ∧ factor t (i + k * l) l = factor t i l := by
  unfold Repeats
  rw [wordPow_succ, show (k + 1) * l = k * l + l by ring, factor_add]
  constructor
  · rintro ⟨hb, h⟩
    have hl : (factor t i (k * l)).length = (wordPow (factor t i l) k).length := by
      rw [wordPow_length, factor_length t i (k * l) (by omega)]
      by_cases hk : k = 0
      · simp [hk]
      · have : l ≤ k * l := Nat.le_mul_of_pos_left l (by omega)
        rw [factor_length t i l (by omega)]
    have := List.append_inj h hl
    exact ⟨⟨by omega, this.1⟩, hb, this.2⟩
  · rintro ⟨⟨hb, h⟩, hb', h'⟩
    exact ⟨hb', by rw [h, h']⟩

theorem Repeats_mono {α : Type} (t : List α) (i l k m : Nat) (hm : m ≤ k) (h : Repeats t i l k) : Repeats t i l m := by
  induction k with
  | zero => obtain rfl : m = 0 := by omega
            exact h
  | succ k ih =>
    rcases Nat.lt_or_ge k m with h1 | h1
    · obtain rfl : m = k + 1 := by omega
      exact h
    · exact ih h1 ((Repeats_succ t i l k).1 h).1

theorem countRepeats_spec (t : List Int) (start l : Nat) (hl : 0 < l) (fuel n : Nat)
    (hf : t.length < start + n * l + (fuel + 1) * l) (hn : Repeats t start l n) :
    let m := countRepeats t start l fuel (start + n * l) n
    n ≤ m ∧ Repeats t start l m ∧ ¬ Repeats t start l (m + 1) := by
  induction fuel generalizing n with
  | zero =>
    simp only [countRepeats]
    refine ⟨le_refl _, hn, fun h => ?_⟩
    have := h.1
    rw [Nat.add_mul] at this; omega
  | succ fuel ih =>
    simp only [countRepeats]
    by_cases h1 : t.length ≤ start + n * l + l - 1
    · rw [if_pos h1]
      refine ⟨le_refl _, hn, fun h => ?_⟩
      have := h.1
      rw [Nat.add_mul] at this; omega
    · rw [if_neg h1]
      by_cases h2 : blockEq t (start + n * l) start l 0 = true
      · rw [if_neg (by simp [h2])]
        have h3 : Repeats t start l (n + 1) := by
          rw [Repeats_succ]
          refine ⟨hn, ?_, (blockEq_factor ..).1 h2⟩
          rw [Nat.add_mul]; omega
        have := ih (n + 1) (by rw [Nat.add_mul] at hf ⊢; omega) h3
        rw [show start + n * l + l = start + (n + 1) * l by ring]
        exact ⟨by omega, this.2⟩
      · rw [if_pos (by simpa using h2)]
        refine ⟨le_refl _, hn, fun h => h2 ?_⟩
        rw [blockEq_factor]
        exact ((Repeats_succ t start l n).1 h).2.2

theorem Repeats_unique {α : Type} (t : List α) (i l k m : Nat) (h1 : Repeats t i l k) (h2 : ¬ Repeats t i l (k + 1))
    (h3 : Repeats t i l m) (h4 : ¬ Repeats t i l (m + 1)) : k = m := by
  rcases Nat.lt_trichotomy k m with h | h | h
  · exact absurd (Repeats_mono t i l m (k + 1) h h3) h2
  · exact h
  · exact absurd (Repeats_mono t i l k (m + 1) h h1) h4

/-- Exact behaviour of the extraction for positive block lengths and in-range starts. -/
theorem tryExtractTandem_iff (t : List Int) (start l : Nat) (hl : 0 < l) (hb : start + l ≤ t.length) (a : Tandem) :
    tryExtractTandem t start l = some a ↔
      a.firstPos = start ∧ a.length = l ∧ 2 ≤ a.repeatCount ∧ Repeats t start l a.repeatCount ∧
        ¬ Repeats t start l (a.repeatCount + 1) := by
  have hs := countRepeats_spec t start l hl t.length 1 (by
    have : t.length + 1 ≤ (t.length + 1) * l := Nat.le_mul_of_pos_right _ hl
    omega) (Repeats_one t start l hb)
  simp only [one_mul] at hs
  unfold tryExtractTandem
  simp only
  set m := countRepeats t start l t.length (start + l) 1 with hm
  by_cases h : 1 < m
  · rw [if_pos h]
    constructor
    · intro he
      simp only [Option.some.injEq] at he
      subst he
      exact ⟨rfl, rfl, h, hs.2⟩
    · rintro ⟨h1, h2, h3, h4, h5⟩
      have := Repeats_unique t start l _ _ hs.2.1 hs.2.2 h4 h5
      cases a; simp_all
  · rw [if_neg h]
    constructor
    · intro he; cases he
    · rintro ⟨h1, h2, h3, h4, h5⟩
      have := Repeats_unique t start l _ _ hs.2.1 hs.2.2 h4 h5
      omega

theorem tryExtractTandem_none_iff (t : List Int) (start l : Nat) (hl : 0 < l) (hb : start + l ≤ t.length) :
    tryExtractTandem t start l = none ↔ ¬ Repeats t start l 2 := by
  constructor
  · intro h h2
    have hs := countRepeats_spec t start l hl t.length 1 (by
      have : t.length + 1 ≤ (t.length + 1) * l := Nat.le_mul_of_pos_right _ hl
      omega) (Repeats_one t start l hb)
    simp only [one_mul] at hs
    unfold tryExtractTandem at h
    simp only at h
    split at h
    · cases h
    · rename_i h3
      have : countRepeats t start l t.length (start + l) 1 = 1 := by omega
      rw [this] at hs
      exact hs.2.2 h2
  · intro h
    cases he : tryExtractTandem t start l with
    | none => rfl
    | some a =>
      obtain ⟨_, _, h3, h4, _⟩ := (tryExtractTandem_iff t start l hl hb a).1 he
      exact absurd (Repeats_mono t start l _ 2 h3 h4) h

theorem collHash_factor (t : List Int) (i l : Nat) (hne : t ≠ []) (hb : i + l ≤ t.length) :
    collHash (fun h : Int => h) t i (some (i + l)) = .ok (windowHash (factor t i l)) := by
  rw [C01_window_hash_closed_form _ t i (i + l) hne (by omega) hb]
  simp [windowHash, factor]

/-- The pure step. -/
def tandemStepP (t : List Int) (st : List Int × List Tandem) (c : Nat × Nat) : List Int × List Tandem :=
  let h := windowHash (factor t c.1 c.2)
  if h ∈ st.1 then st else (h :: st.1, st.2 ++ (tryExtractTandem t c.1 c.2).toList)

theorem tandemStep_ok (t : List Int) (st : List Int × List Tandem) (c : Nat × Nat) (hne : t ≠ [])
    (hb : c.1 + c.2 ≤ t.length) : tandemStep t st c = .ok (tandemStepP t st c) := by
  unfold tandemStep tandemStepP
  rw [collHash_factor t c.1 c.2 hne hb]
  simp only
  by_cases h : windowHash (factor t c.1 c.2) ∈ st.1
  · rw [if_pos h, if_pos h]
  · rw [if_neg h, if_neg h]
    cases tryExtractTandem t c.1 c.2 <;> simp

theorem mem_tandemCandidates (t : List Int) (maxLength : Nat) (c : Nat × Nat) :
    c ∈ tandemCandidates t maxLength ↔ 2 ≤ c.2 ∧ c.2 < maxLength ∧ c.1 + c.2 < t.length := by
  obtain ⟨i, l⟩ := c
  simp only [tandemCandidates, List.mem_flatMap, List.mem_range'_1, List.mem_map, List.mem_range, Prod.mk.injEq]
  constructor
  · rintro ⟨a, ha, b, hb, rfl, rfl⟩; omega
  · rintro ⟨h1, h2, h3⟩; exact ⟨l, by omega, i, by omega, rfl, rfl⟩

/-- Candidates come with increasing starts within one block length, and each comes once. -/
theorem tandemCandidates_split (t : List Int) (maxLength : Nat) (i l : Nat)
    (h : (i, l) ∈ tandemCandidates t maxLength) :
    ∃ pre post, tandemCandidates t maxLength = pre ++ (i, l) :: post ∧
      (∀ j, (j, l) ∈ pre ↔ j < i) ∧ (∀ c ∈ pre, c.2 ≤ l) ∧ (∀ m j, 2 ≤ m → m < l → j + m < t.length → (j, m) ∈ pre) := by
  rw [mem_tandemCandidates] at h
  obtain ⟨h1, h2, h3⟩ := h
  simp only at h1 h2 h3
  have e1 : List.range' 2 (maxLength - 2) = List.range' 2 (l - 2) ++ l :: List.range' (l + 1) (maxLength - l - 1) := by
    have := List.range'_append_1 (s := 2) (m := l - 2) (n := maxLength - l)
    rw [show 2 + (l - 2) = l by omega, show l - 2 + (maxLength - l) = maxLength - 2 by omega] at this
    rw [← this, show maxLength - l = (maxLength - l - 1) + 1 by omega, List.range'_succ]
    rfl
  have e2 : List.range (t.length - l) = List.range i ++ i :: List.range' (i + 1) (t.length - l - i - 1) := by
    rw [List.range_eq_range', List.range_eq_range']
    have := List.range'_append_1 (s := 0) (m := i) (n := t.length - l - i)
    rw [show 0 + i = i by omega, show i + (t.length - l - i) = t.length - l by omega] at this
    rw [← this, show t.length - l - i = (t.length - l - i - 1) + 1 by omega, List.range'_succ]
    rfl
  refine ⟨(List.range' 2 (l - 2)).flatMap (fun length => (List.range (t.length - length)).map (fun i => (i, length)))
    ++ (List.range i).map (fun i => (i, l)), (List.range' (i + 1) (t.length - l - i - 1)).map (fun i => (i, l)) ++
    (List.range' (l + 1) (maxLength - l - 1)).flatMap
      (fun length => (List.range (t.length - length)).map (fun i => (i, length))), ?_, ?_, ?_, ?_⟩
  · unfold tandemCandidates
    rw [e1, List.flatMap_append, List.flatMap_cons, e2]
    simp
  · intro j
    simp only [List.mem_append, List.mem_flatMap, List.mem_range'_1, List.mem_map, List.mem_range, Prod.mk.injEq]
    constructor
    · rintro (⟨a, ha, b, hb, rfl, rfl⟩ | ⟨b, hb, rfl, _⟩)
      · omega
      · exact hb
    · intro hj; exact Or.inr ⟨j, hj, rfl, trivial⟩
  · rintro ⟨j, m⟩ hc
    simp only [List.mem_append, List.mem_flatMap, List.mem_range'_1, List.mem_map, List.mem_range, Prod.mk.injEq] at hc
    rcases hc with ⟨a, ha, b, hb, rfl, rfl⟩ | ⟨b, hb, rfl, rfl⟩
    · simp; omega
    · simp
  · intro m j hm1 hm2 hm3
    simp only [List.mem_append, List.mem_flatMap, List.mem_range'_1, List.mem_map, List.mem_range, Prod.mk.injEq]
    exact Or.inl ⟨m, by omega, j, by omega, rfl, rfl⟩

theorem foldlM_tandem (t : List Int) (cs : List (Nat × Nat)) (st : List Int × List Tandem) (hne : t ≠ [])
    (hb : ∀ c ∈ cs, c.1 + c.2 ≤ t.length) :
    (cs.foldlM (tandemStep t) st : Except PyErr _) = .ok (cs.foldl (tandemStepP t) st) := by
  induction cs generalizing st with
  | nil => rfl
  | cons c cs ih =>
    simp only [List.foldlM_cons, List.foldl_cons]
    rw [tandemStep_ok t st c hne (hb c (by simp))]
    exact ih _ (fun c' hc' => hb c' (by simp [hc']))

/-- The pure result for one trace. -/
def maximalP (t : List Int) (maxLength : Nat) : List Tandem :=
  ((tandemCandidates t maxLength).foldl (tandemStepP t) ([], [])).2

theorem maximalTandemOfTrace_ok (t : List Int) (maxLength : Nat) :
    maximalTandemOfTrace t maxLength = .ok (maximalP t maxLength) := by
  unfold maximalTandemOfTrace maximalP
  by_cases hne : t = []
  · have : tandemCandidates t maxLength = [] := by
      apply List.eq_nil_iff_forall_not_mem.2
      intro c hc
      rw [mem_tandemCandidates] at hc
      simp [hne] at hc
    rw [this]; rfl
  · rw [foldlM_tandem t _ _ hne]
    · rfl
    · intro c hc
      rw [mem_tandemCandidates] at hc
      omega

theorem maximalTandemOfHashes_ok (ts : List (List Int)) (maxLength : Nat) :
    maximalTandemOfHashes ts maxLength = .ok (ts.map (fun t => maximalP t maxLength)) := by
  unfold maximalTandemOfHashes
  induction ts with
  | nil => rfl
  | cons t ts ih =>
    rw [List.mapM_cons, maximalTandemOfTrace_ok, ih]; rfl

/-- Invariant of the candidate loop after the candidates `done`. -/
structure TandemInv (t : List Int) (done : List (Nat × Nat)) (st : List Int × List Tandem) : Prop where
  visited : ∀ h, h ∈ st.1 ↔ ∃ c ∈ done, windowHash (factor t c.1 c.2) = h
  sound : ∀ a ∈ st.2, (a.firstPos, a.length) ∈ done ∧ tryExtractTandem t a.firstPos a.length = some a
  distinct : st.2.Pairwise (fun a b => windowHash (factor t a.firstPos a.length) ≠ windowHash (factor t b.firstPos b.length))
  complete : ∀ pre c post, done = pre ++ c :: post →
    (∀ c' ∈ pre, windowHash (factor t c'.1 c'.2) ≠ windowHash (factor t c.1 c.2)) →
    ∀ a, tryExtractTandem t c.1 c.2 = some a → a ∈ st.2
  first : ∀ a ∈ st.2, ∃ pre post, done = pre ++ (a.firstPos, a.length) :: post ∧
    ∀ c' ∈ pre, windowHash (factor t c'.1 c'.2) ≠ windowHash (factor t a.firstPos a.length)

theorem tandemInv_step (t : List Int) (done : List (Nat × Nat)) (st : List Int × List Tandem) (c : Nat × Nat)
    (hl : 0 < c.2) (hb : c.1 + c.2 ≤ t.length)
    (inv : TandemInv t done st) : TandemInv t (done ++ [c]) (tandemStepP t st c) := by
  unfold tandemStepP
  simp only
  have hsplit : ∀ (pre post : List (Nat × Nat)) c', done ++ [c] = pre ++ c' :: post →
      (post = [] ∧ pre = done ∧ c' = c) ∨ ∃ post', done = pre ++ c' :: post' := by
    intro pre post c' he
    rcases List.eq_nil_or_concat post with rfl | ⟨post', x, rfl⟩
    · left
      have := List.append_inj' he rfl
      simp only [List.cons.injEq, and_true] at this
      exact ⟨rfl, this.1.symm, this.2.symm⟩
    · right
      refine ⟨post', ?_⟩
      have he' : done ++ [c] = (pre ++ c' :: post') ++ [x] := by simpa using he
      exact (List.append_inj' he' rfl).1
  by_cases h : windowHash (factor t c.1 c.2) ∈ st.1
  · rw [if_pos h]
    obtain ⟨d, hd, hde⟩ := (inv.visited _).1 h
    refine ⟨?_, ?_, inv.distinct, ?_, ?_⟩
    · intro x
      rw [inv.visited]
      constructor
      · rintro ⟨y, hy, rfl⟩; exact ⟨y, by simp [hy], rfl⟩
      · rintro ⟨y, hy, rfl⟩
        rcases List.mem_append.1 hy with hy | hy
        · exact ⟨y, hy, rfl⟩
        · obtain rfl := List.mem_singleton.1 hy
          exact ⟨d, hd, hde⟩
    · intro a ha; have := inv.sound a ha; exact ⟨by simp [this.1], this.2⟩
    · intro pre c' post he hpre a ha
      rcases hsplit pre post c' he with ⟨rfl, rfl, rfl⟩ | ⟨post', hp⟩
      · exact absurd hde (hpre d hd)
      · exact inv.complete pre c' post' hp hpre a ha
    · intro a ha
      obtain ⟨pre, post, he, hp⟩ := inv.first a ha
      exact ⟨pre, post ++ [c], by simp [he], hp⟩
  · rw [if_neg h]
    have hnew : ∀ a ∈ (tryExtractTandem t c.1 c.2).toList, tryExtractTandem t c.1 c.2 = some a ∧ a.firstPos = c.1 ∧ a.length = c.2 := by
      intro a ha
      have ha' : tryExtractTandem t c.1 c.2 = some a := by simpa using ha
      have := (tryExtractTandem_iff t c.1 c.2 hl hb a).1 ha'
      exact ⟨ha', this.1, this.2.1⟩
    have hnot : ∀ d ∈ done, windowHash (factor t d.1 d.2) ≠ windowHash (factor t c.1 c.2) := by
      intro d hd he; exact h ((inv.visited _).2 ⟨d, hd, he⟩)
    refine ⟨?_, ?_, ?_, ?_, ?_⟩
    · intro x
      simp only [List.mem_cons, inv.visited, List.mem_append, List.not_mem_nil, or_false]
      constructor
      · rintro (rfl | ⟨y, hy, rfl⟩)
        · exact ⟨c, Or.inr rfl, rfl⟩
        · exact ⟨y, Or.inl hy, rfl⟩
      · rintro ⟨y, hy | rfl, rfl⟩
        · exact Or.inr ⟨y, hy, rfl⟩
        · exact Or.inl rfl
    · intro a ha
      rcases List.mem_append.1 ha with ha | ha
      · have := inv.sound a ha; exact ⟨by simp [this.1], this.2⟩
      · obtain ⟨h1, h2, h3⟩ := hnew a ha
        rw [h2, h3]; exact ⟨by simp, h1⟩
    · rw [List.pairwise_append]
      refine ⟨inv.distinct, ?_, ?_⟩
      · cases tryExtractTandem t c.1 c.2 <;> simp
      · intro a ha b hb'
        obtain ⟨_, h2, h3⟩ := hnew b hb'
        rw [h2, h3]
        exact hnot _ (inv.sound a ha).1
    · intro pre c' post he hpre a ha
      rcases hsplit pre post c' he with ⟨rfl, rfl, rfl⟩ | ⟨post', hp⟩
      · simp [ha]
      · exact List.mem_append_left _ (inv.complete pre c' post' hp hpre a ha)
    · intro a ha
      rcases List.mem_append.1 ha with ha | ha
      · obtain ⟨pre, post, he, hp⟩ := inv.first a ha
        exact ⟨pre, post ++ [c], by simp [he], hp⟩
      · obtain ⟨_, h2, h3⟩ := hnew a ha
        rw [h2, h3]
        exact ⟨done, [], rfl, hnot⟩

theorem tandemInv_fold (t : List Int) (cs done : List (Nat × Nat)) (st : List Int × List Tandem)
    (hb : ∀ c ∈ cs, 0 < c.2 ∧ c.1 + c.2 ≤ t.length)
    (inv : TandemInv t done st) : TandemInv t (done ++ cs) (cs.foldl (tandemStepP t) st) := by
  induction cs generalizing done st with
  | nil => simpa using inv
  | cons c cs ih =>
    simp only [List.foldl_cons]
    have := ih (done ++ [c]) (tandemStepP t st c) (fun c' hc' => hb c' (by simp [hc']))
      (tandemInv_step t done st c (hb c (by simp)).1 (hb c (by simp)).2 inv)
    simpa using this

theorem tandemInv_all (t : List Int) (maxLength : Nat) :
    TandemInv t (tandemCandidates t maxLength) ((tandemCandidates t maxLength).foldl (tandemStepP t) ([], [])) := by
  have := tandemInv_fold t (tandemCandidates t maxLength) [] ([], []) (by
    intro c hc; rw [mem_tandemCandidates] at hc; omega)
    ⟨by simp, by simp, by simp, by simp, by simp⟩
  simpa using this

end Ficus

namespace Ficus
open Spec

theorem factor_map {α β : Type} (f : α → β) (t : List α) (i l : Nat) :
    factor (t.map f) i l = (factor t i l).map f := by
  simp [factor, List.map_take, List.map_drop]

theorem map_eq_iff_of_injOn {α β : Type} (f : α → β) (s : Set α) (hf : Set.InjOn f s) (u v : List α)
    (hu : ∀ x ∈ u, x ∈ s) (hv : ∀ x ∈ v, x ∈ s) : u.map f = v.map f ↔ u = v := by
  constructor
  · intro h
    induction u generalizing v with
    | nil => cases v <;> simp_all
    | cons a u ih =>
      cases v with
      | nil => simp at h
      | cons b v =>
        simp only [List.map_cons, List.cons.injEq] at h
        rw [hf (hu a (by simp)) (hv b (by simp)) h.1,
          ih v (fun x hx => hu x (by simp [hx])) (fun x hx => hv x (by simp [hx])) h.2]
  · rintro rfl; rfl

theorem mem_of_mem_factor {α : Type} {t : List α} {i l : Nat} {x : α} (h : x ∈ factor t i l) : x ∈ t :=
  List.mem_of_mem_drop (List.mem_of_mem_take h)

theorem factor_map_eq_iff {α β : Type} (f : α → β) (t : List α) (hf : Set.InjOn f {x | x ∈ t}) (i l j m : Nat) :
    factor (t.map f) i l = factor (t.map f) j m ↔ factor t i l = factor t j m := by
  rw [factor_map, factor_map, map_eq_iff_of_injOn f _ hf]
  · intro x hx; exact mem_of_mem_factor hx
  · intro x hx; exact mem_of_mem_factor hx

theorem Repeats_map_iff {α β : Type} (f : α → β) (t : List α) (hf : Set.InjOn f {x | x ∈ t}) (i l k : Nat) :
    Repeats (t.map f) i l k ↔ Repeats t i l k := by
  induction k with
  | zero => simp [Repeats, factor, wordPow]
  | succ k ih => rw [Repeats_succ, Repeats_succ, ih, List.length_map, factor_map_eq_iff f t hf]

theorem mem_maximalP_sound (t : List Int) (maxLength : Nat) (a : Tandem) (h : a ∈ maximalP t maxLength) :
    2 ≤ a.length ∧ a.length < maxLength ∧ 2 ≤ a.repeatCount ∧ Repeats t a.firstPos a.length a.repeatCount ∧
      ¬ Repeats t a.firstPos a.length (a.repeatCount + 1) := by
  have h1 := (tandemInv_all t maxLength).sound a h
  have h2 := (mem_tandemCandidates t maxLength _).1 h1.1
  simp only at h2
  have h3 := (tryExtractTandem_iff t a.firstPos a.length (by omega) (by omega) a).1 h1.2
  exact ⟨h2.1, h2.2.1, h3.2.2.1, h3.2.2.2⟩

theorem maximalP_distinct (t : List Int) (maxLength : Nat) :
    (maximalP t maxLength).Pairwise
      (fun a b => factor t a.firstPos a.length ≠ factor t b.firstPos b.length) := by
  refine (tandemInv_all t maxLength).distinct.imp ?_
  intro a b h he; exact h (by rw [he])

theorem maximalP_first (t : List Int) (maxLength : Nat) (a : Tandem) (h : a ∈ maximalP t maxLength) :
    FirstOccurrence t a.firstPos a.length := by
  have inv := tandemInv_all t maxLength
  intro j hj he
  obtain ⟨pre, post, hs, hp⟩ := inv.first a h
  have h1 := (inv.sound a h).1
  obtain ⟨pre', post', hs', hlt, _, _⟩ := tandemCandidates_split t maxLength a.firstPos a.length h1
  -- the earlier candidate comes before the first split as well
  have hmem : (j, a.length) ∈ pre' := (hlt j).2 hj
  rw [hs] at hs'
  rcases List.append_eq_append_iff.1 hs' with ⟨m, hm1, hm2⟩ | ⟨m, hm1, hm2⟩
  · -- pre' = pre ++ m
    cases m with
    | nil =>
      simp only [List.append_nil] at hm1
      subst hm1
      exact hp _ hmem (by simp only; rw [he])
    | cons x m =>
      simp only [List.cons_append, List.cons.injEq] at hm2
      have : (a.firstPos, a.length) ∈ pre' := by rw [hm1]; simp [hm2.1]
      exact absurd ((hlt _).1 this) (lt_irrefl _)
  · have : (j, a.length) ∈ pre := by rw [hm1]; simp [hmem]
    exact hp _ this (by simp only; rw [he])

theorem mem_maximalP_of (t : List Int) (hf : FaithfulHash t) (maxLength : Nat) (a : Tandem) (h1 : 2 ≤ a.length)
    (h2 : a.length < maxLength) (h3 : 2 ≤ a.repeatCount) (h4 : Repeats t a.firstPos a.length a.repeatCount)
    (h5 : ¬ Repeats t a.firstPos a.length (a.repeatCount + 1)) (h6 : FirstOccurrence t a.firstPos a.length) :
    a ∈ maximalP t maxLength := by
  have inv := tandemInv_all t maxLength
  have hb : a.firstPos + 2 * a.length ≤ t.length := (Repeats_mono t _ _ _ 2 h3 h4).1
  have hc : (a.firstPos, a.length) ∈ tandemCandidates t maxLength := by
    rw [mem_tandemCandidates]; simp only; omega
  obtain ⟨pre, post, hs, hlt, hle, _⟩ := tandemCandidates_split t maxLength a.firstPos a.length hc
  refine inv.complete pre _ post hs ?_ a ((tryExtractTandem_iff t _ _ (by omega) (by omega) a).2
    ⟨rfl, rfl, h3, h4, h5⟩)
  rintro ⟨j, m⟩ hj he
  simp only at he
  have hj' := (mem_tandemCandidates t maxLength (j, m)).1 (by rw [hs]; simp [hj])
  simp only at hj'
  have he' := hf j m a.firstPos a.length (by omega) (by omega) he
  have hm : m = a.length := by
    have := congrArg List.length he'
    rwa [factor_length t j m (by omega), factor_length t _ _ (by omega)] at this
  subst hm
  exact h6 j ((hlt j).1 hj) he'

theorem isPrimitiveTandem_iff (t : List Int) (a : Tandem) (hb : a.firstPos + a.length ≤ t.length) :
    isPrimitiveTandem t a = true ↔
      ∀ m, 2 ≤ m → m ≤ (a.length + 1) / 2 → ¬ Repeats t a.firstPos m 2 := by
  unfold isPrimitiveTandem
  simp only [List.all_eq_true, List.mem_range'_1, Option.isNone_iff_eq_none]
  constructor
  · intro h m h1 h2
    exact (tryExtractTandem_none_iff t a.firstPos m (by omega) (by omega)).1 (h m (by omega))
  · intro h m hm
    exact (tryExtractTandem_none_iff t a.firstPos m (by omega) (by omega)).2 (h m (by omega) (by omega))

theorem findPrimitiveTandem_ok {E : Type} (log : Log E) (maxLength : Nat) (ext : E → String) :
    findPrimitiveTandem log maxLength ext =
      .ok ((hashTraces ext log).map (fun t => (maximalP t maxLength).filter (isPrimitiveTandem t))) := by
  unfold findPrimitiveTandem findMaximalTandem
  rw [maximalTandemOfHashes_ok]
  simp only [Except.map, Except.ok.injEq]
  induction hashTraces ext log with
  | nil => rfl
  | cons t ts ih => simp [ih]

end Ficus
