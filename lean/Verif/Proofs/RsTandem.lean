import Verif.Model.RsTandem
import Verif.Spec.RsTandem
import Verif.Proofs.Tandem
import Verif.Proofs.RsMutations

/-! Lemmas for the search for tandem arrays of the backend. -/

namespace Ficus.Rs
open Spec

theorem sameBlock_iff (t : List Nat) (cur start n i : Nat) :
    sameBlock t cur start n i = true ↔ ∀ j, i ≤ j → j < i + n → t[cur + j]? = t[start + j]? := by
  induction n generalizing i with
  | zero => simp [sameBlock]; omega
  | succ n ih =>
    unfold sameBlock
    by_cases h : t[cur + i]? = t[start + i]?
    · rw [if_neg (by simpa using h), ih]
      constructor
      · intro hj j h1 h2
        rcases Nat.lt_or_ge i j with h3 | h3
        · exact hj j h3 (by omega)
        · have : j = i := by omega
          subst this; exact h
      · intro hj j h1 h2; exact hj j (by omega) (by omega)
    · rw [if_pos h]
      simp only [Bool.false_eq_true, false_iff]
      intro hj; exact h (hj i (le_refl _) (by omega))

theorem sameBlock_factor (t : List Nat) (cur start n : Nat) :
    sameBlock t cur start n 0 = true ↔ factor t cur n = factor t start n := by
  rw [sameBlock_iff]
  unfold factor
  constructor
  · intro h
    apply List.ext_getElem?
    intro j
    by_cases hj : j < n
    · simp [hj, h j (by omega) (by omega)]
    · simp [hj]
  · intro h j _ hj
    have := congrArg (fun l => l[j]?) h
    have hj : j < n := by omega
    simpa [List.getElem?_take, hj] using this

theorem repeatLoop_spec (t : List Nat) (start l : Nat) (hl : 0 < l) (fuel n : Nat)
    (hf : t.length < start + n * l + (fuel + 1) * l) (hn : Repeats t start l n) :
    let m := repeatLoop t start l fuel (start + n * l) n
    n ≤ m ∧ Repeats t start l m ∧ ¬ Repeats t start l (m + 1) := by
  induction fuel generalizing n with
  | zero =>
    simp only [repeatLoop]
    refine ⟨le_refl _, hn, fun h => ?_⟩
    have := h.1
    rw [Nat.add_mul] at this; omega
  | succ fuel ih =>
    simp only [repeatLoop]
    by_cases h1 : start + n * l + l - 1 ≥ t.length
    · rw [if_pos h1]
      refine ⟨le_refl _, hn, fun h => ?_⟩
      have := h.1
      rw [Nat.add_mul] at this; omega
    · rw [if_neg h1]
      by_cases h2 : sameBlock t (start + n * l) start l 0 = true
      · rw [if_pos h2]
        have h3 : Repeats t start l (n + 1) := by
          rw [Repeats_succ]
          refine ⟨hn, ?_, (sameBlock_factor ..).1 h2⟩
          rw [Nat.add_mul]; omega
        have := ih (n + 1) (by rw [Nat.add_mul] at hf ⊢; omega) h3
        rw [show start + n * l + l = start + (n + 1) * l by ring]
        exact ⟨by omega, this.2⟩
      · rw [if_neg h2]
        refine ⟨le_refl _, hn, fun h => h2 ?_⟩
        rw [sameBlock_factor]
        exact ((Repeats_succ t start l n).1 h).2.2

theorem repeats_le {α : Type} (t : List α) (i l k : Nat) (hl : 0 < l) (h : Repeats t i l k) : k ≤ t.length := by
  have h1 := h.1
  have : k ≤ k * l := Nat.le_mul_of_pos_right k hl
  omega

/-- The greatest number of repetitions. -/
theorem greatest_eq {α : Type} [DecidableEq α] (t : List α) (i l k : Nat) (hl : 0 < l) (h1 : Repeats t i l k)
    (h2 : ¬ Repeats t i l (k + 1)) : Nat.findGreatest (fun k => Repeats t i l k) t.length = k := by
  rw [Nat.findGreatest_eq_iff]
  refine ⟨repeats_le t i l k hl h1, fun _ => h1, ?_⟩
  intro n hn _ h
  exact h2 (Repeats_mono t i l n (k + 1) hn h)

theorem extractTandem_eq (t : List Nat) (i l : Nat) (hl : 0 < l) (hb : i + l ≤ t.length) :
    extractTandem t i l = if Repeats t i l 2 then some ⟨i, l, Nat.findGreatest (fun k => Repeats t i l k) t.length⟩
      else none := by
  have hs := repeatLoop_spec t i l hl t.length 1 (by
    have : t.length + 1 ≤ (t.length + 1) * l := Nat.le_mul_of_pos_right _ hl
    omega) (Repeats_one t i l hb)
  simp only [one_mul] at hs
  unfold extractTandem
  simp only
  obtain ⟨h1, h2, h3⟩ := hs
  rw [greatest_eq t i l _ hl h2 h3]
  by_cases h : Repeats t i l 2
  · rw [if_pos h, if_pos]
    by_contra hc
    have : repeatLoop t i l t.length (i + l) 1 = 1 := by omega
    rw [this] at h3
    exact h3 h
  · rw [if_neg h, if_neg]
    intro hc
    exact h (Repeats_mono t i l _ 2 hc h2)

theorem tryExtractTandem_eq (t : List Int) (i l : Nat) (hl : 0 < l) (hb : i + l ≤ t.length) :
    tryExtractTandem t i l = if Repeats t i l 2 then some ⟨i, l, Nat.findGreatest (fun k => Repeats t i l k) t.length⟩
      else none := by
  by_cases h : Repeats t i l 2
  · rw [if_pos h]
    cases he : tryExtractTandem t i l with
    | none => exact absurd h ((tryExtractTandem_none_iff t i l hl hb).1 he)
    | some a =>
      obtain ⟨h1, h2, h3, h4, h5⟩ := (tryExtractTandem_iff t i l hl hb a).1 he
      rw [greatest_eq t i l _ hl h4 h5]
      cases a; simp_all
  · rw [if_neg h, tryExtractTandem_none_iff t i l hl hb]; exact h

section fold
variable {C K A : Type} [DecidableEq K]

/-- The elements whose key was not seen before. -/
def unseen (key : C → K) : List K → List C → List C
  | _, [] => []
  | seen, c :: cs => if key c ∈ seen then unseen key seen cs else c :: unseen key (key c :: seen) cs

theorem unseen_sublist (key : C → K) (seen : List K) (cs : List C) : (unseen key seen cs).Sublist cs := by
  induction cs generalizing seen with
  | nil => exact .slnil
  | cons c cs ih =>
    unfold unseen
    split
    · exact (ih seen).cons c
    · exact (ih _).cons_cons c

/-- A loop that looks at elements with new keys only. -/
theorem fold_unseen (key : C → K) (f : C → Option A) (step : List K × List A → C → List K × List A)
    (hstep : ∀ st c, step st c = if key c ∈ st.1 then st else (key c :: st.1, st.2 ++ (f c).toList))
    (cs : List C) (seen : List K) (acc : List A) :
    (cs.foldl step (seen, acc)).2 = acc ++ (unseen key seen cs).filterMap f := by
  induction cs generalizing seen acc with
  | nil => simp [unseen]
  | cons c cs ih =>
    rw [List.foldl_cons, hstep]
    unfold unseen
    by_cases h : key c ∈ seen
    · rw [if_pos h, if_pos h, ih]
    · rw [if_neg h, if_neg h, ih]
      cases hf : f c <;> simp [hf]

/-- If exactly the elements with an equal key before them do not satisfy `P`, those that do are looked at. -/
theorem unseen_filter (key : C → K) (P : C → Prop) [DecidablePred P] (cs : List C)
    (h : ∀ pre c post, cs = pre ++ c :: post → ((∃ d ∈ pre, key d = key c) ↔ ¬ P c)) :
    unseen key [] cs = cs.filter (fun c => decide (P c)) := by
  have : ∀ (done rest : List C) (seen : List K), cs = done ++ rest → (∀ k, k ∈ seen ↔ ∃ d ∈ done, key d = k) →
      unseen key seen rest = rest.filter (fun c => decide (P c)) := by
    intro done rest
    induction rest generalizing done with
    | nil => intro seen _ _; rfl
    | cons c rest ih =>
      intro seen hcs hseen
      have hc := h done c rest hcs
      unfold unseen
      have hsplit : cs = (done ++ [c]) ++ rest := by simp [hcs]
      by_cases hP : P c
      · have hn : ¬ ∃ d ∈ done, key d = key c := by rw [hc]; simpa using hP
        rw [if_neg (fun hk => hn ((hseen _).1 hk)), List.filter_cons_of_pos (by simpa using hP)]
        congr 1
        refine ih (done ++ [c]) _ hsplit ?_
        intro k
        simp only [List.mem_cons, hseen, List.mem_append, List.not_mem_nil, or_false]
        constructor
        · rintro (rfl | ⟨d, hd, rfl⟩)
          · exact ⟨c, Or.inr rfl, rfl⟩
          · exact ⟨d, Or.inl hd, rfl⟩
        · rintro ⟨d, hd | rfl, rfl⟩
          · exact Or.inr ⟨d, hd, rfl⟩
          · exact Or.inl rfl
      · have hp : ∃ d ∈ done, key d = key c := hc.2 hP
        rw [if_pos ((hseen _).2 hp), List.filter_cons_of_neg (by simpa using hP)]
        refine ih (done ++ [c]) _ hsplit ?_
        intro k
        rw [hseen]
        simp only [List.mem_append, List.mem_singleton]
        constructor
        · rintro ⟨d, hd, rfl⟩; exact ⟨d, Or.inl hd, rfl⟩
        · rintro ⟨d, hd | rfl, rfl⟩
          · exact ⟨d, hd, rfl⟩
          · exact hp
  exact this [] cs [] rfl (by simp)
end fold

/-- Before, by length and then by start. -/
def Earlier (c d : Nat × Nat) : Prop := c.2 < d.2 ∨ (c.2 = d.2 ∧ c.1 < d.1)

theorem grid_sorted (ls : List Nat) (hls : ls.Pairwise (· < ·)) (n : Nat → Nat) :
    (ls.flatMap (fun l => (List.range (n l)).map (fun i => (i, l)))).Pairwise Earlier := by
  rw [List.pairwise_flatMap]
  refine ⟨?_, ?_⟩
  · intro l _
    rw [List.pairwise_map]
    exact List.pairwise_lt_range.imp (fun h => Or.inr ⟨rfl, h⟩)
  · refine hls.imp ?_
    intro l m h c hc d hd
    obtain ⟨i, _, rfl⟩ := List.mem_map.1 hc
    obtain ⟨j, _, rfl⟩ := List.mem_map.1 hd
    exact Or.inl h

theorem windows_sorted (t : List Nat) (maxLength : Nat) : (windows t maxLength).Pairwise Earlier :=
  grid_sorted _ List.pairwise_lt_range' _

theorem candidates_sorted (t : List Int) (maxLength : Nat) : (tandemCandidates t maxLength).Pairwise Earlier :=
  grid_sorted _ List.pairwise_lt_range' _

theorem mem_windows (t : List Nat) (maxLength : Nat) (c : Nat × Nat) :
    c ∈ windows t maxLength ↔ 2 ≤ c.2 ∧ c.2 < maxLength ∧ c.1 + c.2 < t.length := by
  obtain ⟨i, l⟩ := c
  simp only [windows, List.mem_flatMap, List.mem_range'_1, List.mem_map, List.mem_range, Prod.mk.injEq]
  constructor
  · rintro ⟨a, ha, b, hb, rfl, rfl⟩; omega
  · rintro ⟨h1, h2, h3⟩; exact ⟨l, by omega, i, by omega, rfl, rfl⟩

/-- In a sorted list of windows, a window with the same factor comes before exactly if the factor occurs before. -/
theorem earlier_window {α K : Type} (t : List α) (maxLength : Nat) (cs : List (Nat × Nat)) (hs : cs.Pairwise Earlier)
    (hm : ∀ c, c ∈ cs ↔ 2 ≤ c.2 ∧ c.2 < maxLength ∧ c.1 + c.2 < t.length) (key : Nat × Nat → K)
    (hkey : ∀ c ∈ cs, ∀ d ∈ cs, key c = key d ↔ factor t c.1 c.2 = factor t d.1 d.2)
    (pre : List (Nat × Nat)) (c : Nat × Nat) (post : List (Nat × Nat)) (he : cs = pre ++ c :: post) :
    (∃ d ∈ pre, key d = key c) ↔ ¬ FirstOccurrence t c.1 c.2 := by
  have hcm : c ∈ cs := by rw [he]; simp
  have hc := (hm c).1 hcm
  rw [he, List.pairwise_append] at hs
  constructor
  · rintro ⟨d, hd, hk⟩ hf
    have hdm : d ∈ cs := by rw [he]; simp [hd]
    have hdb := (hm d).1 hdm
    have hfe := (hkey d hdm c hcm).1 hk
    have hl : d.2 = c.2 := by
      have := congrArg List.length hfe
      rwa [factor_length t d.1 d.2 (by omega), factor_length t c.1 c.2 (by omega)] at this
    have := hs.2.2 d hd c (by simp)
    rcases this with h | ⟨_, h⟩
    · omega
    · exact hf d.1 h (by rw [← hfe, hl])
  · intro hf
    unfold FirstOccurrence at hf
    push Not at hf
    obtain ⟨j, hj, hje⟩ := hf
    have hjm : ((j, c.2) : Nat × Nat) ∈ cs := (hm _).2 ⟨hc.1, hc.2.1, by simp only; omega⟩
    refine ⟨(j, c.2), ?_, (hkey _ hjm c hcm).2 hje⟩
    rw [he, List.mem_append, List.mem_cons] at hjm
    rcases hjm with h | h | h
    · exact h
    · have := congrArg Prod.fst h; simp only at this; omega
    · have := (List.pairwise_cons.1 hs.2.1).1 _ h
      rcases this with h' | ⟨_, h'⟩
      · simp only at h'; omega
      · simp only at h'; omega

/-- A sorted list of windows, filtered and reported, is the list of the first tandem arrays. -/
theorem reports_eq {α : Type} [DecidableEq α] (t : List α) (maxLength : Nat) (cs : List (Nat × Nat))
    (hs : cs.Pairwise Earlier) (hm : ∀ c, c ∈ cs ↔ 2 ≤ c.2 ∧ c.2 < maxLength ∧ c.1 + c.2 < t.length)
    (f : Nat × Nat → Option Tandem)
    (hf : ∀ c ∈ cs, f c = if Repeats t c.1 c.2 2 then
      some ⟨c.1, c.2, Nat.findGreatest (fun k => Repeats t c.1 c.2 k) t.length⟩ else none) :
    (cs.filter (fun c => decide (FirstOccurrence t c.1 c.2))).filterMap f = firstTandems t maxLength := by
  let g : Nat × Nat → Option Tandem := fun c =>
    if 2 ≤ c.2 ∧ Repeats t c.1 c.2 2 ∧ FirstOccurrence t c.1 c.2 then
      some ⟨c.1, c.2, Nat.findGreatest (fun k => Repeats t c.1 c.2 k) t.length⟩ else none
  have hright : firstTandems t maxLength =
      ((List.range maxLength).flatMap (fun l => (List.range t.length).map (fun i => (i, l)))).filterMap g := by
    unfold firstTandems
    rw [List.filterMap_flatMap]
    congr 1
    funext l
    rw [List.filterMap_map]
    rfl
  have hleft : (cs.filter (fun c => decide (FirstOccurrence t c.1 c.2))).filterMap f = cs.filterMap g := by
    rw [List.filterMap_filter]
    apply List.filterMap_congr
    intro c hc
    have hb := (hm c).1 hc
    rw [hf c hc]
    by_cases h1 : FirstOccurrence t c.1 c.2 <;> by_cases h2 : Repeats t c.1 c.2 2 <;> simp [g, h1, h2, hb.1]
  rw [hleft, hright]
  -- both lists of windows, restricted to those with a report, are sorted and have the same elements
  have key : ∀ l : List (Nat × Nat), l.filterMap g = (l.filter (fun c => (g c).isSome)).filterMap g := by
    intro l
    rw [List.filterMap_filter]
    apply List.filterMap_congr
    intro c _
    cases hg : g c <;> simp
  rw [key cs, key ((List.range maxLength).flatMap _)]
  congr 1
  have hirr : ∀ a b : Nat × Nat, Earlier a b → Earlier b a → False := by
    rintro a b (h | ⟨h, h'⟩) (k | ⟨k, k'⟩) <;> omega
  have s1 : (cs.filter (fun c => (g c).isSome)).Pairwise Earlier := hs.sublist List.filter_sublist
  have s2 : (((List.range maxLength).flatMap (fun l => (List.range t.length).map (fun i => (i, l)))).filter
      (fun c => (g c).isSome)).Pairwise Earlier :=
    (grid_sorted _ List.pairwise_lt_range (fun _ => t.length)).sublist List.filter_sublist
  refine List.Perm.eq_of_pairwise (le := Earlier) (fun a b _ _ h1 h2 => (hirr a b h1 h2).elim) s1 s2 ?_
  have hne : ∀ a b : Nat × Nat, Earlier a b → a ≠ b := by
    rintro a b h rfl; exact hirr a a h h
  refine (List.perm_ext_iff_of_nodup (s1.imp (fun h => hne _ _ h)) (s2.imp (fun h => hne _ _ h))).2 ?_
  rintro ⟨i, l⟩
  simp only [List.mem_filter, hm, List.mem_flatMap, List.mem_range, List.mem_map, Prod.mk.injEq]
  constructor
  · rintro ⟨⟨h1, h2, h3⟩, h4⟩
    exact ⟨⟨l, h2, i, by omega, rfl, rfl⟩, h4⟩
  · rintro ⟨⟨l', h2, i', hi, rfl, rfl⟩, h4⟩
    refine ⟨?_, h4⟩
    by_cases h5 : 2 ≤ l' ∧ Repeats t i' l' 2 ∧ FirstOccurrence t i' l'
    · have := h5.2.1.1
      refine ⟨h5.1, h2, ?_⟩
      omega
    · simp [g, h5] at h4

theorem maximalOfTrace_eq (hash : List Nat → Option Nat) (t : List Nat) (maxLength : Nat) (hh : TellsFactors hash t) :
    maximalOfTrace hash t maxLength = some (firstTandems t maxLength) := by
  let key : Nat × Nat → Nat := fun c => (hash (factor t c.1 c.2)).getD 0
  let step : List Nat × List Tandem → Nat × Nat → List Nat × List Tandem := fun st c =>
    if key c ∈ st.1 then st else (key c :: st.1, st.2 ++ (extractTandem t c.1 c.2).toList)
  have hdef : ∀ c ∈ windows t maxLength, hash (factor t c.1 c.2) = some (key c) := by
    intro c hc
    rw [mem_windows] at hc
    have := hh.1 c.1 c.2 (by omega)
    cases h : hash (factor t c.1 c.2) with
    | none => exact absurd h this
    | some x => simp [key, h]
  have hfold : ∀ (cs : List (Nat × Nat)) (st : List Nat × List Tandem), (∀ c ∈ cs, c ∈ windows t maxLength) →
      cs.foldlM (visitWindow hash t) st = some (cs.foldl step st) := by
    intro cs
    induction cs with
    | nil => intro st _; rfl
    | cons c cs ih =>
      intro st hcs
      have h1 : visitWindow hash t st c = some (step st c) := by
        unfold visitWindow
        have := hdef c (hcs c (by simp))
        unfold factor at this
        rw [this]
        simp only [step, Option.bind_eq_bind, Option.bind_some, Option.pure_def]
        by_cases hk : key c ∈ st.1
        · rw [if_pos hk, if_pos hk]
        · rw [if_neg hk, if_neg hk]
          cases extractTandem t c.1 c.2 <;> simp
      rw [List.foldlM_cons, h1]
      exact ih _ (fun d hd => hcs d (by simp [hd]))
  unfold maximalOfTrace
  rw [hfold _ _ (fun _ h => h)]
  simp only [Option.bind_eq_bind, Option.bind_some, Option.pure_def, Option.some.injEq]
  rw [fold_unseen key (fun c => extractTandem t c.1 c.2) step (fun _ _ => rfl), List.nil_append]
  rw [unseen_filter key (fun c => FirstOccurrence t c.1 c.2)]
  · refine reports_eq t maxLength _ (windows_sorted t maxLength) (mem_windows t maxLength) _ ?_
    intro c hc
    rw [mem_windows] at hc
    exact extractTandem_eq t c.1 c.2 (by omega) (by omega)
  · refine earlier_window t maxLength _ (windows_sorted t maxLength) (mem_windows t maxLength) key ?_
    intro c hc d hd
    have h1 := hdef c hc
    have h2 := hdef d hd
    rw [mem_windows] at hc hd
    constructor
    · intro h
      exact hh.2 c.1 c.2 d.1 d.2 (by omega) (by omega) (by rw [h1, h2, h])
    · intro h
      rw [h, h2] at h1
      exact (Option.some.inj h1).symm

/-- The same for the local search. -/
theorem maximalP_eq (t : List Int) (maxLength : Nat) (hf : FaithfulHash t) :
    maximalP t maxLength = firstTandems t maxLength := by
  unfold maximalP
  rw [fold_unseen (fun c : Nat × Nat => windowHash (factor t c.1 c.2)) (fun c => tryExtractTandem t c.1 c.2) (tandemStepP t)
    (fun _ _ => rfl), List.nil_append]
  rw [unseen_filter _ (fun c => FirstOccurrence t c.1 c.2)]
  · refine reports_eq t maxLength _ (candidates_sorted t maxLength) (mem_tandemCandidates t maxLength) _ ?_
    intro c hc
    rw [mem_tandemCandidates] at hc
    exact tryExtractTandem_eq t c.1 c.2 (by omega) (by omega)
  · refine earlier_window t maxLength _ (candidates_sorted t maxLength) (mem_tandemCandidates t maxLength) _ ?_
    intro c hc d hd
    rw [mem_tandemCandidates] at hc hd
    constructor
    · intro h; exact hf c.1 c.2 d.1 d.2 (by omega) (by omega) h
    · intro h; simp only [h]

/-- Renaming elements apart does not change the reports. -/
theorem firstTandems_map {α β : Type} [DecidableEq α] [DecidableEq β] (f : α → β) (t : List α)
    (hf : Set.InjOn f {x | x ∈ t}) (maxLength : Nat) : firstTandems (t.map f) maxLength = firstTandems t maxLength := by
  unfold firstTandems
  rw [List.length_map]
  congr 1
  funext l
  apply List.filterMap_congr
  intro i _
  have h1 : FirstOccurrence (t.map f) i l ↔ FirstOccurrence t i l := by
    unfold FirstOccurrence
    simp only [ne_eq, factor_map_eq_iff f t hf]
  simp only [h1, Repeats_map_iff f t hf]

theorem isPrimitive_iff (t : List Nat) (a : Tandem) (hb : a.firstPos + a.length ≤ t.length) :
    isPrimitive t a = true ↔ NoInnerSquare t a := by
  unfold isPrimitive NoInnerSquare
  simp only [List.all_eq_true, List.mem_range'_1, Option.isNone_iff_eq_none]
  have : ∀ m, 2 ≤ m → m ≤ (a.length + 1) / 2 → (extractTandem t a.firstPos m = none ↔ ¬ Repeats t a.firstPos m 2) := by
    intro m h1 h2
    rw [extractTandem_eq t a.firstPos m (by omega) (by omega)]
    split <;> simp_all
  constructor
  · intro h m h1 h2; exact (this m h1 h2).1 (h m (by omega))
  · intro h m hm; exact (this m (by omega) (by omega)).2 (h m (by omega) (by omega))

theorem firstTandems_inside {α : Type} [DecidableEq α] (t : List α) (maxLength : Nat) (a : Tandem)
    (h : a ∈ firstTandems t maxLength) : 2 ≤ a.length ∧ a.firstPos + a.length ≤ t.length := by
  unfold firstTandems at h
  simp only [List.mem_flatMap, List.mem_filterMap, List.mem_range] at h
  obtain ⟨l, _, i, _, h⟩ := h
  split at h
  · rename_i hc
    cases h
    have := hc.2.1.1
    simp only
    omega
  · cases h

end Ficus.Rs
