import Verif.Proofs.RsTandem
import Verif.Props.Tandem
import Verif.Props.RsMutations

/-! Property C129: the tandem arrays found by the backend. -/

namespace Ficus.Rs
open Spec
variable {P : Type}

theorem hashName_eq (hash : String → Nat) (find : String → Option (Option Match)) (s : String) :
    hashName hash find s = hash (classOf find s) := by
  unfold hashName classOf upTo
  cases find s with
  | none => rfl
  | some f =>
    cases f with
    | none => rfl
    | some m =>
      obtain ⟨i, j⟩ := m
      cases i with
      | zero => rfl
      | succ i => simp

theorem hashedLog_eq (hash : String → Nat) (find : Option (String → Option (Option Match))) (log : List (List (REvent P))) :
    hashedLog hash find log = (classLog find log).map (fun t => t.map hash) := by
  unfold hashedLog classLog
  rw [List.map_map]
  apply List.map_congr_left
  intro t _
  simp only [Function.comp_apply, List.map_map]
  apply List.map_congr_left
  intro e _
  cases find with
  | none => rfl
  | some f => simp only [Function.comp_apply, hashName_eq]

/-- C129a: if neither the hash of classes nor the hash of words of hashes has collisions in a trace, the maximal tandem arrays
found are exactly those with blocks of 2 to less than `maxLength` classes that start where their block occurs first, each with
its greatest number of repetitions, ordered by the length of the block and then by the start. (Without the assumption on the
hashes reports get lost, see `C129_collision`.) -/
theorem C129_reports_partial (hash : String → Nat) (wordHash : List Nat → Option Nat)
    (find : Option (String → Option (Option Match))) (log : List (List (REvent P))) (maxLength : Nat)
    (hn : ∀ t ∈ classLog find log, Set.InjOn hash {x | x ∈ t})
    (hw : ∀ t ∈ hashedLog hash find log, TellsFactors wordHash t) :
    maximalTandems wordHash (hashedLog hash find log) maxLength =
      some ((classLog find log).map (fun t => firstTandems t maxLength)) := by
  unfold maximalTandems
  rw [mapM_total _ (fun t => firstTandems t maxLength) _ (fun t ht => maximalOfTrace_eq wordHash t maxLength (hw t ht)),
    hashedLog_eq, List.map_map]
  congr 1
  apply List.map_congr_left
  intro t ht
  exact firstTandems_map hash t (hn t ht) maxLength

theorem noInnerSquare_map {α β : Type} (f : α → β) (t : List α) (hf : Set.InjOn f {x | x ∈ t})
    (a : Tandem) : NoInnerSquare (t.map f) a ↔ NoInnerSquare t a := by
  unfold NoInnerSquare
  simp only [Repeats_map_iff f t hf]

/-- C129b: under the same assumptions the primitive tandem arrays found are those of them at whose start no square of a word of
2 classes up to half of the block (rounded up) begins. -/
theorem C129_primitive_partial (hash : String → Nat) (wordHash : List Nat → Option Nat)
    (find : Option (String → Option (Option Match))) (log : List (List (REvent P))) (maxLength : Nat)
    (hn : ∀ t ∈ classLog find log, Set.InjOn hash {x | x ∈ t})
    (hw : ∀ t ∈ hashedLog hash find log, TellsFactors wordHash t) :
    primitiveTandems wordHash (hashedLog hash find log) maxLength =
      some ((classLog find log).map (fun t => (firstTandems t maxLength).filter (fun a => decide (NoInnerSquare t a)))) := by
  unfold primitiveTandems
  rw [C129_reports_partial hash wordHash find log maxLength hn hw, hashedLog_eq]
  simp only [Option.bind_eq_bind, Option.bind_some, Option.pure_def, Option.some.injEq]
  rw [List.zip_map', List.map_map]
  apply List.map_congr_left
  intro t ht
  simp only [Function.comp_apply]
  apply List.filter_congr
  intro a ha
  have hb := (firstTandems_inside t maxLength a ha).2
  rw [Bool.eq_iff_iff, isPrimitive_iff _ _ (by simpa using hb), decide_eq_true_eq, noInnerSquare_map hash t (hn t ht)]

/-- C25d: the local reports as a list. -/
theorem C25_reports_exactly_partial {E : Type} (log : Log E) (maxLength : Nat) (ext : E → String)
    (hn : ∀ t ∈ log.evs, DistinctHashes (t.map ext)) (hw : ∀ t ∈ log.evs, FaithfulHash ((t.map ext).map stringHash)) :
    findMaximalTandem log maxLength ext = .ok (log.evs.map (fun t => firstTandems (t.map ext) maxLength)) := by
  unfold findMaximalTandem
  rw [maximalTandemOfHashes_ok, hashTraces, List.map_map]
  congr 1
  apply List.map_congr_left
  intro t ht
  simp only [Function.comp_apply]
  have h1 : t.map (fun e => stringHash (ext e)) = (t.map ext).map stringHash := by simp
  rw [h1, maximalP_eq _ _ (hw t ht), firstTandems_map stringHash _ (hn t ht)]

theorem C26_reports_as_a_list_partial {E : Type} (log : Log E) (maxLength : Nat) (ext : E → String)
    (hn : ∀ t ∈ log.evs, DistinctHashes (t.map ext)) (hw : ∀ t ∈ log.evs, FaithfulHash ((t.map ext).map stringHash)) :
    findPrimitiveTandem log maxLength ext = .ok (log.evs.map (fun t =>
      (firstTandems (t.map ext) maxLength).filter (fun a => decide (NoInnerSquare (t.map ext) a)))) := by
  rw [findPrimitiveTandem_ok, hashTraces, List.map_map]
  congr 1
  apply List.map_congr_left
  intro t ht
  simp only [Function.comp_apply]
  have h1 : t.map (fun e => stringHash (ext e)) = (t.map ext).map stringHash := by simp
  rw [h1, maximalP_eq _ _ (hw t ht), firstTandems_map stringHash _ (hn t ht)]
  apply List.filter_congr
  intro a ha
  have hb := (firstTandems_inside _ maxLength a ha).2
  rw [Bool.eq_iff_iff, isPrimitiveTandem_iff _ _ (by simpa using hb), decide_eq_true_eq,
    ← noInnerSquare_map stringHash _ (hn t ht)]
  rfl

/-- C129c: without collisions the local search for the classes reports the same as the backend, both for maximal and for
primitive arrays. -/
theorem C129_same_as_local_partial (hash : String → Nat) (wordHash : List Nat → Option Nat)
    (find : Option (String → Option (Option Match))) (log : List (List (REvent P))) (maxLength : Nat)
    (hn : ∀ t ∈ classLog find log, Set.InjOn hash {x | x ∈ t})
    (hw : ∀ t ∈ hashedLog hash find log, TellsFactors wordHash t)
    (hn' : ∀ t ∈ classLog find log, DistinctHashes t) (hw' : ∀ t ∈ classLog find log, FaithfulHash (t.map stringHash)) :
    maximalTandems wordHash (hashedLog hash find log) maxLength =
        (findMaximalTandem (Log.ofEvs (classLog find log)) maxLength id).toOption ∧
      primitiveTandems wordHash (hashedLog hash find log) maxLength =
        (findPrimitiveTandem (Log.ofEvs (classLog find log)) maxLength id).toOption := by
  have he : (Log.ofEvs (classLog find log)).evs = classLog find log := by simp [Log.evs, Log.ofEvs, Function.comp_def]
  rw [C129_reports_partial hash wordHash find log maxLength hn hw, C129_primitive_partial hash wordHash find log maxLength hn hw,
    C25_reports_exactly_partial _ maxLength id (by rw [he]; simpa using hn') (by rw [he]; simpa using hw'),
    C26_reports_as_a_list_partial _ maxLength id (by rw [he]; simpa using hn') (by rw [he]; simpa using hw'), he]
  simp [Except.toOption]

/-! ### What holds for any hash of words -/

theorem visitWindow_some (wordHash : List Nat → Option Nat) (t : List Nat) (st : List Nat × List Tandem) (w : Nat × Nat)
    (h : Nat) (hh : wordHash (factor t w.1 w.2) = some h) :
    visitWindow wordHash t st w =
      some (if h ∈ st.1 then st else (h :: st.1, st.2 ++ (extractTandem t w.1 w.2).toList)) := by
  unfold visitWindow
  unfold factor at hh
  rw [hh]
  simp only [Option.bind_eq_bind, Option.bind_some, Option.pure_def]
  by_cases hk : h ∈ st.1
  · rw [if_pos hk, if_pos hk]
  · rw [if_neg hk, if_neg hk]
    cases extractTandem t w.1 w.2 <;> simp

theorem visitAll_none (wordHash : List Nat → Option Nat) (t : List Nat) (ws : List (Nat × Nat)) (st : List Nat × List Tandem) :
    ws.foldlM (visitWindow wordHash t) st = none ↔ ∃ w ∈ ws, wordHash (factor t w.1 w.2) = none := by
  induction ws generalizing st with
  | nil => simp
  | cons w ws ih =>
    rw [List.foldlM_cons]
    cases h : wordHash (factor t w.1 w.2) with
    | none =>
      have : visitWindow wordHash t st w = none := by
        unfold visitWindow; unfold factor at h; rw [h]; rfl
      rw [this]
      simp only [Option.bind_eq_bind, Option.bind_none, true_iff]
      exact ⟨w, by simp, h⟩
    | some x =>
      rw [visitWindow_some wordHash t st w x h]
      refine (ih _).trans ?_
      simp [h]

theorem visitAll_sublist (wordHash : List Nat → Option Nat) (t : List Nat) (ws : List (Nat × Nat))
    (st st' : List Nat × List Tandem) (h : ws.foldlM (visitWindow wordHash t) st = some st') :
    ∃ l, st'.2 = st.2 ++ l ∧ l.Sublist (ws.filterMap (fun w => extractTandem t w.1 w.2)) := by
  induction ws generalizing st with
  | nil => cases h; exact ⟨[], by simp⟩
  | cons w ws ih =>
    rw [List.foldlM_cons] at h
    cases hw : wordHash (factor t w.1 w.2) with
    | none =>
      have : visitWindow wordHash t st w = none := by
        unfold visitWindow; unfold factor at hw; rw [hw]; rfl
      rw [this] at h; cases h
    | some x =>
      rw [visitWindow_some wordHash t st w x hw] at h
      obtain ⟨l, h1, h2⟩ := ih _ h
      by_cases hx : x ∈ st.1
      · rw [if_pos hx] at h1
        refine ⟨l, h1, ?_⟩
        rw [List.filterMap_cons]
        split
        · exact h2
        · exact h2.cons _
      · rw [if_neg hx] at h1
        cases he : extractTandem t w.1 w.2 with
        | none =>
          rw [he] at h1
          exact ⟨l, by simpa using h1, by simpa [List.filterMap_cons, he] using h2⟩
        | some a =>
          rw [he] at h1
          refine ⟨a :: l, by simpa using h1, ?_⟩
          simp only [List.filterMap_cons, he]
          exact h2.cons_cons a

/-- C129d: the search panics exactly if the hash of a word does: a word of 2 to less than `maxLength` elements of a trace that
does not end the trace. -/
theorem C129_panics_iff (wordHash : List Nat → Option Nat) (log : List (List Nat)) (maxLength : Nat) :
    maximalTandems wordHash log maxLength = none ↔
      ∃ t ∈ log, ∃ i l, 2 ≤ l ∧ l < maxLength ∧ i + l < t.length ∧ wordHash (factor t i l) = none := by
  unfold maximalTandems
  rw [mapM_none]
  constructor
  · rintro ⟨t, ht, h⟩
    unfold maximalOfTrace at h
    simp only [Option.bind_eq_bind, Option.pure_def, Option.bind_eq_none_iff, reduceCtorEq, imp_false] at h
    have hn : (windows t maxLength).foldlM (visitWindow wordHash t) ([], []) = none := by
      cases hc : (windows t maxLength).foldlM (visitWindow wordHash t) ([], []) with
      | none => rfl
      | some x => exact absurd hc (h x)
    obtain ⟨w, hw, hh⟩ := (visitAll_none wordHash t _ _).1 hn
    rw [mem_windows] at hw
    exact ⟨t, ht, w.1, w.2, hw.1, hw.2.1, hw.2.2, hh⟩
  · rintro ⟨t, ht, i, l, h1, h2, h3, h4⟩
    refine ⟨t, ht, ?_⟩
    unfold maximalOfTrace
    rw [(visitAll_none wordHash t _ _).2 ⟨(i, l), (mem_windows ..).2 ⟨h1, h2, h3⟩, h4⟩]
    rfl

/-- C129e: whatever the hash of words does, every report is a tandem array of the classes, with a block of 2 to less than
`maxLength` classes, at least two repetitions and no further one. -/
theorem C129_reports_are_tandem_arrays (hash : String → Nat) (wordHash : List Nat → Option Nat)
    (find : Option (String → Option (Option Match))) (log : List (List (REvent P))) (maxLength : Nat)
    (r : List (List Tandem)) (hr : maximalTandems wordHash (hashedLog hash find log) maxLength = some r) (n : Nat)
    (t : List String) (ht : (classLog find log)[n]? = some t) (hn : Set.InjOn hash {x | x ∈ t}) (arrays : List Tandem)
    (ha : r[n]? = some arrays) (a : Tandem) (hm : a ∈ arrays) :
    2 ≤ a.length ∧ a.length < maxLength ∧ 2 ≤ a.repeatCount ∧ Repeats t a.firstPos a.length a.repeatCount ∧
      ¬ Repeats t a.firstPos a.length (a.repeatCount + 1) := by
  have hone : maximalOfTrace wordHash (t.map hash) maxLength = some arrays := by
    have hlen : ∀ (ts : List (List Nat)) (r : List (List Tandem)) (n : Nat) (u : List Nat),
        ts.mapM (fun t => maximalOfTrace wordHash t maxLength) = some r → ts[n]? = some u →
          maximalOfTrace wordHash u maxLength = r[n]? := by
      intro ts
      induction ts with
      | nil => intro r n u _ h; simp at h
      | cons x ts ih =>
        intro r n u h hu
        rw [List.mapM_cons] at h
        cases hx : maximalOfTrace wordHash x maxLength with
        | none => rw [hx] at h; cases h
        | some y =>
          rw [hx] at h
          cases hts : ts.mapM (fun t => maximalOfTrace wordHash t maxLength) with
          | none => rw [hts] at h; cases h
          | some ys =>
            rw [hts] at h
            cases h
            cases n with
            | zero => cases hu; simpa using hx
            | succ n => exact ih ys n u hts hu
    unfold maximalTandems at hr
    rw [hlen _ r n (t.map hash) hr (by rw [hashedLog_eq]; simp [ht]), ha]
  unfold maximalOfTrace at hone
  cases hf : (windows (t.map hash) maxLength).foldlM (visitWindow wordHash (t.map hash)) ([], []) with
  | none => rw [hf] at hone; cases hone
  | some st =>
    rw [hf] at hone
    cases hone
    obtain ⟨l, h1, h2⟩ := visitAll_sublist wordHash _ _ _ _ hf
    rw [h1, List.nil_append] at hm
    obtain ⟨w, hw, he⟩ := List.mem_filterMap.1 (h2.subset hm)
    rw [mem_windows] at hw
    rw [extractTandem_eq _ _ _ (by omega) (by omega)] at he
    split at he
    · rename_i h2r
      cases he
      have hg := Nat.findGreatest_spec (P := fun k => Repeats (t.map hash) w.1 w.2 k)
        (repeats_le _ _ _ 2 (by omega) h2r) h2r
      have hge := Nat.le_findGreatest (P := fun k => Repeats (t.map hash) w.1 w.2 k)
        (repeats_le _ _ _ 2 (by omega) h2r) h2r
      refine ⟨hw.1, hw.2.1, hge, (Repeats_map_iff hash t hn _ _ _).1 hg, ?_⟩
      intro hc
      simp only at hc
      have hc' := (Repeats_map_iff hash t hn _ _ _).2 hc
      have := Nat.le_findGreatest (P := fun k => Repeats (t.map hash) w.1 w.2 k) (repeats_le _ _ _ _ (by omega) hc') hc'
      omega
    · cases he

/-! ### The hash of words of the backend -/

theorem polyFold_unchecked (hasher : Nat → Nat) (s : List Nat) (st : Nat × Nat) (hst : st.1 < 1000000007) :
    ∃ r, s.foldlM (polyStep false hasher) st = some r ∧ r.1 < 1000000007 := by
  induction s generalizing st with
  | nil => exact ⟨st, rfl, hst⟩
  | cons x s ih =>
    have hadd : ∀ a b, ∃ c, u64Add false a b = some c := by
      intro a b; unfold u64Add; split
      · exact ⟨_, rfl⟩
      · exact ⟨_, rfl⟩
    obtain ⟨c, hc⟩ := hadd 1 (hasher x)
    obtain ⟨d, hd⟩ := hadd st.1 (c * st.2 % u64Size)
    have : polyStep false hasher st x = some (d % 1000000007, st.2 * 31 % u64Size % 1000000007) := by
      unfold polyStep; rw [hc]; simp [hd]
    rw [List.foldlM_cons, this]
    exact ih _ (Nat.mod_lt _ (by norm_num))

/-- C129f: without overflow checks the hash of the empty word is 1, and a further element adds its own hash and one, times 31 to the
power of the length, where the sum of the own hash and one, the product and the whole sum are taken modulo 2^64, and the power and the
result modulo 1000000007. -/
theorem C129_hash_of_word (hasher : Nat → Nat) (word : List Nat) (x v : Nat) (h : polyHash false hasher word = some v) :
    polyHash false hasher [] = some 1 ∧
    polyHash false hasher (word ++ [x]) =
      some ((v + (1 + hasher x) % 2 ^ 64 * (31 ^ word.length % 1000000007) % 2 ^ 64) % 2 ^ 64 % 1000000007) := by
  have hadd : ∀ a b, u64Add false a b = some ((a + b) % 2 ^ 64) := by
    intro a b
    unfold u64Add u64Size
    split
    · rename_i hl; rw [Nat.mod_eq_of_lt]; simpa using hl
    · rfl
  have hstep : ∀ st y, polyStep false hasher st y =
      some ((st.1 + (1 + hasher y) % 2 ^ 64 * st.2 % 2 ^ 64) % 2 ^ 64 % 1000000007, st.2 * 31 % 2 ^ 64 % 1000000007) := by
    intro st y
    unfold polyStep
    simp only [hadd, Option.bind_eq_bind, Option.bind_some, Option.pure_def, u64Size]
    rfl
  have hpow : ∀ (w : List Nat) r, w.foldlM (polyStep false hasher) (1, 1) = some r → r.2 = 31 ^ w.length % 1000000007 := by
    intro w
    induction w using List.reverseRecOn with
    | nil => intro r hr; cases hr; rfl
    | append_singleton w y ih =>
      intro r hr
      rw [List.foldlM_append] at hr
      cases hw : w.foldlM (polyStep false hasher) (1, 1) with
      | none => rw [hw] at hr; cases hr
      | some q =>
        rw [hw] at hr
        have hq := ih q hw
        have hr' : polyStep false hasher q y = some r := by
          have : List.foldlM (polyStep false hasher) q [y] = some r := hr
          rw [List.foldlM_cons] at this
          cases hy : polyStep false hasher q y with
          | none => rw [hy] at this; cases this
          | some z => rw [hy] at this; exact this
        rw [hstep] at hr'
        cases hr'
        have hlt : q.2 < 1000000007 := by rw [hq]; exact Nat.mod_lt _ (by norm_num)
        have e : q.2 * 31 % 2 ^ 64 = q.2 * 31 := Nat.mod_eq_of_lt (by omega)
        change q.2 * 31 % 2 ^ 64 % 1000000007 = _
        rw [e, hq, List.length_append, List.length_singleton, Nat.pow_succ, Nat.mod_mul_mod]
  refine ⟨rfl, ?_⟩
  unfold polyHash at h ⊢
  simp only [Option.bind_eq_bind, Option.bind_eq_some_iff, Option.pure_def, Option.some.injEq] at h
  obtain ⟨a, ha, rfl⟩ := h
  rw [List.foldlM_append, ha]
  have : List.foldlM (polyStep false hasher) a [x] = polyStep false hasher a x := by
    rw [List.foldlM_cons]; cases polyStep false hasher a x <;> rfl
  have e : (some a >>= fun st => List.foldlM (polyStep false hasher) st [x]) = polyStep false hasher a x := this
  rw [e, hstep, hpow word a ha]
  rfl

/-- The hash wraps around for an element with the greatest hash of 64 bits. -/
example : polyHash false (fun x => x) [18446744073709551615, 5] = some 187 ∧
    polyHash false (fun x => x) [18446744073709551615] = some 1 := by decide +kernel

/-- C129f (continued): without overflow checks the hash of a word is always defined and below 1000000007; so the search never panics. -/
theorem C129_hash_defined (hasher : Nat → Nat) (word : List Nat) :
    ∃ v, polyHash false hasher word = some v ∧ v < 1000000007 := by
  obtain ⟨r, h1, h2⟩ := polyFold_unchecked hasher word (1, 1) (by norm_num)
  exact ⟨r.1, by unfold polyHash; rw [h1]; rfl, h2⟩

theorem C129_never_panics (hasher : Nat → Nat) (log : List (List Nat)) (maxLength : Nat) :
    maximalTandems (polyHash false hasher) log maxLength ≠ none ∧
      primitiveTandems (polyHash false hasher) log maxLength ≠ none := by
  have h : maximalTandems (polyHash false hasher) log maxLength ≠ none := by
    rw [ne_eq, C129_panics_iff]
    rintro ⟨t, _, i, l, _, _, _, h⟩
    obtain ⟨v, hv, _⟩ := C129_hash_defined hasher (factor t i l)
    rw [hv] at h; cases h
  refine ⟨h, ?_⟩
  unfold primitiveTandems
  cases hm : maximalTandems (polyHash false hasher) log maxLength with
  | none => exact absurd hm h
  | some r => simp

/-- C129g: with overflow checks the hash is the same as without wherever it is defined. -/
theorem C129_hash_same_with_checks (hasher : Nat → Nat) (word : List Nat) (v : Nat)
    (h : polyHash true hasher word = some v) : polyHash false hasher word = some v := by
  have hadd : ∀ a b c, u64Add true a b = some c → u64Add false a b = some c := by
    intro a b c h
    unfold u64Add at h ⊢
    split at h
    · rename_i hl; rw [if_pos hl]; exact h
    · simp at h
  have hstep : ∀ st x r, polyStep true hasher st x = some r → polyStep false hasher st x = some r := by
    intro st x r h
    unfold polyStep at h ⊢
    simp only [Option.bind_eq_bind, Option.bind_eq_some_iff, Option.pure_def] at h ⊢
    obtain ⟨c, hc, d, hd, he⟩ := h
    exact ⟨c, hadd _ _ _ hc, d, hadd _ _ _ hd, he⟩
  have hfold : ∀ (s : List Nat) st r, s.foldlM (polyStep true hasher) st = some r →
      s.foldlM (polyStep false hasher) st = some r := by
    intro s
    induction s with
    | nil => intro st r h; exact h
    | cons x s ih =>
      intro st r h
      rw [List.foldlM_cons] at h ⊢
      cases hs : polyStep true hasher st x with
      | none => rw [hs] at h; cases h
      | some y =>
        rw [hs] at h
        rw [hstep _ _ _ hs]
        exact ih y r h
  unfold polyHash at h ⊢
  simp only [Option.bind_eq_bind, Option.bind_eq_some_iff, Option.pure_def] at h ⊢
  obtain ⟨a, ha, hv⟩ := h
  exact ⟨a, hfold _ _ _ ha, hv⟩

/-- C129h: with overflow checks it panics on an element whose own hash is the greatest number of 64 bits, and already if the
sum with the hash so far overflows; then the search panics, although it does not without checks. -/
theorem C129_hash_can_overflow :
    polyHash true (fun _ => 18446744073709551615) [7] = none ∧
    polyHash true (fun _ => 18446744073709551614) [7] = none ∧
    maximalTandems (polyHash true (fun _ => 18446744073709551614)) [[1, 2, 3]] 10 = none ∧
    maximalTandems (polyHash false (fun _ => 18446744073709551614)) [[1, 2, 3]] 10 = some [[]] := by decide +kernel

/-- C129i: a collision loses a report. If two words of hashes that occur in a trace have equal hashes, only the first is looked
at: here `[31, 0]` and `[0, 1]` (with `hasher` the identity), and the square of `[0, 1]` is not reported. -/
theorem C129_collision :
    polyHash false id [31, 0] = polyHash false id [0, 1] ∧ Repeats [31, 0, 0, 1, 0, 1] 2 2 2 ∧
    maximalTandems (polyHash false id) [[31, 0, 0, 1, 0, 1]] 10 = some [[]] ∧
    firstTandems [31, 0, 0, 1, 0, 1] 10 = [⟨2, 2, 2⟩] := by decide +kernel

/-! ### Concrete cases -/

/-- The starts and lengths of the factors of a word of `n` elements. -/
def spans (n : Nat) : List (Nat × Nat) :=
  (List.range (n + 1)).flatMap (fun i => (List.range (n + 1 - i)).map (fun l => (i, l)))

theorem tellsFactors_of (hash : List Nat → Option Nat) (t : List Nat)
    (h : ∀ p ∈ spans t.length, hash (factor t p.1 p.2) ≠ none)
    (h' : ∀ p ∈ spans t.length, ∀ q ∈ spans t.length, hash (factor t p.1 p.2) = hash (factor t q.1 q.2) →
      factor t p.1 p.2 = factor t q.1 q.2) : TellsFactors hash t := by
  have hm : ∀ i l, i + l ≤ t.length → (i, l) ∈ spans t.length := by
    intro i l hil
    simp only [spans, List.mem_flatMap, List.mem_range, List.mem_map, Prod.mk.injEq]
    exact ⟨i, by omega, l, by omega, rfl, rfl⟩
  exact ⟨fun i l h1 => h _ (hm i l h1), fun i l j m h1 h2 h3 => h' _ (hm i l h1) _ (hm j m h2) h3⟩

/-- `a b a b c` with classes of names like `a.1`. -/
def exTandemLog : List (List (REvent Unit)) := [["a.1", "b.1", "a.2", "b.2", "c.1"].map (fun n => ⟨n, 0, none⟩)]

/-- The hash of a name in the examples: its first letter. -/
def exFirst (s : String) : Nat := (s.toList.map Char.toNat).headD 0

example : classLog (some exFind) exTandemLog = [["a", "b", "a", "b", "c"]] := by decide

/-- The hypotheses of C129a, b and c hold for a log with a report. -/
theorem exTandemLog_tells : (∀ t ∈ classLog (some exFind) exTandemLog, Set.InjOn exFirst {x | x ∈ t}) ∧
    ∀ t ∈ hashedLog exFirst (some exFind) exTandemLog, TellsFactors (polyHash true id) t := by
  have h1 : classLog (some exFind) exTandemLog = [["a", "b", "a", "b", "c"]] := by decide
  have h2 : hashedLog exFirst (some exFind) exTandemLog = [[97, 98, 97, 98, 99]] := by decide
  rw [h1, h2]
  constructor
  · intro t ht
    rw [List.mem_singleton] at ht; subst ht
    have : ∀ x ∈ ["a", "b", "a", "b", "c"], ∀ y ∈ ["a", "b", "a", "b", "c"], exFirst x = exFirst y → x = y := by decide
    exact fun x hx y hy e => this x hx y hy e
  · intro t ht
    rw [List.mem_singleton] at ht; subst ht
    exact tellsFactors_of _ _ (by decide +kernel) (by decide +kernel)

example : maximalTandems (polyHash true id) (hashedLog exFirst (some exFind) exTandemLog) 10 = some [[⟨0, 2, 2⟩]] ∧
    primitiveTandems (polyHash true id) (hashedLog exFirst (some exFind) exTandemLog) 10 = some [[⟨0, 2, 2⟩]] := by
  rw [C129_reports_partial _ _ _ _ _ exTandemLog_tells.1 exTandemLog_tells.2,
    C129_primitive_partial _ _ _ _ _ exTandemLog_tells.1 exTandemLog_tells.2]
  decide +kernel

example : maximalTandems (polyHash true id) (hashedLog exFirst (some exFind) exTandemLog) 10 =
    (findMaximalTandem (Log.ofEvs [["a", "b", "a", "b", "c"]]) 10 id).toOption := by
  have h1 : classLog (some exFind) exTandemLog = [["a", "b", "a", "b", "c"]] := by decide
  rw [← h1]
  refine (C129_same_as_local_partial _ _ _ _ _ exTandemLog_tells.1 exTandemLog_tells.2 ?_ ?_).1
  · rw [h1]; intro t ht; rw [List.mem_singleton] at ht; subst ht
    exact distinctHashes_of _ (by decide)
  · rw [h1]; intro t ht; rw [List.mem_singleton] at ht; subst ht
    exact faithfulHash_of _ (by decide +kernel)

/-- The hypotheses of C129e hold for it. -/
example : Repeats ["a", "b", "a", "b", "c"] 0 2 2 :=
  (C129_reports_are_tandem_arrays exFirst (polyHash true id) (some exFind) exTandemLog 10 [[⟨0, 2, 2⟩]] (by decide +kernel) 0
    _ (by decide) (exTandemLog_tells.1 _ (by decide)) _ rfl ⟨0, 2, 2⟩ (by decide)).2.2.2.1

/-- The array of five in the trace of C26d is not primitive for the backend either. -/
example : maximalTandems (polyHash false id) [[1, 2, 1, 2, 3, 1, 2, 1, 2, 3]] 10 = some [[⟨0, 2, 2⟩, ⟨0, 5, 2⟩]] ∧
    primitiveTandems (polyHash false id) [[1, 2, 1, 2, 3, 1, 2, 1, 2, 3]] 10 = some [[⟨0, 2, 2⟩]] ∧
    subArrays [[⟨0, 2, 2⟩, ⟨0, 5, 2⟩]] = [[(0, 2), (0, 5)]] := by decide +kernel

example : polyHash true id [3, 4] = some 160 ∧ polyHash false id [3, 4] = some 160 :=
  ⟨by decide +kernel, C129_hash_same_with_checks id [3, 4] 160 (by decide +kernel)⟩

end Ficus.Rs
