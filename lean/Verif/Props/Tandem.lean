import Verif.Proofs.Tandem
import Mathlib.Data.Nat.Prime.Defs
import Mathlib.Data.Nat.Prime.Basic

/-! Properties C24, C25, C26: tandem arrays.

The reports of the search are stated about the class names of a trace (`t.map ext`), under the assumption that the
string hash is injective on the classes that occur in the trace. -/

namespace Ficus
open Spec
variable {E : Type}

/-- The classes of the events of a trace have pairwise distinct hashes. -/
def _root_.Ficus.Spec.DistinctHashes (ws : List String) : Prop := Set.InjOn stringHash {x | x ∈ ws}

/-- C24a: the search never raises and gives one list of reports per trace, in order. -/
theorem C24_one_report_list_per_trace (log : Log E) (maxLength : Nat) (ext : E → String) :
    ∃ r, findMaximalTandem log maxLength ext = .ok r ∧ r.length = log.traces.length := by
  refine ⟨_, maximalTandemOfHashes_ok _ _, ?_⟩
  simp [hashTraces, Log.evs]

/-- The reports of trace number `n`. -/
theorem report_eq (log : Log E) (maxLength : Nat) (ext : E → String) (r : List (List Tandem))
    (h : findMaximalTandem log maxLength ext = .ok r) (n : Nat) (t : Trace E) (ht : log.traces[n]? = some t) :
    r[n]? = some (maximalP ((t.events.map ext).map stringHash) maxLength) := by
  unfold findMaximalTandem at h
  rw [maximalTandemOfHashes_ok] at h
  simp only [Except.ok.injEq] at h
  subst h
  simp [hashTraces, Log.evs, ht, Function.comp_def]

/-- C24b: every report lies inside its trace, has a block length in [2, max) and at least two repetitions, all of them
equal to the block, and no further repetition follows. -/
theorem C24_reports_are_maximal_tandem_arrays (log : Log E) (maxLength : Nat) (ext : E → String)
    (r : List (List Tandem)) (h : findMaximalTandem log maxLength ext = .ok r) (n : Nat) (t : Trace E)
    (ht : log.traces[n]? = some t) (hd : DistinctHashes (t.events.map ext)) (arrays : List Tandem)
    (hr : r[n]? = some arrays) (a : Tandem) (ha : a ∈ arrays) :
    2 ≤ a.length ∧ a.length < maxLength ∧ 2 ≤ a.repeatCount ∧
      a.firstPos + a.repeatCount * a.length ≤ t.events.length ∧
      Repeats (t.events.map ext) a.firstPos a.length a.repeatCount ∧
      ¬ Repeats (t.events.map ext) a.firstPos a.length (a.repeatCount + 1) := by
  rw [report_eq log maxLength ext r h n t ht] at hr
  simp only [Option.some.injEq] at hr
  subst hr
  obtain ⟨h1, h2, h3, h4, h5⟩ := mem_maximalP_sound _ _ a ha
  rw [Repeats_map_iff _ _ hd] at h4 h5
  exact ⟨h1, h2, h3, by simpa using h4.1, h4, h5⟩

/-- C24c: no two reports of a trace have the same block. -/
theorem C24_reports_have_distinct_blocks (log : Log E) (maxLength : Nat) (ext : E → String)
    (r : List (List Tandem)) (h : findMaximalTandem log maxLength ext = .ok r) (n : Nat) (t : Trace E)
    (ht : log.traces[n]? = some t) (arrays : List Tandem) (hr : r[n]? = some arrays) :
    arrays.Pairwise (fun a b => factor (t.events.map ext) a.firstPos a.length ≠
      factor (t.events.map ext) b.firstPos b.length) := by
  rw [report_eq log maxLength ext r h n t ht] at hr
  simp only [Option.some.injEq] at hr
  subst hr
  refine (maximalP_distinct _ maxLength).imp ?_
  intro a b hab he
  apply hab
  rw [factor_map stringHash, factor_map stringHash, he]

/-- C24d: the primitive reports of each trace are a sublist of its maximal reports. -/
theorem C24_primitive_reports_are_maximal_reports (log : Log E) (maxLength : Nat) (ext : E → String) :
    ∃ r p, findMaximalTandem log maxLength ext = .ok r ∧ findPrimitiveTandem log maxLength ext = .ok p ∧
      List.Forall₂ List.Sublist p r := by
  refine ⟨_, _, maximalTandemOfHashes_ok _ _, findPrimitiveTandem_ok _ _ _, ?_⟩
  rw [List.forall₂_map_left_iff, List.forall₂_map_right_iff, List.forall₂_same]
  intro t _
  exact List.filter_sublist

/-- C25a: exact description of the reports, when the window hash has no collision in the trace: they are the tandem
arrays, extended to the right as far as possible, that start at the first occurrence of their block. -/
theorem C25_reports_exactly_first_occurrences (log : Log E) (maxLength : Nat) (ext : E → String)
    (r : List (List Tandem)) (h : findMaximalTandem log maxLength ext = .ok r) (n : Nat) (t : Trace E)
    (ht : log.traces[n]? = some t) (hd : DistinctHashes (t.events.map ext))
    (hf : FaithfulHash ((t.events.map ext).map stringHash)) (arrays : List Tandem) (hr : r[n]? = some arrays)
    (a : Tandem) :
    a ∈ arrays ↔ 2 ≤ a.length ∧ a.length < maxLength ∧ 2 ≤ a.repeatCount ∧
      Repeats (t.events.map ext) a.firstPos a.length a.repeatCount ∧
      ¬ Repeats (t.events.map ext) a.firstPos a.length (a.repeatCount + 1) ∧
      FirstOccurrence (t.events.map ext) a.firstPos a.length := by
  rw [report_eq log maxLength ext r h n t ht] at hr
  simp only [Option.some.injEq] at hr
  subst hr
  have hfo : FirstOccurrence ((t.events.map ext).map stringHash) a.firstPos a.length ↔
      FirstOccurrence (t.events.map ext) a.firstPos a.length := by
    unfold FirstOccurrence
    simp only [ne_eq, factor_map_eq_iff _ _ hd]
  constructor
  · intro ha
    obtain ⟨h1, h2, h3, h4, h5⟩ := mem_maximalP_sound _ _ a ha
    have h6 := maximalP_first _ _ a ha
    rw [Repeats_map_iff _ _ hd] at h4 h5
    exact ⟨h1, h2, h3, h4, h5, hfo.1 h6⟩
  · rintro ⟨h1, h2, h3, h4, h5, h6⟩
    exact mem_maximalP_of _ hf maxLength a h1 h2 h3 ((Repeats_map_iff _ _ hd _ _ _).2 h4)
      (fun hh => h5 ((Repeats_map_iff _ _ hd _ _ _).1 hh)) (hfo.2 h6)

/-- C25b (partial): a tandem array whose block does not occur earlier in the trace is reported, with at least as many
repetitions. Missing for the full property: blocks whose first occurrence is not followed by a repetition, see
`C25_block_lost`. -/
theorem C25_first_occurrence_reported_partial (log : Log E) (maxLength : Nat) (ext : E → String)
    (r : List (List Tandem)) (h : findMaximalTandem log maxLength ext = .ok r) (n : Nat) (t : Trace E)
    (ht : log.traces[n]? = some t) (hd : DistinctHashes (t.events.map ext))
    (hf : FaithfulHash ((t.events.map ext).map stringHash)) (i l k : Nat) (hl : 2 ≤ l) (hm : l < maxLength)
    (hk : 2 ≤ k) (hrep : Repeats (t.events.map ext) i l k) (hfirst : FirstOccurrence (t.events.map ext) i l) :
    ∃ arrays, r[n]? = some arrays ∧ ∃ a ∈ arrays, a.firstPos = i ∧ a.length = l ∧ k ≤ a.repeatCount := by
  refine ⟨_, report_eq log maxLength ext r h n t ht, ?_⟩
  -- the largest number of repetitions
  have hex : ∃ m, k ≤ m ∧ Repeats (t.events.map ext) i l m ∧ ¬ Repeats (t.events.map ext) i l (m + 1) := by
    have hbound : ∀ m, Repeats (t.events.map ext) i l m → m ≤ t.events.length := by
      intro m hm
      have h1 := hm.1
      have : m ≤ m * l := Nat.le_mul_of_pos_right m (by omega)
      simp only [List.length_map] at h1
      omega
    have : ∀ d m, k ≤ m → Repeats (t.events.map ext) i l m → t.events.length ≤ m + d →
        ∃ m, k ≤ m ∧ Repeats (t.events.map ext) i l m ∧ ¬ Repeats (t.events.map ext) i l (m + 1) := by
      intro d
      induction d with
      | zero =>
        intro m h1 h2 h3
        exact ⟨m, h1, h2, fun h4 => by have := hbound _ h4; omega⟩
      | succ d ih =>
        intro m h1 h2 h3
        by_cases h4 : Repeats (t.events.map ext) i l (m + 1)
        · exact ih (m + 1) (by omega) h4 (by omega)
        · exact ⟨m, h1, h2, h4⟩
    exact this t.events.length k (le_refl _) hrep (by omega)
  obtain ⟨m, hm1, hm2, hm3⟩ := hex
  refine ⟨⟨i, l, m⟩, ?_, rfl, rfl, hm1⟩
  rw [C25_reports_exactly_first_occurrences log maxLength ext r h n t ht hd hf _
    (report_eq log maxLength ext r h n t ht)]
  exact ⟨hl, hm, le_trans hk hm1, hm2, hm3, hfirst⟩

/-- C26a (partial): no primitive report has a block that is a proper power of a word with at least two letters.
Missing for the full property: powers of a single letter, see `C26_square_of_a_letter_reported`. -/
theorem C26_blocks_not_powers_of_longer_words_partial (log : Log E) (maxLength : Nat) (ext : E → String)
    (p : List (List Tandem)) (h : findPrimitiveTandem log maxLength ext = .ok p) (n : Nat) (t : Trace E)
    (ht : log.traces[n]? = some t) (hd : DistinctHashes (t.events.map ext)) (arrays : List Tandem)
    (hr : p[n]? = some arrays) (a : Tandem) (ha : a ∈ arrays) (u : List String) (k : Nat) (hu : 2 ≤ u.length)
    (hk : 2 ≤ k) : factor (t.events.map ext) a.firstPos a.length ≠ wordPow u k := by
  rw [findPrimitiveTandem_ok] at h
  simp only [Except.ok.injEq] at h
  subst h
  have hr' : (maximalP ((t.events.map ext).map stringHash) maxLength).filter
      (isPrimitiveTandem ((t.events.map ext).map stringHash)) = arrays := by
    simpa [hashTraces, Log.evs, ht, Function.comp_def] using hr
  rw [← hr', List.mem_filter] at ha
  obtain ⟨ha, hp⟩ := ha
  obtain ⟨h1, h2, h3, h4, h5⟩ := mem_maximalP_sound _ _ a ha
  rw [Repeats_map_iff _ _ hd] at h4
  have hb := (Repeats_mono _ _ _ _ 1 (by omega) h4).1
  rw [one_mul] at hb
  rw [isPrimitiveTandem_iff _ _ (by simpa using hb)] at hp
  intro he
  have hlen := congrArg List.length he
  rw [factor_length _ _ _ hb, wordPow_length] at hlen
  have hle : 2 * u.length ≤ a.length := by rw [hlen]; exact Nat.mul_le_mul_right _ hk
  apply hp u.length hu (by omega)
  rw [Repeats_map_iff _ _ hd]
  have hk' : wordPow u k = u ++ u ++ wordPow u (k - 2) := by
    rw [show k = 2 + (k - 2) by omega]
    simp [wordPow, List.replicate_add, List.replicate_succ]
  rw [hk'] at he
  have hfac : ∀ m, m ≤ a.length → factor (t.events.map ext) a.firstPos m =
      (u ++ u ++ wordPow u (k - 2)).take m := by
    intro m hm
    rw [← he]
    simp [factor, List.take_take, hm]
  refine ⟨by omega, ?_⟩
  rw [hfac _ hle, hfac u.length (by omega)]
  simp [wordPow, List.replicate_succ, two_mul, List.take_append]

/-- C26b: exact description of the primitive reports: the maximal reports at whose start no square of a word with a
length from 2 to half the block length (rounded up) begins. -/
theorem C26_primitive_reports_exactly (log : Log E) (maxLength : Nat) (ext : E → String)
    (r p : List (List Tandem)) (h : findMaximalTandem log maxLength ext = .ok r)
    (h' : findPrimitiveTandem log maxLength ext = .ok p) (n : Nat) (t : Trace E)
    (ht : log.traces[n]? = some t) (hd : DistinctHashes (t.events.map ext)) (arrays prims : List Tandem)
    (hr : r[n]? = some arrays) (hp : p[n]? = some prims) (a : Tandem) :
    a ∈ prims ↔ a ∈ arrays ∧ ∀ m, 2 ≤ m → m ≤ (a.length + 1) / 2 → ¬ Repeats (t.events.map ext) a.firstPos m 2 := by
  have hr0 := report_eq log maxLength ext r h n t ht
  rw [hr] at hr0
  simp only [Option.some.injEq] at hr0
  rw [findPrimitiveTandem_ok] at h'
  simp only [Except.ok.injEq] at h'
  subst h'
  have hp' : (maximalP ((t.events.map ext).map stringHash) maxLength).filter
      (isPrimitiveTandem ((t.events.map ext).map stringHash)) = prims := by
    simpa [hashTraces, Log.evs, ht, Function.comp_def] using hp
  rw [← hp', hr0, List.mem_filter]
  constructor
  · rintro ⟨ha, hprim⟩
    obtain ⟨h1, h2, h3, h4, h5⟩ := mem_maximalP_sound _ _ a ha
    have hb := (Repeats_mono _ _ _ _ 1 (by omega) h4).1
    rw [one_mul] at hb
    rw [isPrimitiveTandem_iff _ _ hb] at hprim
    exact ⟨ha, fun m h6 h7 h8 => hprim m h6 h7 ((Repeats_map_iff _ _ hd _ _ _).2 h8)⟩
  · rintro ⟨ha, hprim⟩
    obtain ⟨h1, h2, h3, h4, h5⟩ := mem_maximalP_sound _ _ a ha
    have hb := (Repeats_mono _ _ _ _ 1 (by omega) h4).1
    rw [one_mul] at hb
    refine ⟨ha, ?_⟩
    rw [isPrimitiveTandem_iff _ _ hb]
    exact fun m h6 h7 h8 => hprim m h6 h7 ((Repeats_map_iff _ _ hd _ _ _).1 h8)

/-! ### Concrete cases -/

instance (t : List String) (i l k : Nat) : Decidable (Repeats t i l k) :=
  inferInstanceAs (Decidable (_ ∧ _))

instance (t : List String) (i l : Nat) : Decidable (FirstOccurrence t i l) :=
  inferInstanceAs (Decidable (∀ j < i, _))

theorem distinctHashes_of (ws : List String) (h : ∀ x ∈ ws, ∀ y ∈ ws, stringHash x = stringHash y → x = y) :
    DistinctHashes ws := fun x hx y hy e => h x hx y hy e

/-- All factors of `t`, as pairs (start, length). -/
def factorIndices (t : List Int) : List (Nat × Nat) :=
  (List.range (t.length + 1)).flatMap (fun i => (List.range (t.length + 1 - i)).map (fun l => (i, l)))

theorem faithfulHash_of (t : List Int)
    (h : ∀ p ∈ factorIndices t, ∀ q ∈ factorIndices t,
      windowHash (factor t p.1 p.2) = windowHash (factor t q.1 q.2) → factor t p.1 p.2 = factor t q.1 q.2) :
    FaithfulHash t := by
  have hm : ∀ i l, i + l ≤ t.length → (i, l) ∈ factorIndices t := by
    intro i l hil
    simp only [factorIndices, List.mem_flatMap, List.mem_range, List.mem_map, Prod.mk.injEq]
    exact ⟨i, by omega, l, by omega, rfl, rfl⟩
  exact fun i l j m h1 h2 h3 => h _ (hm i l h1) _ (hm j m h2) h3

/-- `x a b a b a b c`. -/
def exTandemTrace : List String := ["x", "a", "b", "a", "b", "a", "b", "c"]

theorem exTandem_distinct : DistinctHashes exTandemTrace := distinctHashes_of _ (by decide)

example : findMaximalTandem (Log.ofEvs [exTandemTrace]) 10 id = .ok [[⟨1, 2, 3⟩, ⟨2, 2, 2⟩]] := by decide +kernel

/-- The hypotheses of C24 hold for a trace with reports. -/
example : Repeats exTandemTrace 1 2 3 ∧ ¬ Repeats exTandemTrace 1 2 4 := by
  have := C24_reports_are_maximal_tandem_arrays (Log.ofEvs [exTandemTrace]) 10 id [[⟨1, 2, 3⟩, ⟨2, 2, 2⟩]]
    (by decide +kernel) 0 { events := exTandemTrace } rfl (by simpa using exTandem_distinct) _ rfl ⟨1, 2, 3⟩ (by decide)
  simpa using this.2.2.2.2

example : factor exTandemTrace 1 2 ≠ factor exTandemTrace 2 2 := by
  have := C24_reports_have_distinct_blocks (Log.ofEvs [exTandemTrace]) 10 id [[⟨1, 2, 3⟩, ⟨2, 2, 2⟩]]
    (by decide +kernel) 0 { events := exTandemTrace } rfl _ rfl
  simpa using this

/-- The hypotheses of C25 hold for `a b a b c`. -/
example : ∃ arrays, [[(⟨0, 2, 2⟩ : Tandem)]][0]? = some arrays ∧
    ∃ a ∈ arrays, a.firstPos = 0 ∧ a.length = 2 ∧ 2 ≤ a.repeatCount :=
  C25_first_occurrence_reported_partial (Log.ofEvs [["a", "b", "a", "b", "c"]]) 10 id _ (by decide +kernel) 0
    { events := ["a", "b", "a", "b", "c"] } rfl (distinctHashes_of _ (by decide))
    (faithfulHash_of _ (by decide +kernel)) 0 2 2 (by decide) (by decide) (by decide) (by decide) (by decide)

/-- C25c: the full property fails. In `a b c a b a b` the tandem array `(a b)(a b)` at position 3 exists, but no
report has the block `a b`, because the block is examined only where it occurs first. -/
theorem C25_block_lost :
    ∃ (t : List String) (i l k : Nat), 2 ≤ l ∧ l < 10 ∧ 2 ≤ k ∧ Repeats t i l k ∧
      ∃ arrays, findMaximalTandem (Log.ofEvs [t]) 10 id = .ok [arrays] ∧
        ∀ a ∈ arrays, factor t a.firstPos a.length ≠ factor t i l :=
  ⟨["a", "b", "c", "a", "b", "a", "b"], 3, 2, 2, by decide, by decide, by decide, by decide, [],
    by decide +kernel, by decide⟩

/-- C26c: the full property fails. For `a a a a` the block `a a`, the square of `a`, is reported as primitive. -/
theorem C26_square_of_a_letter_reported :
    ∃ (t : List String) (a : Tandem), findPrimitiveTandem (Log.ofEvs [t]) 10 id = .ok [[a]] ∧
      factor t a.firstPos a.length = wordPow ["a"] 2 ∧ ¬ Primitive (factor t a.firstPos a.length) :=
  ⟨["a", "a", "a", "a"], ⟨0, 2, 2⟩, by decide +kernel, by decide, fun h => h ["a"] 2 (le_refl _) (by decide)⟩

/-- C26d: conversely a tandem array with a primitive block can be rejected: `(a b a b c)(a b a b c)` begins with the
square of `a b`. -/
theorem C26_primitive_block_rejected :
    ∃ (t : List String) (a : Tandem) (arrays prims : List Tandem),
      findMaximalTandem (Log.ofEvs [t]) 10 id = .ok [arrays] ∧
      findPrimitiveTandem (Log.ofEvs [t]) 10 id = .ok [prims] ∧
      a ∈ arrays ∧ a ∉ prims ∧ Primitive (factor t a.firstPos a.length) := by
  refine ⟨["a", "b", "a", "b", "c", "a", "b", "a", "b", "c"], ⟨0, 5, 2⟩, [⟨0, 2, 2⟩, ⟨0, 5, 2⟩], [⟨0, 2, 2⟩],
    by decide +kernel, by decide +kernel, by decide, by decide, ?_⟩
  intro u k hk he
  have hlen := congrArg List.length he
  rw [wordPow_length] at hlen
  have h5 : k * u.length = 5 := by rw [← hlen]; decide
  have hu : u.length = 1 ∨ u.length = 5 := (Nat.dvd_prime Nat.prime_five).1 ⟨k, by rw [← h5]; ring⟩
  rcases hu with hu | hu
  · obtain ⟨x, rfl⟩ := List.length_eq_one_iff.1 hu
    have hk5 : k = 5 := by simpa using h5
    subst hk5
    have h0 : ["a", "b", "a", "b", "c"] = [x, x, x, x, x] := he
    simp only [List.cons.injEq] at h0
    obtain ⟨h1, h2, _⟩ := h0
    rw [← h1] at h2
    exact absurd h2 (by decide)
  · rw [hu] at h5; omega

/-- The hypotheses of C26 hold for `a b c a b c`, whose block `a b c` is kept. -/
example : factor ["a", "b", "c", "a", "b", "c"] 0 3 ≠ wordPow ["a", "b"] 2 :=
  C26_blocks_not_powers_of_longer_words_partial (Log.ofEvs [["a", "b", "c", "a", "b", "c"]]) 10 id [[⟨0, 3, 2⟩]]
    (by decide +kernel) 0 { events := ["a", "b", "c", "a", "b", "c"] } rfl (distinctHashes_of _ (by decide)) _ rfl
    ⟨0, 3, 2⟩ (by decide) _ _ (by decide) (by decide)

end Ficus
