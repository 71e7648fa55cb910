import Verif.Spec.RsLoop
import Verif.Props.RsLoop
import Verif.Proofs.RsAlone

/-! Property C139: the repeats that the backend finds in the traces of a log, each for itself. -/

namespace Ficus.Rs
open Spec

theorem traces_each {R : List Nat → List SubArray → Prop} (kind : RepeatType)
    (h : ∀ t, ∃ subs, repeatsOfTrace kind t = some subs ∧ R t subs) (log : List (List Nat)) :
    ∃ found, repeatsFromAllTraces kind log = some found ∧ List.Forall₂ R log found := by
  induction log with
  | nil => exact ⟨[], rfl, .nil⟩
  | cons t log ih =>
    obtain ⟨subs, h1, h2⟩ := h t
    obtain ⟨found, h3, h4⟩ := ih
    refine ⟨subs :: found, ?_, .cons h2 h4⟩
    unfold repeatsFromAllTraces at h3 ⊢
    rw [List.mapM_cons, h1, h3]
    rfl

theorem reported (kind : RepeatType) (t : List Nat) : ∃ subs, repeatsOfTrace kind t = some subs ∧
    Reports (Wanted kind) t subs ∧ InOrder subs := by
  obtain ⟨subs, h1, h2, h3, h4, h5⟩ := repeatsOfTrace_spec kind t
  exact ⟨subs, h1, ⟨h2, h3, fun w => (h4 w).trans (wanted_iff kind t w)⟩, h5⟩

/-- C139: the search for super maximal repeats reports, for every trace, every super maximal repeat once and nothing else, in the order
of the starts and the lengths, and does not panic. -/
theorem C139_super_maximal (log : List (List Nat)) : ∃ found, repeatsFromAllTraces .superMaximal log = some found ∧
    List.Forall₂ (fun t subs => Reports SuperMaximal t subs ∧ InOrder subs) log found :=
  traces_each _ (reported _) log

/-- "ab" is reported for "abcabd" and "ab" for "babab" not, where "bab" is. -/
example : repeatsFromAllTraces .superMaximal [[1, 2, 3, 1, 2, 4], [2, 1, 2, 1, 2], []] =
    some [[⟨0, 2⟩], [⟨0, 3⟩], []] := by decide +kernel

/-- C139: the search for near super maximal repeats reports every maximal repeat that has an occurrence, not at the start of the trace, that
does not lie inside of an occurrence of another maximal repeat, once, and nothing else. -/
theorem C139_near_super_maximal_partial (log : List (List Nat)) : ∃ found, repeatsFromAllTraces .nearSuperMaximal log = some found ∧
    List.Forall₂ (fun t subs => Reports NearInside t subs ∧ InOrder subs) log found :=
  traces_each _ (reported _) log

/-- The trace of the tests of the code, "aaadabbccc": "a", "aa", "b" and "cc". -/
example : repeatsFromAllTraces .nearSuperMaximal [[1, 1, 1, 4, 1, 2, 2, 3, 3, 3]] =
    some [[⟨0, 1⟩, ⟨0, 2⟩, ⟨5, 1⟩, ⟨7, 2⟩]] := by decide +kernel

/-- C139 does not hold for near super maximal repeats in full: "ab" in "abczabdzabd", with the occurrence at the start inside of no other
maximal repeat, is not reported. -/
theorem C139_near_super_maximal_missed : ∃ t subs w, repeatsOfTrace .nearSuperMaximal t = some subs ∧ NearSuperMaximal t w ∧
    w ∉ words t subs := by
  refine ⟨[1, 2, 3, 0, 1, 2, 4, 0, 1, 2, 4], [⟨3, 4⟩], [1, 2], by decide +kernel, ?_, by decide⟩
  refine near_iff.2 ⟨⟨by simp, 0, 4, by decide, ⟨[], [3, 0, 1, 2, 4, 0, 1, 2, 4], rfl, rfl⟩, ⟨[1, 2, 3, 0], [4, 0, 1, 2, 4], rfl, rfl⟩⟩,
    0, ⟨[], [3, 0, 1, 2, 4, 0, 1, 2, 4], rfl, rfl⟩, ?_⟩
  intro k hk hne
  obtain ⟨h1, h2⟩ := occursAt_iff.1 hk
  simp only [List.length_cons, List.length_nil] at h1
  have : k = 1 ∨ k = 2 ∨ k = 3 ∨ k = 4 ∨ k = 5 ∨ k = 6 ∨ k = 7 ∨ k = 8 ∨ k = 9 := by omega
  rcases this with rfl | rfl | rfl | rfl | rfl | rfl | rfl | rfl | rfl <;> revert h2 <;> decide

/-- C139: how far the near super maximal repeats are reported: all the reported ones are near super maximal, and every near super maximal
repeat with a free occurrence behind the start is reported. -/
theorem C139_near_super_maximal_close (t : List Nat) : ∃ subs, repeatsOfTrace .nearSuperMaximal t = some subs ∧
    (∀ w ∈ words t subs, NearSuperMaximal t w) ∧ (∀ w, SuperMaximal t w → w ∈ words t subs) ∧
    ∀ w, NearSuperMaximal t w → ¬ w <+: t → w ∈ words t subs := by
  obtain ⟨subs, h, ⟨-, -, hr⟩, -⟩ := reported .nearSuperMaximal t
  have hr' : ∀ w, w ∈ words t subs ↔ NearInside t w := hr
  refine ⟨subs, h, fun w hw => ?_, fun w hw => ?_, fun w hw hpre => ?_⟩
  · obtain ⟨hm, i, -, hi, ho⟩ := (hr' w).1 hw
    exact ⟨hm, i, hi, ho⟩
  · obtain ⟨h1, h2⟩ := super_iff.1 hw
    obtain ⟨k, hk, ho⟩ := h1.other 0
    exact (hr' w).2 (nearInside_iff.2 ⟨h1, k, hk, ho, h2 k ho⟩)
  · obtain ⟨hm, i, hi, ho⟩ := hw
    refine (hr' w).2 ⟨hm, i, ?_, hi, ho⟩
    rintro rfl
    obtain ⟨pre, post, e, hl⟩ := hi
    rw [List.length_eq_zero_iff.1 hl] at e
    exact hpre ⟨post, e.symm⟩

/-- C139: the search for maximal repeats reports the words that two letters follow after different letters, once, and nothing else. -/
theorem C139_maximal_partial (log : List (List Nat)) : ∃ found, repeatsFromAllTraces .maximal log = some found ∧
    List.Forall₂ (fun t subs => Reports PairRepeat t subs ∧ InOrder subs) log found :=
  traces_each _ (reported _) log

/-- The trace of the tests of the code, "aaadabbccc". -/
example : repeatsFromAllTraces .maximal [[1, 1, 1, 4, 1, 2, 2, 3, 3, 3]] =
    some [[⟨0, 1⟩, ⟨0, 2⟩, ⟨5, 1⟩, ⟨7, 1⟩, ⟨7, 2⟩]] := by decide +kernel

/-- C139: all reported words are maximal repeats, and every occurrence of every repeat lies inside of an occurrence of a reported word. -/
theorem C139_maximal_covers (t : List Nat) : ∃ subs, repeatsOfTrace .maximal t = some subs ∧
    (∀ w ∈ words t subs, MaximalRepeat t w) ∧ (∀ w, NearSuperMaximal t w → w ∈ words t subs) ∧
    ∀ w i, IsRepeat t w → OccursAt w t i → InReported t subs w i := by
  obtain ⟨subs, h, ⟨-, -, hr⟩, -⟩ := reported .maximal t
  have hr' : ∀ w, w ∈ words t subs ↔ PairRepeat t w := hr
  refine ⟨subs, h, fun w hw => ((hr' w).1 hw).maximal, fun w hw => (hr' w).2 hw.pair, fun w i hw hi => ?_⟩
  obtain ⟨w', j, hn, hj, h1, h2⟩ := hw.near hi
  exact ⟨w', (hr' w').2 hn.pair, j, hj, h1, h2⟩

/-- "b" in "abcabd" lies inside of "ab", which is reported. -/
example : repeatsOfTrace .maximal [1, 2, 3, 1, 2, 4] = some [⟨0, 2⟩] ∧ IsRepeat [1, 2, 3, 1, 2, 4] [2] ∧
    OccursAt [2] [1, 2, 3, 1, 2, 4] 4 :=
  ⟨by decide +kernel, ⟨by simp, 1, 4, by decide, ⟨[1], [3, 1, 2, 4], rfl, rfl⟩, ⟨[1, 2, 3, 1], [4], rfl, rfl⟩⟩,
    ⟨[1, 2, 3, 1], [4], rfl, rfl⟩⟩

/-- C139 does not hold for maximal repeats in full: "w" in "zawxbwxawybwyz" is a maximal repeat, and as "a" and "b" stand before "wx" and
before "wy", it is not reported. -/
theorem C139_maximal_missed : ∃ t subs w, repeatsOfTrace .maximal t = some subs ∧ MaximalRepeat t w ∧ w ∉ words t subs := by
  refine ⟨[26, 1, 23, 24, 2, 23, 24, 1, 23, 25, 2, 23, 25, 26], [⟨0, 1⟩, ⟨1, 2⟩, ⟨2, 2⟩, ⟨4, 2⟩, ⟨8, 2⟩], [23], by decide +kernel, ?_,
    by decide⟩
  have h2 : OccursAt [23] [26, 1, 23, 24, 2, 23, 24, 1, 23, 25, 2, 23, 25, 26] 2 :=
    ⟨[26, 1], [24, 2, 23, 24, 1, 23, 25, 2, 23, 25, 26], rfl, rfl⟩
  have h5 : OccursAt [23] [26, 1, 23, 24, 2, 23, 24, 1, 23, 25, 2, 23, 25, 26] 5 :=
    ⟨[26, 1, 23, 24, 2], [24, 1, 23, 25, 2, 23, 25, 26], rfl, rfl⟩
  have h8 : OccursAt [23] [26, 1, 23, 24, 2, 23, 24, 1, 23, 25, 2, 23, 25, 26] 8 :=
    ⟨[26, 1, 23, 24, 2, 23, 24, 1], [25, 2, 23, 25, 26], rfl, rfl⟩
  exact ⟨by simp, ⟨2, 5, h2, h5, by decide⟩, 2, 8, h2, h8, by decide⟩

/-- C139: what is found lies inside of the traces, as the discovery of activities needs it (`C136_defined`). -/
theorem C139_inside (kind : RepeatType) (hashes : List (List Nat)) : ∃ ps, repeatsFromAllTraces kind hashes = some ps ∧
    ps.length = hashes.length ∧ ∀ r ∈ indexedSubArrays (ps.take hashes.length), 0 < r.length ∧ InsideLog hashes r := by
  obtain ⟨ps, h1, h2⟩ := traces_each kind (reported kind) hashes
  refine ⟨ps, h1, h2.length_eq.symm, fun r hr => ?_⟩
  rw [List.take_of_length_le (by rw [h2.length_eq])] at hr
  unfold indexedSubArrays at hr
  obtain ⟨⟨subs, k⟩, hp, hs⟩ := List.mem_flatMap.1 hr
  obtain ⟨s, hs', rfl⟩ := List.mem_map.1 hs
  have hk : ps[k]? = some subs := List.mem_zipIdx_iff_getElem?.1 hp
  obtain ⟨hk1, hk2⟩ := List.getElem?_eq_some_iff.1 hk
  have hk3 : k < hashes.length := by rw [h2.length_eq]; exact hk1
  have hrep := (List.forall₂_iff_get.1 h2).2 k hk3 hk1
  have := hrep.1.1 s (by simpa [hk2] using hs')
  exact ⟨this.1, hashes[k], List.getElem?_eq_getElem hk3, this.2⟩

/-- Sub-arrays of two traces, the second one with its index. -/
example : (repeatsFromAllTraces .maximal [[1, 2, 3], [1, 2, 3, 1, 2, 4]]).map (fun ps => (indexedSubArrays ps).map
    (fun r => (r.traceIndex, r.firstPos, r.length))) = some [(1, 0, 2)] := by decide +kernel

/-- C139: with repeats of any kind, the discovery of activities until no more are found never panics (C136). -/
theorem C139_discovery_defined {P : Type} (o : LoopOptions P) (kind : RepeatType) (hk : o.discovery.patterns = repeatsFromAllTraces kind)
    (ho : ∀ f, o.after = some f → ∀ l, f l = some l) (hw : ∀ w, o.discovery.wordHash w ≠ none)
    (rounds : Nat) (log : List (List (Nested (REvent P)))) : untilNoMore o rounds log ≠ some none := by
  refine C136_defined o ho hw (fun hashes => ?_) rounds log
  obtain ⟨ps, h1, -, h3⟩ := C139_inside kind hashes
  exact ⟨ps, by rw [hk]; exact h1, fun r hr => (h3 r hr).2⟩

/-- A discovery with super maximal repeats, and what it makes of a log. -/
def exRepeats : LoopOptions Unit :=
  ⟨⟨Iter.plain, fun w => some w.sum, exNameHash, none, repeatsFromAllTraces .superMaximal, 0⟩, ⟨.narrowDown, 0, .noFilter⟩, .insertAllEvents,
    ⟨0, 0⟩, none, false⟩

example (rounds : Nat) (log : List (List (Nested (REvent Unit)))) : untilNoMore exRepeats rounds log ≠ some none :=
  C139_discovery_defined exRepeats .superMaximal rfl (by intro f hf; cases hf) (by intro w h; cases h) rounds log

example : shapeOf (untilNoMore exRepeats 8 [exAtoms ["s", "a", "b", "x", "a", "b", "e"]]) =
    some (some ([["s", "((a)::(b))", "x", "((a)::(b))", "e"]], 0)) := by decide +kernel

end Ficus.Rs
