import Verif.Proofs.RsRepeatSets
import Verif.Props.RepeatSets
import Verif.Props.RsTandem

/-! Property C130: the repeat sets of the backend. -/

namespace Ficus.Rs
open Spec

/-- C130a: building repeat sets fails exactly if a pattern of one of the traces goes beyond the end of its trace, or if the hash of
the set of classes of a pattern is not defined (which is an overflow, see C129h). -/
theorem C130_panics_iff (it : Iter) (wordHash : List Nat → Option Nat) (log : List (List Nat)) (patterns : List (List SubArray)) :
    buildRepeatSets it wordHash log patterns = none ↔
      ∃ r ∈ indexedSubArrays (patterns.take log.length), ¬ InsideLog log r ∨ wordHash (ascending (wordAt log r)) = none := by
  rw [buildRepeatSets_none]
  simp only [keyAt_none]

theorem keyAt_defined {it : Iter} {wordHash : List Nat → Option Nat} {log : List (List Nat)} {patterns : List (List SubArray)}
    {r : List RepeatSet} (h : buildRepeatSets it wordHash log patterns = some r) :
    ∀ x ∈ indexedSubArrays (patterns.take log.length),
      InsideLog log x ∧ keyAt wordHash log x = wordHash (ascending (wordAt log x)) ∧ keyAt wordHash log x ≠ none := by
  intro x hx
  have hk : keyAt wordHash log x ≠ none := by
    intro hc
    rw [(buildRepeatSets_none it wordHash log patterns).2 ⟨x, hx, hc⟩] at h; cases h
  have hi : InsideLog log x := by
    by_contra hc
    exact hk ((keyAt_none _ _ _).2 (Or.inl hc))
  exact ⟨hi, keyAt_eq _ _ _ hi, hk⟩

theorem mem_result {it : Iter} {wordHash : List Nat → Option Nat} {log : List (List Nat)} {patterns : List (List SubArray)}
    {r : List RepeatSet} (h : buildRepeatSets it wordHash log patterns = some r) (x : RepeatSet) :
    x ∈ r ↔ ∃ k : Nat, (indexedSubArrays (patterns.take log.length))[k]? = some x ∧
      ∀ j < k, ∀ d, (indexedSubArrays (patterns.take log.length))[j]? = some d →
        wordHash (ascending (wordAt log d)) ≠ wordHash (ascending (wordAt log x)) := by
  have hd := keyAt_defined h
  obtain ⟨r', h1, -, h2⟩ := buildRepeatSets_some it wordHash log patterns (fun x hx => (hd x hx).2.2)
  rw [h] at h1
  cases h1
  rw [h2, mem_unseen]
  simp only [List.not_mem_nil, not_false_eq_true, true_and]
  refine exists_congr (fun k => and_congr_right (fun hk => ?_))
  refine forall_congr' (fun j => imp_congr_right (fun hj => forall_congr' (fun d => imp_congr_right (fun hjd => ?_))))
  obtain ⟨-, e1, n1⟩ := hd x (List.mem_of_getElem? hk)
  obtain ⟨-, e2, n2⟩ := hd d (List.mem_of_getElem? hjd)
  rw [← e1, ← e2]
  cases hx : keyAt wordHash log x with
  | none => exact absurd hx n1
  | some a =>
    cases hy : keyAt wordHash log d with
    | none => exact absurd hy n2
    | some b => simp

/-- C130b: whatever the hash of words is, the result is ordered by trace, start and length, has every set of classes at most once,
and each entry is the first pattern with its set of classes; every pattern is represented by an entry with the same hash. -/
theorem C130_selection (it : Iter) (wordHash : List Nat → Option Nat) (log : List (List Nat)) (patterns : List (List SubArray))
    (r : List RepeatSet) (h : buildRepeatSets it wordHash log patterns = some r) :
    r.Pairwise PlacedBefore ∧ r.Pairwise (fun x y => ¬ SameSet (wordAt log x) (wordAt log y)) ∧
    (∀ x ∈ r, InsideLog log x ∧ FirstOfSet log (indexedSubArrays (patterns.take log.length)) x) ∧
    ∀ y ∈ indexedSubArrays (patterns.take log.length), ∃ x ∈ r,
      wordHash (ascending (wordAt log x)) = wordHash (ascending (wordAt log y)) := by
  have hd := keyAt_defined h
  obtain ⟨r', h1, h3, h2⟩ := buildRepeatSets_some it wordHash log patterns (fun x hx => (hd x hx).2.2)
  rw [h] at h1
  cases h1
  have hfirst : ∀ x ∈ r, FirstOfSet log (indexedSubArrays (patterns.take log.length)) x := by
    intro x hx
    obtain ⟨k, hk, hj⟩ := (mem_result h x).1 hx
    exact ⟨k, hk, fun j hjk d hdj hs => hj j hjk d hdj (by rw [(ascending_eq_iff _ _).2 hs])⟩
  refine ⟨h3, ?_, ?_, ?_⟩
  · have hne : r.Pairwise (fun x y => x ≠ y) := h3.imp (fun hp he => by subst he; exact placedBefore_asymm _ _ hp hp)
    refine (List.pairwise_iff_forall_sublist.2 ?_)
    intro x y hxy hs
    have hx : x ∈ r := hxy.subset (by simp)
    have hy : y ∈ r := hxy.subset (by simp)
    have hxny : x ≠ y := by
      have := hne.sublist hxy
      simpa using this
    obtain ⟨k, hk, hj⟩ := hfirst x hx
    obtain ⟨k', hk', hj'⟩ := hfirst y hy
    rcases Nat.lt_trichotomy k k' with hlt | heq | hgt
    · exact hj' k hlt x hk hs
    · subst heq; rw [hk] at hk'; cases hk'; exact hxny rfl
    · exact hj k' hgt y hk' (fun z => (hs z).symm)
  · intro x hx
    obtain ⟨k, hk, hj⟩ := hfirst x hx
    exact ⟨(hd x (List.mem_of_getElem? hk)).1, k, hk, hj⟩
  · intro y hy
    let rs := indexedSubArrays (patterns.take log.length)
    obtain ⟨n, hn⟩ := List.mem_iff_getElem?.1 hy
    have hex : ∃ n, ∃ d, rs[n]? = some d ∧ wordHash (ascending (wordAt log d)) = wordHash (ascending (wordAt log y)) :=
      ⟨n, y, hn, rfl⟩
    classical
    obtain ⟨d, hd1, hd2⟩ := Nat.find_spec hex
    refine ⟨d, (mem_result h d).2 ⟨Nat.find hex, hd1, ?_⟩, hd2⟩
    intro j hj e he hc
    exact Nat.find_min hex hj ⟨e, he, hc.trans hd2⟩

/-- C130c (partial: the hash has to tell the sets of classes of the patterns apart): the result is the list of the first patterns of
every set of classes, ordered by trace, start and length. In particular it does not depend on the order in which maps are iterated. -/
theorem C130_first_of_every_set_partial (wordHash : List Nat → Option Nat) (log : List (List Nat)) (patterns : List (List SubArray))
    (hi : ∀ r ∈ indexedSubArrays (patterns.take log.length), InsideLog log r)
    (hh : TellsSets wordHash log (indexedSubArrays (patterns.take log.length))) :
    ∃ r, (∀ it, buildRepeatSets it wordHash log patterns = some r) ∧ r.Pairwise PlacedBefore ∧
      ∀ x, x ∈ r ↔ FirstOfSet log (indexedSubArrays (patterns.take log.length)) x := by
  have hsome : ∀ it, ∃ r, buildRepeatSets it wordHash log patterns = some r := by
    intro it
    cases hb : buildRepeatSets it wordHash log patterns with
    | some r => exact ⟨r, rfl⟩
    | none =>
      obtain ⟨r, hr, hc | hc⟩ := (C130_panics_iff it wordHash log patterns).1 hb
      · exact absurd (hi r hr) hc
      · exact absurd hc (hh.1 r hr)
  have hmem : ∀ it r, buildRepeatSets it wordHash log patterns = some r →
      ∀ x, x ∈ r ↔ FirstOfSet log (indexedSubArrays (patterns.take log.length)) x := by
    intro it r hr x
    rw [mem_result hr]
    refine exists_congr (fun k => and_congr_right (fun hk => ?_))
    refine forall_congr' (fun j => imp_congr_right (fun hj => forall_congr' (fun d => imp_congr_right (fun hjd => not_congr ?_))))
    constructor
    · exact hh.2 d (List.mem_of_getElem? hjd) x (List.mem_of_getElem? hk)
    · intro hs; rw [(ascending_eq_iff _ _).2 hs]
  let it0 : Iter := ⟨fun _ _ _ l => l, fun _ _ _ l => List.Perm.refl l⟩
  obtain ⟨r, hr⟩ := hsome it0
  refine ⟨r, ?_, (C130_selection it0 _ _ _ r hr).1, hmem it0 r hr⟩
  intro it
  obtain ⟨r', hr'⟩ := hsome it
  rw [hr', sortedBy_unique r' r (C130_selection it _ _ _ r' hr').1 (C130_selection it0 _ _ _ r hr).1
    (fun x => by rw [hmem it r' hr', hmem it0 r hr])]

/-- The hash of a pattern is a function of its set of classes: with iteration in any other order the result is a reordering of the
same list, hence the same (no condition on the hash). -/
theorem C130_any_order (it it' : Iter) (wordHash : List Nat → Option Nat) (log : List (List Nat)) (patterns : List (List SubArray)) :
    buildRepeatSets it wordHash log patterns = buildRepeatSets it' wordHash log patterns := by
  cases h : buildRepeatSets it wordHash log patterns with
  | none =>
    symm
    rw [C130_panics_iff] at h ⊢
    exact h
  | some r =>
    cases h' : buildRepeatSets it' wordHash log patterns with
    | none =>
      rw [(C130_panics_iff it _ _ _).2 ((C130_panics_iff it' _ _ _).1 h')] at h; cases h
    | some r' =>
      rw [sortedBy_unique r r' (C130_selection it _ _ _ r h).1 (C130_selection it' _ _ _ r' h').1
        (fun x => by rw [mem_result h, mem_result h'])]

theorem wordAt_map (hash : String → Nat) (words : List (List String)) (x : RepeatSet) :
    wordAt (words.map (List.map hash)) x = (coveredBy words x).map hash := by
  unfold wordAt coveredBy
  rw [List.getElem?_map]
  cases words[x.traceIndex]? <;> simp [List.map_take, List.map_drop]

theorem coveredBy_subset (words : List (List String)) (x : RepeatSet) (s : String) (h : s ∈ coveredBy words x) :
    s ∈ words.flatten := by
  unfold coveredBy at h
  cases hw : words[x.traceIndex]? with
  | none => rw [hw] at h; simp at h
  | some w =>
    rw [hw] at h
    exact List.mem_flatten.2 ⟨w, List.mem_of_getElem? hw, List.mem_of_mem_drop (List.mem_of_mem_take h)⟩

theorem sameSet_map (hash : String → Nat) (words : List (List String)) (hf : Set.InjOn hash {x | x ∈ words.flatten})
    (x y : RepeatSet) : SameSet ((coveredBy words x).map hash) ((coveredBy words y).map hash) ↔
      SameSet (coveredBy words x) (coveredBy words y) := by
  have key : ∀ x y : RepeatSet, SameSet ((coveredBy words x).map hash) ((coveredBy words y).map hash) →
      ∀ s, s ∈ coveredBy words x → s ∈ coveredBy words y := by
    intro x y h s hs
    have := (h (hash s)).1 (List.mem_map.2 ⟨s, hs, rfl⟩)
    obtain ⟨s', hs', he⟩ := List.mem_map.1 this
    rwa [← hf (coveredBy_subset words y s' hs') (coveredBy_subset words x s hs) he]
  constructor
  · intro h s
    exact ⟨key x y h s, key y x (fun z => (h z).symm) s⟩
  · intro h z
    simp only [List.mem_map]
    exact ⟨fun ⟨s, hs, he⟩ => ⟨s, (h s).1 hs, he⟩, fun ⟨s, hs, he⟩ => ⟨s, (h s).2 hs, he⟩⟩

/-- C130d (partial: the hashes on both sides have to tell events and sets apart): for the same patterns the backend and the local
library (C27) select the same repeat sets. They list them in different orders, see C130e. -/
theorem C130_same_as_local_partial (it : Iter) (hash : String → Nat) (wordHash : List Nat → Option Nat) {E : Type} (log : Log E)
    (ext : E → String) (patterns : List (List SubArray)) (hl : patterns.length ≤ log.traces.length)
    (hf : Set.InjOn hash {x | x ∈ (wordsOf ext log).flatten})
    (hi : ∀ r ∈ indexedSubArrays patterns, InsideLog ((wordsOf ext log).map (List.map hash)) r)
    (hh : TellsSets wordHash ((wordsOf ext log).map (List.map hash)) (indexedSubArrays patterns))
    (hp : FaithfulSetHash (wordsOf ext log) (indexedSubArrays patterns)) :
    ∃ r, buildRepeatSets it wordHash ((wordsOf ext log).map (List.map hash)) patterns = some r ∧
      r.Perm (createRepeatSets log patterns ext) := by
  have htake : patterns.take ((wordsOf ext log).map (List.map hash)).length = patterns := by
    apply List.take_of_length_le
    simpa [wordsOf] using hl
  obtain ⟨r, h1, h2, h3⟩ := C130_first_of_every_set_partial wordHash ((wordsOf ext log).map (List.map hash)) patterns
    (by rw [htake]; exact hi) (by rw [htake]; exact hh)
  rw [htake] at h3
  refine ⟨r, h1 it, ?_⟩
  refine (List.perm_ext_iff_of_nodup (h2.imp (fun hpb he => by subst he; exact placedBefore_asymm _ _ hpb hpb)) ?_).2 ?_
  · refine (C27_no_duplicate_sets log patterns ext hl).imp ?_
    rintro x y hxy rfl
    exact hxy (fun _ => Iff.rfl)
  · intro x
    rw [h3, C27_first_of_every_hash log patterns ext hl]
    constructor
    · rintro ⟨k, hk, hj⟩
      obtain ⟨hlt, he⟩ := List.getElem?_eq_some_iff.1 hk
      refine ⟨(indexedSubArrays patterns).take k, (indexedSubArrays patterns).drop (k + 1), ?_, ?_⟩
      · rw [← he, ← List.drop_eq_getElem_cons hlt, List.take_append_drop]
      · intro b hb hs
        obtain ⟨j, hjl, hjb⟩ := List.mem_take_iff_getElem.1 hb
        have hjb' : (indexedSubArrays patterns)[j]? = some b := by
          rw [List.getElem?_eq_getElem (by omega), hjb]
        refine hj j (by omega) b hjb' ?_
        rw [wordAt_map, wordAt_map, sameSet_map hash _ hf]
        exact hp b (List.mem_of_getElem? hjb') x (List.mem_of_getElem? hk) hs
    · rintro ⟨pre, post, he, hb⟩
      refine ⟨pre.length, by rw [he]; simp, ?_⟩
      intro j hj d hd hs
      rw [he, List.getElem?_append_left hj] at hd
      rw [wordAt_map, wordAt_map, sameSet_map hash _ hf] at hs
      exact hb d (List.mem_of_getElem? hd) (setHash_congr hs)

/-- Iteration in the order of insertion. -/
def plainOrder : Iter := ⟨fun _ _ _ l => l, fun _ _ _ l => List.Perm.refl l⟩

/-- C130e: the order of the patterns of a trace does not show in the result of the backend, but it does in the local one. -/
theorem C130_order_differs :
    buildRepeatSets plainOrder (polyHash true id) [[97, 98, 99]] [[⟨1, 2⟩, ⟨0, 2⟩]] = some [⟨0, 2, 0⟩, ⟨1, 2, 0⟩] ∧
    createRepeatSets (Log.ofEvs [["a", "b", "c"]]) [[⟨1, 2⟩, ⟨0, 2⟩]] id = [⟨1, 2, 0⟩, ⟨0, 2, 0⟩] := by decide +kernel

/-- C130f: sets with the same hash are taken for one, so that the condition of C130c cannot be dropped: here the sets of the classes
31, 40 and 0, 41 (with `hasher` the identity). -/
theorem C130_collision_loses_set :
    buildRepeatSets plainOrder (polyHash false id) [[31, 40, 0, 41]] [[⟨0, 2⟩, ⟨2, 2⟩]] = some [⟨0, 2, 0⟩] ∧
    ¬ SameSet (wordAt [[31, 40, 0, 41]] ⟨0, 2, 0⟩) (wordAt [[31, 40, 0, 41]] ⟨2, 2, 0⟩) := by
  refine ⟨by decide +kernel, ?_⟩
  intro h
  have := (h 31).1 (by decide)
  revert this; decide

/-- C130g: patterns of traces that the log does not have are ignored; the traces without a list of patterns have none. -/
theorem C130_lengths_may_differ :
    buildRepeatSets plainOrder (polyHash false id) [[1, 2]] [[⟨0, 2⟩], [⟨5, 2⟩]] = some [⟨0, 2, 0⟩] ∧
    buildRepeatSets plainOrder (polyHash false id) [[1, 2], [3, 4]] [[⟨0, 2⟩]] = some [⟨0, 2, 0⟩] := by decide +kernel

/-! ### Concrete cases -/

/-- Two traces; the second has a pattern with a set of classes that the first has, and the patterns are not in order. -/
def exClassLog : List (List Nat) := [[97, 98, 97, 99], [98, 97, 97, 99, 99]]
def exPatterns : List (List SubArray) := [[⟨2, 2⟩, ⟨0, 2⟩], [⟨0, 3⟩, ⟨2, 2⟩, ⟨1, 3⟩, ⟨0, 5⟩]]

instance (u v : List Nat) : Decidable (SameSet u v) :=
  decidable_of_iff ((∀ x ∈ u, x ∈ v) ∧ ∀ x ∈ v, x ∈ u)
    ⟨fun h x => ⟨h.1 x, h.2 x⟩, fun h => ⟨fun x => (h x).1, fun x => (h x).2⟩⟩

theorem ascending_compute (w : List Nat) : ascending w = w.dedup.insertionSort (fun a b => a ≤ b) := (sorted_eq_ascending w).symm

theorem tellsSets_of (hash : List Nat → Option Nat) (log : List (List Nat)) (rs : List RepeatSet)
    (h : (∀ r ∈ rs, hash ((wordAt log r).dedup.insertionSort (fun a b => a ≤ b)) ≠ none) ∧
      ∀ r ∈ rs, ∀ s ∈ rs, hash ((wordAt log r).dedup.insertionSort (fun a b => a ≤ b)) =
        hash ((wordAt log s).dedup.insertionSort (fun a b => a ≤ b)) → SameSet (wordAt log r) (wordAt log s)) :
    TellsSets hash log rs := by
  unfold TellsSets
  simp only [ascending_compute]
  exact h

theorem inside_of (log : List (List Nat)) (rs : List RepeatSet)
    (h : ∀ r ∈ rs, r.traceIndex < log.length ∧ r.firstPos + r.length ≤ ((log[r.traceIndex]?).getD []).length) :
    ∀ r ∈ rs, InsideLog log r := by
  intro r hr
  obtain ⟨h1, h2⟩ := h r hr
  rw [List.getElem?_eq_getElem h1] at h2
  exact ⟨_, List.getElem?_eq_getElem h1, h2⟩

/-- The hypotheses of C130c hold for it. -/
theorem exPatterns_tell : (∀ r ∈ indexedSubArrays (exPatterns.take exClassLog.length), InsideLog exClassLog r) ∧
    TellsSets (polyHash true id) exClassLog (indexedSubArrays (exPatterns.take exClassLog.length)) :=
  ⟨inside_of _ _ (by decide), tellsSets_of _ _ _ (by decide +kernel)⟩

example : ∃ r, (∀ it, buildRepeatSets it (polyHash true id) exClassLog exPatterns = some r) ∧
    r = [⟨0, 2, 0⟩, ⟨2, 2, 0⟩, ⟨0, 5, 1⟩] := by
  obtain ⟨r, h, -⟩ := C130_first_of_every_set_partial _ _ _ exPatterns_tell.1 exPatterns_tell.2
  refine ⟨r, h, ?_⟩
  have h1 := h plainOrder
  have h2 : buildRepeatSets plainOrder (polyHash true id) exClassLog exPatterns = some [⟨0, 2, 0⟩, ⟨2, 2, 0⟩, ⟨0, 5, 1⟩] := by
    decide +kernel
  rw [h1] at h2
  exact Option.some.inj h2

example : buildRepeatSets plainOrder (polyHash true id) [[1, 2, 3]] [[⟨0, 2⟩, ⟨2, 2⟩]] = none := by
  rw [C130_panics_iff]
  refine ⟨⟨2, 2, 0⟩, by decide, Or.inl ?_⟩
  rintro ⟨t, ht, hb⟩
  simp only [List.getElem?_cons_zero, Option.some.injEq] at ht
  subst ht
  revert hb; decide

/-- The hypotheses of C130d hold for a log with two kinds of sets. -/
example : ∃ r, buildRepeatSets plainOrder (polyHash true id) [[97, 98, 97, 99]] [[⟨0, 2⟩, ⟨1, 2⟩, ⟨2, 2⟩]] = some r ∧
    r.Perm (createRepeatSets (Log.ofEvs [["a", "b", "a", "c"]]) [[⟨0, 2⟩, ⟨1, 2⟩, ⟨2, 2⟩]] id) := by
  have hw : (wordsOf id (Log.ofEvs [["a", "b", "a", "c"]])).map (List.map exFirst) = [[97, 98, 97, 99]] := by decide
  have := C130_same_as_local_partial plainOrder exFirst (polyHash true id) (Log.ofEvs [["a", "b", "a", "c"]]) id
    [[⟨0, 2⟩, ⟨1, 2⟩, ⟨2, 2⟩]] (by decide)
    (by
      have : ∀ x ∈ (wordsOf id (Log.ofEvs [["a", "b", "a", "c"]])).flatten,
          ∀ y ∈ (wordsOf id (Log.ofEvs [["a", "b", "a", "c"]])).flatten, exFirst x = exFirst y → x = y := by decide
      exact fun x hx y hy e => this x hx y hy e)
    (by rw [hw]; exact inside_of _ _ (by decide))
    (by rw [hw]; exact tellsSets_of _ _ _ (by decide +kernel))
    (by
      have h : ∀ x ∈ indexedSubArrays [[⟨0, 2⟩, ⟨1, 2⟩, ⟨2, 2⟩]], ∀ y ∈ indexedSubArrays [[⟨0, 2⟩, ⟨1, 2⟩, ⟨2, 2⟩]],
        setHash (coveredBy (wordsOf id (Log.ofEvs [["a", "b", "a", "c"]])) x) =
          setHash (coveredBy (wordsOf id (Log.ofEvs [["a", "b", "a", "c"]])) y) →
        (∀ s ∈ coveredBy (wordsOf id (Log.ofEvs [["a", "b", "a", "c"]])) x,
          s ∈ coveredBy (wordsOf id (Log.ofEvs [["a", "b", "a", "c"]])) y) ∧
        (∀ s ∈ coveredBy (wordsOf id (Log.ofEvs [["a", "b", "a", "c"]])) y,
          s ∈ coveredBy (wordsOf id (Log.ofEvs [["a", "b", "a", "c"]])) x) := by decide +kernel
      exact fun x hx y hy e s => ⟨(h x hx y hy e).1 s, (h x hx y hy e).2 s⟩)
  rwa [hw] at this

end Ficus.Rs
