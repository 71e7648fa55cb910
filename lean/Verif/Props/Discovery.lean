import Verif.Proofs.Discovery
import Verif.Props.Rounds

/-! Property C97: what the discovery of activities finds in a log, from the patterns to the instances. -/

namespace Ficus
open Spec
variable {E : Type}

theorem factor_bounded (t : List String) (i l : Nat) :
    ∃ j, j < t.length + 1 ∧ ∃ m, m < t.length + 1 ∧ factor t i l = factor t j m := by
  unfold factor
  by_cases hi : i ≤ t.length
  · by_cases hl : l ≤ t.length
    · exact ⟨i, by omega, l, by omega, rfl⟩
    · refine ⟨i, by omega, t.length, by omega, ?_⟩
      rw [List.take_of_length_le (by simp; omega), List.take_of_length_le (by simp)]
  · refine ⟨t.length, by omega, 0, by omega, ?_⟩
    rw [List.drop_eq_nil_of_le (by omega)]; simp

/-- The different factors of several sequences. -/
def factorsOf (ts : List (List String)) : List (List String) :=
  (ts.flatMap (fun t => (List.range (t.length + 1)).flatMap (fun i =>
    (List.range (t.length + 1)).map (fun l => factor t i l)))).dedup

theorem factor_mem_factorsOf {ts : List (List String)} {t : List String} (ht : t ∈ ts) (i l : Nat) :
    factor t i l ∈ factorsOf ts := by
  obtain ⟨j, hj, m, hm, he⟩ := factor_bounded t i l
  rw [he]
  unfold factorsOf
  rw [List.mem_dedup]
  refine List.mem_flatMap.2 ⟨t, ht, List.mem_flatMap.2 ⟨j, List.mem_range.2 hj, List.mem_map.2 ⟨m, List.mem_range.2 hm, rfl⟩⟩⟩

/-- A finite check that is enough for `NoCollisions`. -/
theorem noCollisions_of {ts : List (List String)}
    (h1 : ∀ x ∈ ts.flatten, ∀ y ∈ ts.flatten, stringHash x = stringHash y → x = y)
    (h2 : ∀ u ∈ factorsOf ts, ∀ v ∈ factorsOf ts, setHash u = setHash v → (∀ x ∈ u, x ∈ v) ∧ ∀ x ∈ v, x ∈ u) :
    NoCollisions ts := by
  refine ⟨h1, fun u hu v hv i l j m he => ?_⟩
  obtain ⟨a, b⟩ := h2 _ (factor_mem_factorsOf hu i l) _ (factor_mem_factorsOf hv j m) he
  exact fun x => ⟨a x, b x⟩

/-- C97a: with a lawful library of suffix trees and without collisions of the hashes, discovery from patterns of any kind, in
the traces or in the merged trace, never raises, and the instances of every trace are its greedy segmentation with respect
to the patterns of the searched log. -/
theorem C97_instances {lib : TreeLib} (hl : LawfulTrees lib) (source : PatternsSource) (merged : Bool) (sep : Nat → E)
    (ext : E → String) (nameOf : Log E → RepeatSet → String) (level uid : Nat) (log : Log E)
    (hn : NoCollisions (wordsOf ext (searchedLog merged sep log)))
    (hb : BlocksDiffer source (wordsOf ext (searchedLog merged sep log))) :
    ∃ forest insts,
      discoverInstances lib source merged sep ext nameOf (fun _ => true) level uid log = .ok (forest, insts) ∧
      List.Forall₂ (fun es is =>
          Segmentation (PatternIn source (wordsOf ext (searchedLog merged sep log))) (es.map ext) (is.map span))
        log.evs insts := by
  obtain ⟨forest, insts, ps, h1, hd, hf, hx⟩ := discover_spec hl source merged sep ext nameOf level uid log hn hb
  refine ⟨forest, insts, h1, segmentation_of_forest log forest ext true insts hx (fun es hes => ?_)⟩
  exact known_classes _ ext ps hd hn _ level uid forest hf es (fun e he => searched_classes merged sep ext log e (hes e he))

/-- C97b: there is only one such segmentation. -/
theorem C97_segmentation_unique {P : List String → Prop} {t : List String} {l m : List (Nat × Nat)}
    (hl : Segmentation P t l) (hm : Segmentation P t m) : l = m := segmentation_unique hl hm

/-- C97c: the activities correspond one to one to the different sets of letters of the patterns of the searched log. -/
theorem C97_activities {lib : TreeLib} (hl : LawfulTrees lib) (source : PatternsSource) (merged : Bool) (sep : Nat → E)
    (ext : E → String) (nameOf : Log E → RepeatSet → String) (level uid : Nat) (log : Log E)
    (hn : NoCollisions (wordsOf ext (searchedLog merged sep log)))
    (hb : BlocksDiffer source (wordsOf ext (searchedLog merged sep log))) :
    ∃ forest, discoverActivities lib source merged sep ext nameOf level uid log = .ok forest ∧
      (∀ w, PatternIn source (wordsOf ext (searchedLog merged sep log)) w → ∃ a ∈ actsL forest, HasLetters a w) ∧
      (∀ a ∈ actsL forest, ∃ w, PatternIn source (wordsOf ext (searchedLog merged sep log)) w ∧ HasLetters a w) ∧
      (actsL forest).Pairwise (fun a b => ¬ SameSet a.events b.events) := by
  obtain ⟨forest, insts, ps, h1, hd, hf, hx⟩ := discover_spec hl source merged sep ext nameOf level uid log hn hb
  have hlen : ps.length = (wordsOf ext (searchedLog merged sep log)).length := (List.Forall₂.length_eq hd).symm
  have hle : ps.length ≤ (searchedLog merged sep log).traces.length := by rw [hlen, wordsOf_length]
  obtain ⟨hp, hnd, hall⟩ := C28_each_repeat_set_once _ _ _ level ext uid forest hf
  refine ⟨forest, ?_, ?_, ?_, ?_⟩
  · unfold discoverInstances at h1
    cases hda : discoverActivities lib source merged sep ext nameOf level uid log with
    | error e => rw [hda] at h1; cases h1
    | ok f =>
      rw [hda] at h1
      simp only [bind, Except.bind] at h1
      split at h1
      · obtain rfl := (Prod.mk.inj (Except.ok.inj h1)).1; rfl
      · cases h1
  · intro w hw
    obtain ⟨x, hx, rfl⟩ := (described_covered hd w).2 hw
    obtain ⟨y, hy, hs⟩ := C27_every_set_represented _ ps ext hle (faithful_of_noCollisions hn hlen) x hx
    obtain ⟨a, ha, rfl⟩ := List.mem_map.1 (hp.symm.subset hy)
    refine ⟨a, ha, fun h => ((hall a ha).2.2.2 h).trans ?_⟩
    exact ⟨fun ⟨z, h3, h4⟩ => ⟨z, (hs z).1 h3, h4⟩, fun ⟨z, h3, h4⟩ => ⟨z, (hs z).2 h3, h4⟩⟩
  · intro a ha
    have hr := hp.subset (List.mem_map.2 ⟨a, ha, rfl⟩)
    have hri := (C27_result_is_selection _ ps ext hle).subset hr
    exact ⟨_, (described_covered hd _).1 ⟨_, hri, rfl⟩, (hall a ha).2.2.2⟩
  · have hinj := created_sets_distinct _ ps _ level ext uid forest hle (fun x hx y hy => hn.classes x hx y hy) hf
    have hnd' : (actsL forest).Nodup := List.Nodup.of_map _ hnd
    exact List.Pairwise.imp_of_mem (fun ha hb hne hs => hne (hinj _ ha _ hb hs)) hnd'

/-- C97d: for repeats of all three kinds the instances are the segmentation with respect to all words that occur twice in a
sequence of the searched log; so all kinds give instances at the same places. -/
theorem C97_repeats {lib : TreeLib} (hl : LawfulTrees lib) (merged : Bool) (sep : Nat → E)
    (ext : E → String) (nameOf : Log E → RepeatSet → String) (level uid : Nat) (log : Log E)
    (hn : NoCollisions (wordsOf ext (searchedLog merged sep log))) (kind : RepeatKind) :
    ∃ forest insts,
      discoverInstances lib (.repeats kind) merged sep ext nameOf (fun _ => true) level uid log = .ok (forest, insts) ∧
      List.Forall₂ (fun es is =>
          Segmentation (RepeatIn (wordsOf ext (searchedLog merged sep log))) (es.map ext) (is.map span))
        log.evs insts := by
  obtain ⟨forest, insts, h1, h2⟩ := C97_instances hl (.repeats kind) merged sep ext nameOf level uid log hn trivial
  refine ⟨forest, insts, h1, h2.imp (fun es is hs => ?_)⟩
  refine ⟨hs.placed, fun i e he => ?_, fun p hp => (letters_of_kind kind _ _).1 (hs.together p hp), fun p hp e he => ?_⟩
  · rw [hs.cover i e he]
    have := letters_of_kind kind (wordsOf ext (searchedLog merged sep log)) [e]
    simpa using this
  · intro hw
    exact hs.maximal p hp e he ((letters_of_kind kind _ _).2 hw)

/-- C97d, second part. -/
theorem C97_kinds_same_places {lib : TreeLib} (hl : LawfulTrees lib) (merged : Bool) (sep : Nat → E)
    (ext : E → String) (nameOf : Log E → RepeatSet → String) (level uid : Nat) (log : Log E)
    (hn : NoCollisions (wordsOf ext (searchedLog merged sep log))) (k1 k2 : RepeatKind) (f1 f2 : List ActTree)
    (i1 i2 : List (List Instance))
    (h1 : discoverInstances lib (.repeats k1) merged sep ext nameOf (fun _ => true) level uid log = .ok (f1, i1))
    (h2 : discoverInstances lib (.repeats k2) merged sep ext nameOf (fun _ => true) level uid log = .ok (f2, i2)) :
    i1.map (·.map span) = i2.map (·.map span) := by
  obtain ⟨_, _, e1, s1⟩ := C97_repeats hl merged sep ext nameOf level uid log hn k1
  obtain ⟨_, _, e2, s2⟩ := C97_repeats hl merged sep ext nameOf level uid log hn k2
  rw [h1] at e1
  rw [h2] at e2
  obtain ⟨_, rfl⟩ := Prod.mk.inj (Except.ok.inj e1)
  obtain ⟨_, rfl⟩ := Prod.mk.inj (Except.ok.inj e2)
  clear h1 h2 e1 e2
  generalize log.evs = ts at s1 s2
  induction s1 generalizing i2 with
  | nil => cases s2; rfl
  | cons a _ ih =>
    cases s2 with
    | cons b s2 =>
      simp only [List.map_cons]
      rw [segmentation_unique a b, ih _ s2]

/-- C97e: searching all traces, an event is covered by an instance exactly if its class occurs at least twice in one of the
traces. -/
theorem C97_covered_all {lib : TreeLib} (hl : LawfulTrees lib) (sep : Nat → E)
    (ext : E → String) (nameOf : Log E → RepeatSet → String) (level uid : Nat) (log : Log E)
    (hn : NoCollisions (wordsOf ext log)) (kind : RepeatKind) :
    ∃ forest insts,
      discoverInstances lib (.repeats kind) false sep ext nameOf (fun _ => true) level uid log = .ok (forest, insts) ∧
      List.Forall₂ (fun es is => ∀ i e, es[i]? = some e →
          (Covered (is.map span) i ↔ ∃ other ∈ log.evs, 2 ≤ (other.map ext).count (ext e)))
        log.evs insts := by
  obtain ⟨forest, insts, h1, h2⟩ := C97_repeats hl false sep ext nameOf level uid log hn kind
  refine ⟨forest, insts, h1, h2.imp (fun es is hs i e he => ?_)⟩
  rw [hs.cover i (ext e) (by rw [List.getElem?_map, he]; rfl), letter_of_repeat]
  simp [searchedLog, wordsOf_evs]

/-- C97f: searching the merged trace, an event is covered exactly if its class occurs at least twice in the whole log, when
the separators have classes of their own. -/
theorem C97_covered_merged {lib : TreeLib} (hl : LawfulTrees lib) (sep : Nat → E)
    (ext : E → String) (nameOf : Log E → RepeatSet → String) (level uid : Nat) (log : Log E)
    (hn : NoCollisions (wordsOf ext (mergeAllTraces sep log)))
    (hs : ∀ i, i < log.traces.length → ext (sep i) ∉ (wordsOf ext log).flatten) (kind : RepeatKind) :
    ∃ forest insts,
      discoverInstances lib (.repeats kind) true sep ext nameOf (fun _ => true) level uid log = .ok (forest, insts) ∧
      List.Forall₂ (fun es is => ∀ i e, es[i]? = some e →
          (Covered (is.map span) i ↔ 2 ≤ (wordsOf ext log).flatten.count (ext e)))
        log.evs insts := by
  obtain ⟨forest, insts, h1, h2⟩ := C97_repeats hl true sep ext nameOf level uid log hn kind
  refine ⟨forest, insts, h1, ?_⟩
  have hw : wordsOf ext (searchedLog true sep log) = [(mergeLoop sep 0 log.evs).map ext] := by
    simp [searchedLog, mergeAllTraces, wordsOf_evs, Log.ofEvs, Log.evs]
  have hfl : (wordsOf ext log).flatten = log.evs.flatten.map ext := by rw [wordsOf_evs, List.map_flatten]
  have key : ∀ es ∈ log.evs, ∀ is : List Instance,
      Segmentation (RepeatIn (wordsOf ext (searchedLog true sep log))) (es.map ext) (is.map span) →
      ∀ i e, es[i]? = some e → (Covered (is.map span) i ↔ 2 ≤ (wordsOf ext log).flatten.count (ext e)) := by
    intro es hes is hseg i e he
    rw [hseg.cover i (ext e) (by rw [List.getElem?_map, he]; rfl), letter_of_repeat, hw]
    simp only [List.mem_singleton, exists_eq_left]
    have hmem : ext e ∈ (wordsOf ext log).flatten := by
      rw [hfl]
      exact List.mem_map_of_mem (List.mem_flatten.2 ⟨es, hes, List.mem_of_getElem? he⟩)
    rw [mergeLoop_class_count sep ext 0 log.evs (ext e) (fun i _ hi hc => hs i (by simpa [Log.evs] using hi) (hc ▸ hmem)), hfl]
  exact ((List.forall₂_and_left _ _).2 ⟨fun es hes => hes, h2⟩).imp (fun es is h => key es h.1 is h.2)

/-! ### Concrete cases -/

/-- Two traces; the word `abc` is repeated in the first one, the letters of the second one belong to it. -/
def discoveryLog : Log String := Log.ofEvs [["a", "b", "c", "x", "a", "b", "c"], ["a", "y", "b"]]

/-- Separators with names of their own. -/
def discoverySep (i : Nat) : String := if i = 0 then "#0" else "#1"

theorem discoveryLog_ok : NoCollisions (wordsOf id discoveryLog) :=
  noCollisions_of (by decide +kernel) (by decide +kernel)

theorem discoveryLog_merged_ok : NoCollisions (wordsOf id (mergeAllTraces discoverySep discoveryLog)) :=
  noCollisions_of (by decide +kernel) (by decide +kernel)

example (kind : RepeatKind) : ∃ forest insts,
    discoverInstances slowTrees (.repeats kind) false discoverySep id (fun _ _ => "") (fun _ => true) 0 0 discoveryLog =
      .ok (forest, insts) ∧
    List.Forall₂ (fun es is => ∀ i e, es[i]? = some e →
      (Covered (is.map span) i ↔ ∃ other ∈ discoveryLog.evs, 2 ≤ (other.map id).count (id e))) discoveryLog.evs insts :=
  C97_covered_all slowTrees_lawful discoverySep id _ 0 0 discoveryLog discoveryLog_ok kind

example (kind : RepeatKind) : ∃ forest insts,
    discoverInstances slowTrees (.repeats kind) true discoverySep id (fun _ _ => "") (fun _ => true) 0 0 discoveryLog =
      .ok (forest, insts) ∧
    List.Forall₂ (fun es is => ∀ i e, es[i]? = some e →
      (Covered (is.map span) i ↔ 2 ≤ (wordsOf id discoveryLog).flatten.count (id e))) discoveryLog.evs insts :=
  C97_covered_merged slowTrees_lawful discoverySep id _ 0 0 discoveryLog discoveryLog_merged_ok (by decide +kernel) kind

/-- The places of the instances. -/
def places (r : Except PyErr (List ActTree × List (List Instance))) : Option (List (List (Nat × Nat))) :=
  match r with
  | .ok p => some (p.2.map (·.map span))
  | .error _ => none

example : places (discoverInstances slowTrees (.repeats .superMaximal) false discoverySep id (fun _ _ => "")
    (fun _ => true) 0 0 discoveryLog) = some [[(0, 3), (4, 3)], [(0, 1), (2, 1)]] := by decide +kernel

/-- The hypotheses of C97a for tandem arrays can be met. -/
example : ∃ forest insts, discoverInstances slowTrees (.tandems .maximal 5) false discoverySep id (fun _ _ => "")
      (fun _ => true) 0 0 (Log.ofEvs [["x", "a", "b", "a", "b"]]) = .ok (forest, insts) ∧
    List.Forall₂ (fun es is => Segmentation (PatternIn (.tandems .maximal 5) [["x", "a", "b", "a", "b"]]) (es.map id)
      (is.map span)) [["x", "a", "b", "a", "b"]] insts :=
  C97_instances slowTrees_lawful (.tandems .maximal 5) false discoverySep id _ 0 0
    (Log.ofEvs [["x", "a", "b", "a", "b"]]) (noCollisions_of (by decide +kernel) (by decide +kernel)) (by
      intro t ht
      obtain rfl := List.mem_singleton.1 ht
      exact faithfulHash_of _ (by decide +kernel))

/-- C97g: a loop can be missed altogether: the block `ab` is repeated at position 3, but its first occurrence is at position
0, where it is not repeated; no activity is discovered and no event is covered. -/
theorem C97_loop_missed (lib : TreeLib) (kind : TandemKind) :
    Repeats ["a", "b", "c", "a", "b", "a", "b"] 3 2 2 ∧
    discoverInstances lib (.tandems kind 5) false discoverySep id (fun _ _ => "") (fun _ => true) 0 0
      (Log.ofEvs [["a", "b", "c", "a", "b", "a", "b"]]) = .ok ([], [[]]) := by
  refine ⟨by unfold Repeats; decide, ?_⟩
  cases kind <;> rfl

end Ficus
