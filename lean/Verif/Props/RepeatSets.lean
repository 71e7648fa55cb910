import Verif.Proofs.RepeatSets

/-! Property C27: repeat sets are deduplicated and complete. -/

namespace Ficus
open Spec
variable {E : Type}

theorem repeatSets_inv (log : Log E) (subs : List (List SubArray)) (ext : E → String)
    (hl : subs.length ≤ log.traces.length) :
    ∃ d, FirstInv (keyOfRepeat (hashTraces ext log)) (indexedSubArrays subs) d ∧
      createRepeatSets log subs ext = d.map Prod.snd := by
  refine ⟨_, firstInv_all _ _, ?_⟩
  unfold createRepeatSets createRepeatSetsOfHashes
  rw [repeatSetLoop_eq (hashTraces ext log) (hashTraces ext log) subs 0 [] rfl (by simpa [hashTraces, Log.evs] using hl)]
  rfl

/-- C27a: the result consists of given sub-arrays, tagged with the number of their trace, in the given order. -/
theorem C27_result_is_selection (log : Log E) (subs : List (List SubArray)) (ext : E → String)
    (hl : subs.length ≤ log.traces.length) :
    (createRepeatSets log subs ext).Sublist (indexedSubArrays subs) := by
  obtain ⟨d, inv, h⟩ := repeatSets_inv log subs ext hl
  rw [h]; exact inv.sub

/-- C27b: different entries have different event sets. -/
theorem C27_no_duplicate_sets (log : Log E) (subs : List (List SubArray)) (ext : E → String)
    (hl : subs.length ≤ log.traces.length) :
    (createRepeatSets log subs ext).Pairwise
      (fun x y => ¬ SameSet (coveredBy (wordsOf ext log) x) (coveredBy (wordsOf ext log) y)) := by
  obtain ⟨d, inv, h⟩ := repeatSets_inv log subs ext hl
  rw [h]
  have hk : (d.map Prod.fst).Nodup := inv.wf
  have he : d.map Prod.fst = (d.map Prod.snd).map (keyOfRepeat (hashTraces ext log)) := by
    rw [List.map_map]; exact List.map_congr_left (fun kv hkv => inv.keys kv hkv)
  rw [he, List.Nodup, List.pairwise_map] at hk
  refine hk.imp ?_
  intro x y hxy hs
  apply hxy
  rw [keyOfRepeat_eq, keyOfRepeat_eq, setHash_congr hs]

/-- C27c: every given sub-array's event set is represented, when the set hash has no collision among them. -/
theorem C27_every_set_represented (log : Log E) (subs : List (List SubArray)) (ext : E → String)
    (hl : subs.length ≤ log.traces.length)
    (hf : FaithfulSetHash (wordsOf ext log) (indexedSubArrays subs)) (x : RepeatSet)
    (hx : x ∈ indexedSubArrays subs) :
    ∃ y ∈ createRepeatSets log subs ext, SameSet (coveredBy (wordsOf ext log) y) (coveredBy (wordsOf ext log) x) := by
  obtain ⟨d, inv, h⟩ := repeatSets_inv log subs ext hl
  rw [h]
  have := inv.all x hx
  unfold Dict.keys at this
  obtain ⟨kv, hkv, he⟩ := List.mem_map.1 this
  refine ⟨kv.2, List.mem_map.2 ⟨kv, hkv, rfl⟩, ?_⟩
  have hmem : kv.2 ∈ indexedSubArrays subs := inv.sub.subset (List.mem_map.2 ⟨kv, hkv, rfl⟩)
  apply hf _ hmem _ hx
  rw [← keyOfRepeat_eq, ← keyOfRepeat_eq, ← he, inv.keys kv hkv]

/-- C27d: every entry is the first given sub-array with its event set. -/
theorem C27_first_representative (log : Log E) (subs : List (List SubArray)) (ext : E → String)
    (hl : subs.length ≤ log.traces.length) (y : RepeatSet) (hy : y ∈ createRepeatSets log subs ext) :
    ∃ pre post, indexedSubArrays subs = pre ++ y :: post ∧
      ∀ b ∈ pre, ¬ SameSet (coveredBy (wordsOf ext log) b) (coveredBy (wordsOf ext log) y) := by
  obtain ⟨d, inv, h⟩ := repeatSets_inv log subs ext hl
  rw [h] at hy
  obtain ⟨kv, hkv, rfl⟩ := List.mem_map.1 hy
  obtain ⟨pre, post, he, hp⟩ := inv.first kv hkv
  refine ⟨pre, post, he, fun b hb hs => hp b hb ?_⟩
  rw [keyOfRepeat_eq, keyOfRepeat_eq, setHash_congr hs]

/-- C27e, without a condition on the hashes: the result is exactly the sub-arrays that come first among those with the same
hash of the event set. -/
theorem C27_first_of_every_hash (log : Log E) (subs : List (List SubArray)) (ext : E → String)
    (hl : subs.length ≤ log.traces.length) (y : RepeatSet) :
    y ∈ createRepeatSets log subs ext ↔
      ∃ pre post, indexedSubArrays subs = pre ++ y :: post ∧
        ∀ b ∈ pre, setHash (coveredBy (wordsOf ext log) b) ≠ setHash (coveredBy (wordsOf ext log) y) := by
  obtain ⟨d, inv, h⟩ := repeatSets_inv log subs ext hl
  rw [h]
  constructor
  · intro hy
    obtain ⟨kv, hkv, rfl⟩ := List.mem_map.1 hy
    obtain ⟨pre, post, he, hp⟩ := inv.first kv hkv
    refine ⟨pre, post, he, fun b hb hs => hp b hb ?_⟩
    rw [keyOfRepeat_eq, keyOfRepeat_eq, hs]
  · rintro ⟨pre, post, he, hp⟩
    have hk := inv.all y (by rw [he]; simp)
    unfold Dict.keys at hk
    obtain ⟨kv, hkv, hke⟩ := List.mem_map.1 hk
    obtain ⟨pre', post', he', hp'⟩ := inv.first kv hkv
    have hkey : keyOfRepeat (hashTraces ext log) kv.2 = keyOfRepeat (hashTraces ext log) y := by
      rw [← inv.keys kv hkv, hke]
    rw [he] at he'
    rcases List.append_eq_append_iff.1 he' with ⟨m, h1, h2⟩ | ⟨m, h1, h2⟩
    · cases m with
      | nil =>
        simp only [List.nil_append, List.cons.injEq] at h2
        exact List.mem_map.2 ⟨kv, hkv, h2.1.symm⟩
      | cons b m =>
        simp only [List.cons_append, List.cons.injEq] at h2
        obtain ⟨rfl, -⟩ := h2
        exact absurd hkey.symm (hp' y (by rw [h1]; simp))
    · cases m with
      | nil =>
        simp only [List.nil_append, List.cons.injEq] at h2
        exact List.mem_map.2 ⟨kv, hkv, h2.1⟩
      | cons b m =>
        simp only [List.cons_append, List.cons.injEq] at h2
        obtain ⟨rfl, -⟩ := h2
        refine absurd ?_ (hp kv.2 (by rw [h1]; simp))
        rw [← keyOfRepeat_eq, ← keyOfRepeat_eq, hkey]

/-- C27f: sets with the same hash are taken for one, so that the condition of C27c cannot be dropped: of the sub-arrays with
the single events `aB` and `BC` only the first one is reported. -/
theorem C27_collision_loses_set :
    createRepeatSets (Log.ofEvs [["aB", "BC"]]) [[⟨0, 1⟩, ⟨1, 1⟩]] (id : String → String) = [⟨0, 1, 0⟩] ∧
    (∀ y ∈ createRepeatSets (Log.ofEvs [["aB", "BC"]]) [[⟨0, 1⟩, ⟨1, 1⟩]] (id : String → String),
      ¬ SameSet (coveredBy (wordsOf id (Log.ofEvs [["aB", "BC"]])) y)
        (coveredBy (wordsOf id (Log.ofEvs [["aB", "BC"]])) ⟨1, 1, 0⟩)) := by
  have h : createRepeatSets (Log.ofEvs [["aB", "BC"]]) [[⟨0, 1⟩, ⟨1, 1⟩]] (id : String → String) = [⟨0, 1, 0⟩] := by
    decide +kernel
  refine ⟨h, ?_⟩
  rw [h]
  simp only [List.mem_singleton, forall_eq]
  intro hs
  have := (hs "aB").1 (by decide +kernel)
  revert this
  decide +kernel

/-! ### Concrete case: `a b a` and `b a`, `c` in two traces -/

def exRepeatLog : Log String := Log.ofEvs [["a", "b", "a"], ["b", "a", "c"]]
def exRepeatSubs : List (List SubArray) := [[⟨0, 3⟩, ⟨1, 2⟩], [⟨0, 2⟩, ⟨2, 1⟩]]

example : createRepeatSets exRepeatLog exRepeatSubs id = [⟨0, 3, 0⟩, ⟨2, 1, 1⟩] := by decide +kernel

theorem sameSet_iff_forall {u v : List String} : SameSet u v ↔ (∀ x ∈ u, x ∈ v) ∧ ∀ x ∈ v, x ∈ u :=
  ⟨fun h => ⟨fun x hx => (h x).1 hx, fun x hx => (h x).2 hx⟩, fun h x => ⟨fun hx => h.1 x hx, fun hx => h.2 x hx⟩⟩

example : ∃ y ∈ createRepeatSets exRepeatLog exRepeatSubs id,
    SameSet (coveredBy (wordsOf id exRepeatLog) y) (coveredBy (wordsOf id exRepeatLog) ⟨0, 2, 1⟩) :=
  C27_every_set_represented exRepeatLog exRepeatSubs id (by decide)
    (by unfold FaithfulSetHash; simp only [sameSet_iff_forall]; decide +kernel) ⟨0, 2, 1⟩ (by decide +kernel)

example : ∃ pre post, indexedSubArrays exRepeatSubs = pre ++ ⟨2, 1, 1⟩ :: post ∧
    ∀ b ∈ pre, ¬ SameSet (coveredBy (wordsOf id exRepeatLog) b) (coveredBy (wordsOf id exRepeatLog) ⟨2, 1, 1⟩) :=
  C27_first_representative exRepeatLog exRepeatSubs id (by decide) ⟨2, 1, 1⟩ (by decide +kernel)

example : ∃ pre post, indexedSubArrays exRepeatSubs = pre ++ ⟨2, 1, 1⟩ :: post ∧
    ∀ b ∈ pre, setHash (coveredBy (wordsOf id exRepeatLog) b) ≠ setHash (coveredBy (wordsOf id exRepeatLog) ⟨2, 1, 1⟩) :=
  (C27_first_of_every_hash exRepeatLog exRepeatSubs id (by decide) ⟨2, 1, 1⟩).1 (by decide +kernel)

example : (createRepeatSets exRepeatLog exRepeatSubs id).Sublist (indexedSubArrays exRepeatSubs) :=
  C27_result_is_selection exRepeatLog exRepeatSubs id (by decide)

example : ¬ SameSet (coveredBy (wordsOf id exRepeatLog) ⟨0, 3, 0⟩) (coveredBy (wordsOf id exRepeatLog) ⟨2, 1, 1⟩) := by
  have := C27_no_duplicate_sets exRepeatLog exRepeatSubs id (by decide)
  rw [show createRepeatSets exRepeatLog exRepeatSubs id = [⟨0, 3, 0⟩, ⟨2, 1, 1⟩] by decide +kernel] at this
  simpa using this

end Ficus
