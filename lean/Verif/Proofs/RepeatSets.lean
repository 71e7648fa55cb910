import Verif.Spec.Activity
import Verif.Proofs.Dict
import Verif.Proofs.Info

namespace Ficus
open Spec

/-- Set semantics of the sorted duplicate-free list. -/
theorem sortedSet_congr {u v : List Int} (h : SameSet u v) : sortedSet u = sortedSet v := by
  unfold sortedSet
  have hp : u.dedup.Perm v.dedup := by
    rw [List.perm_ext_iff_of_nodup (List.nodup_dedup u) (List.nodup_dedup v)]
    intro x; simp [h x]
  refine List.Perm.eq_of_pairwise' (r := fun a b : Int => a ≤ b) (List.pairwise_insertionSort _ _)
    (List.pairwise_insertionSort _ _) ?_
  exact ((List.perm_insertionSort _ _).trans hp).trans (List.perm_insertionSort _ _).symm

theorem setHash_congr {u v : List String} (h : SameSet u v) : setHash u = setHash v := by
  unfold setHash
  rw [sortedSet_congr (u := u.map stringHash) (v := v.map stringHash)]
  intro x
  simp only [List.mem_map]
  constructor
  · rintro ⟨a, ha, rfl⟩; exact ⟨a, (h a).1 ha, rfl⟩
  · rintro ⟨a, ha, rfl⟩; exact ⟨a, (h a).2 ha, rfl⟩

/-- The idiom "first value per key wins". -/
def firstStep {A : Type} (key : A → Int) (d : Dict Int A) (a : A) : Dict Int A :=
  if Dict.contains d (key a) then d else Dict.set d (key a) a

/-- What the "first value per key wins" loop computes after the elements `done`. -/
structure FirstInv {A : Type} (key : A → Int) (done : List A) (d : Dict Int A) : Prop where
  keys : ∀ kv ∈ d, kv.1 = key kv.2
  wf : Dict.WF d
  sub : (d.map Prod.snd).Sublist done
  all : ∀ a ∈ done, key a ∈ Dict.keys d
  first : ∀ kv ∈ d, ∃ pre post, done = pre ++ kv.2 :: post ∧ ∀ b ∈ pre, key b ≠ key kv.2

theorem firstInv_step {A : Type} (key : A → Int) (done : List A) (d : Dict Int A) (a : A)
    (inv : FirstInv key done d) : FirstInv key (done ++ [a]) (firstStep key d a) := by
  unfold firstStep
  by_cases h : Dict.contains d (key a) = true
  · rw [if_pos h]
    rw [Dict.contains_iff] at h
    refine ⟨inv.keys, inv.wf, ?_, ?_, ?_⟩
    · exact inv.sub.trans (List.sublist_append_left _ _)
    · intro b hb
      rcases List.mem_append.1 hb with hb | hb
      · exact inv.all b hb
      · obtain rfl := List.mem_singleton.1 hb; exact h
    · intro kv hkv
      obtain ⟨pre, post, he, hp⟩ := inv.first kv hkv
      exact ⟨pre, post ++ [a], by simp [he], hp⟩
  · rw [if_neg h]
    have hn : key a ∉ Dict.keys d := by rwa [Dict.contains_iff] at h
    rw [set_append_of_notMem d (key a) a hn]
    refine ⟨?_, ?_, ?_, ?_, ?_⟩
    · intro kv hkv
      rcases List.mem_append.1 hkv with hkv | hkv
      · exact inv.keys kv hkv
      · obtain rfl := List.mem_singleton.1 hkv; rfl
    · rw [← set_append_of_notMem d (key a) a hn]; exact Dict.WF_set inv.wf _ _
    · rw [List.map_append]; exact inv.sub.append (by simp)
    · intro b hb
      simp only [Dict.keys, List.map_append, List.mem_append, List.map_cons, List.map_nil]
      rcases List.mem_append.1 hb with hb | hb
      · exact Or.inl (inv.all b hb)
      · obtain rfl := List.mem_singleton.1 hb; exact Or.inr (by simp)
    · intro kv hkv
      rcases List.mem_append.1 hkv with hkv | hkv
      · obtain ⟨pre, post, he, hp⟩ := inv.first kv hkv
        exact ⟨pre, post ++ [a], by simp [he], hp⟩
      · obtain rfl := List.mem_singleton.1 hkv
        refine ⟨done, [], rfl, ?_⟩
        intro b hb he
        exact hn (by simpa [he] using inv.all b hb)

theorem firstInv_fold {A : Type} (key : A → Int) (l done : List A) (d : Dict Int A)
    (inv : FirstInv key done d) : FirstInv key (done ++ l) (l.foldl (firstStep key) d) := by
  induction l generalizing done d with
  | nil => simpa using inv
  | cons a l ih => simpa using ih (done ++ [a]) _ (firstInv_step key done d a inv)

theorem firstInv_all {A : Type} (key : A → Int) (l : List A) : FirstInv key l (l.foldl (firstStep key) []) := by
  simpa using firstInv_fold key l [] [] ⟨by simp, by simp [Dict.WF, Dict.keys], by simp, by simp, by simp⟩

/-- The key of a sub-array of a log. -/
def keyOfRepeat (hashes : List (List Int)) (r : RepeatSet) : Int :=
  collHashAll (fun h : Int => h) (sortedSet (slice ((hashes[r.traceIndex]?).getD []) r.firstPos r.length))

def indexedFrom (n : Nat) (subs : List (List SubArray)) : List RepeatSet :=
  (subs.zipIdx n).flatMap (fun p => p.1.map (fun s => { firstPos := s.firstPos, length := s.length, traceIndex := p.2 }))

theorem repeatSetLoop_eq (hashes rest : List (List Int)) (subs : List (List SubArray)) (n : Nat)
    (d : Dict Int RepeatSet) (hd : hashes.drop n = rest) (hl : subs.length ≤ rest.length) :
    repeatSetLoop (subs.zip rest) n d = (indexedFrom n subs).foldl (firstStep (keyOfRepeat hashes)) d := by
  induction subs generalizing rest n d with
  | nil => simp [repeatSetLoop, indexedFrom]
  | cons s subs ih =>
    cases rest with
    | nil => simp at hl
    | cons t rest =>
      have ht : hashes[n]? = some t := by
        have := congrArg (fun l => l[0]?) hd
        simpa using this
      have hd' : hashes.drop (n + 1) = rest := by
        rw [← List.tail_drop, hd]; rfl
      simp only [List.zip_cons_cons, repeatSetLoop]
      rw [ih rest (n + 1) _ hd' (by simpa using hl)]
      unfold indexedFrom
      simp only [List.zipIdx_cons, List.flatMap_cons, List.foldl_append, List.foldl_map]
      congr 1
      apply congrArg (fun f => List.foldl f d s)
      funext d' sub
      simp [repeatSetStep, firstStep, keyOfRepeat, ht]

theorem slice_map {α β : Type} (f : α → β) (t : List α) (i l : Nat) : slice (t.map f) i l = (slice t i l).map f := by
  simp [slice, List.map_take, List.map_drop]

theorem keyOfRepeat_eq {E : Type} (ext : E → String) (log : Log E) (r : RepeatSet) :
    keyOfRepeat (hashTraces ext log) r = setHash (coveredBy (wordsOf ext log) r) := by
  unfold keyOfRepeat setHash coveredBy wordsOf hashTraces Log.evs
  simp only [List.map_map, List.getElem?_map]
  cases log.traces[r.traceIndex]? with
  | none => simp [slice]
  | some t => simp [slice, List.map_take, List.map_drop, Function.comp_def]

end Ficus
