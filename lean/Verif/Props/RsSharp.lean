import Verif.Proofs.RsSharp

/-! C173 and C174: alpha sharp. -/

namespace Ficus.Rs
open Spec Spec.Ends Spec.Sharp Spec.Nfc Rs.Nfc Rs.Sharp

variable {E : Type} [HasName E]

/-- **C173** (panics). Alpha sharp panics exactly if some trace has fewer than two events. -/
theorem C173_panics (it : Iter) (hash : List String → Nat) (log : List (List E)) :
    sharpStart it hash log = none ↔ ShortTrace (namesOf log) := by
  obtain ⟨o1, _⟩ := oneLoops_spec (namesOf log)
  obtain ⟨t1, _⟩ := triangles_spec (namesOf log)
  unfold sharpStart
  change (oneLoops (namesOf log)).bind (fun _ => (triangles (namesOf log)).map _) = none ↔ _
  constructor
  · intro h
    cases e1 : oneLoops (namesOf log) with
    | none => exact ⟨[], o1.mp e1, by simp⟩
    | some l =>
      rw [e1, Option.bind_some, Option.map_eq_none_iff] at h
      exact t1.mp h
  · intro h
    rw [t1.mpr h]
    simp

/-- Both cases of it. -/
example : sharpStart .plain exHash [["a", "b"], ["c"]] = none ∧ (sharpStart .plain exHash [["a", "b"], ["a", "c", "b"]]).isSome := by
  decide +kernel

/-- **C173** (pairs and tuples). The pairs that alpha sharp prints are exactly the pairs of classes in the advanced relation that are not
redundant, each once. The tuples that it prints before it merges them are of such a pair and two classes that do not go together; and for
all such classes there is one, or another one with the same hash. -/
theorem C173_start (it : Iter) (hash : List String → Nat) (log : List (List E)) (s : Start) (h : sharpStart it hash log = some s) :
    s.pairs.Nodup ∧ (∀ a b, (a, b) ∈ s.pairs ↔ Advanced (namesOf log) a b ∧ ¬ Redundant (namesOf log) a b) ∧
    (∀ t ∈ s.tuples, ∃ a b x y, t = ⟨[([a], [x])], [([y], [b])]⟩ ∧ (a, b) ∈ s.pairs ∧ x ∈ (namesOf log).flatten ∧
      y ∈ (namesOf log).flatten ∧ ¬ Together (namesOf log) x y) ∧
    ∀ a b x y, (a, b) ∈ s.pairs → x ∈ (namesOf log).flatten → y ∈ (namesOf log).flatten → ¬ Together (namesOf log) x y →
      ∃ t ∈ s.tuples, hash t.key = hash [a, x, y, b] := by
  obtain ⟨_, t2⟩ := triangles_spec (namesOf log)
  unfold sharpStart at h
  obtain ⟨_, _, h⟩ := Option.bind_eq_some_iff.mp h
  obtain ⟨tri, htri, rfl⟩ := Option.map_eq_some_iff.mp h
  have T := relOf_tells it log tri (t2 tri htri)
  obtain ⟨p1, p2⟩ := pairs_tells T
  refine ⟨p1, p2, fun t ht => ?_, fun a b x y hab hx hy hxy => ?_⟩
  · obtain ⟨l', h1, h2⟩ := insertBy_tail (Tuple.same hash) (((it.order "advanced_pairs" 0 (advancedPairs (relOf it log tri)))).flatMap (fun ab =>
      (relOf it log tri).classes.flatMap (fun x => (relOf it log tri).classes.filterMap (fun y => tryNew (relOf it log tri) (ab.1, x) (y, ab.2))))) []
    have ht := h1.subset (by dsimp only [firstTuples] at ht; rw [h2, List.nil_append] at ht; exact ht)
    obtain ⟨⟨a, b⟩, hab, ht⟩ := List.mem_flatMap.mp ht
    obtain ⟨x, hx, ht⟩ := List.mem_flatMap.mp ht
    obtain ⟨y, hy, ht⟩ := List.mem_filterMap.mp ht
    obtain ⟨rfl, _, hn⟩ := (tryNew_tells T _ _ _).mp ht
    exact ⟨a, b, x, y, rfl, (it.perm _ _ _).mem_iff.mp hab, (T.classes x).mp hx, (T.classes y).mp hy, hn⟩
  · have hmem : (⟨[([a], [x])], [([y], [b])]⟩ : Tuple) ∈ (it.order "advanced_pairs" 0 (advancedPairs (relOf it log tri))).flatMap (fun ab =>
        (relOf it log tri).classes.flatMap (fun x =>
          (relOf it log tri).classes.filterMap (fun y => tryNew (relOf it log tri) (ab.1, x) (y, ab.2)))) := by
      refine List.mem_flatMap.mpr ⟨(a, b), (it.perm _ _ _).mem_iff.mpr hab, List.mem_flatMap.mpr ⟨x, (T.classes x).mpr hx,
        List.mem_filterMap.mpr ⟨y, (T.classes y).mpr hy, (tryNew_tells T _ _ _).mpr ⟨rfl, ((p2 a b).mp hab).1, hxy⟩⟩⟩⟩
    have hrep : ∀ (l acc : List Tuple) (t : Tuple), (t ∈ l ∨ ∃ u ∈ acc, hash u.key = hash t.key) →
        ∃ u ∈ l.foldl (insertBy (Tuple.same hash)) acc, hash u.key = hash t.key := by
      intro l
      induction l with
      | nil => intro acc t h; simpa using h
      | cons v l ih =>
        intro acc t h
        rw [List.foldl_cons]
        refine ih _ t ?_
        have hacc : ∀ u ∈ acc, u ∈ insertBy (Tuple.same hash) acc v := by
          intro u hu
          unfold insertBy
          split
          · exact hu
          · exact List.mem_append_left _ hu
        rcases h with h | ⟨u, hu, e⟩
        · rcases List.mem_cons.mp h with rfl | h
          · right
            by_cases hv : acc.any (Tuple.same hash t) = true
            · obtain ⟨u, hu, e⟩ := List.any_eq_true.mp hv
              exact ⟨u, hacc u hu, (of_decide_eq_true e).symm⟩
            · refine ⟨t, ?_, rfl⟩
              unfold insertBy
              rw [if_neg hv]
              simp
          · exact Or.inl h
        · exact Or.inr ⟨u, hacc u hu, e⟩
    exact hrep _ [] _ (Or.inl hmem)

/-- From "a" the log goes to "b" with or without "c" between: one pair, with all classes. -/
example : (sharpStart .plain exHash [["a", "b"], ["a", "c", "b"]]).map (fun s => (s.pairs, s.tuples.length)) = some ([("a", "b")], 9) := by
  decide +kernel

/-- **C174** (what holds of the merged tuples; that all are valid does not, see `C174_invalid`). If the merging ends, no two different
tuples of the result can be merged: the tuple with the pairs of both is not valid. Each tuple is valid, or the second sets of all its pairs
were replaced by the first. The first sets of the input pairs have the first class of a pair that was printed, those of the output
pairs a class of the log. There are tuples at the end if there were some at the beginning, and the same ones if no two could be merged. -/
theorem C174_result_partial (it : Iter) (hash : List String → Nat) (fuel : Nat) (log : List (List E)) (s : Start) (r : List Tuple)
    (hs : sharpStart it hash log = some s) (h : discoverSharp it hash fuel log = some r) :
    (s.tuples ≠ [] → r ≠ []) ∧
    ((∀ t ∈ s.tuples, ∀ u ∈ s.tuples, t ≠ u → ¬ ∃ m, Union m t u ∧ Valid (namesOf log) m) → r = s.tuples) ∧
    (∀ t ∈ r, ∀ u ∈ r, t ≠ u → ¬ ∃ m, Union m t u ∧ Valid (namesOf log) m) ∧
    ∀ t ∈ r, (Valid (namesOf log) t ∨ Doubled t) ∧ t.pin ≠ [] ∧ t.pout ≠ [] ∧
      (∀ i ∈ t.pin, ∃ a b, i.1 = [a] ∧ (a, b) ∈ s.pairs) ∧ ∀ o ∈ t.pout, ∃ y ∈ (namesOf log).flatten, o.1 = [y] := by
  obtain ⟨_, c2, c3, _⟩ := C173_start it hash log s hs
  have hT : Tells s.rel (namesOf log) ∧ s.tuples.Nodup := by
    obtain ⟨_, t2⟩ := triangles_spec (namesOf log)
    unfold sharpStart at hs
    obtain ⟨_, _, hs⟩ := Option.bind_eq_some_iff.mp hs
    obtain ⟨tri, htri, rfl⟩ := Option.map_eq_some_iff.mp hs
    exact ⟨relOf_tells it log tri (t2 tri htri), insertBy_nodup _ (fun x => by simp [Tuple.same]) _ _ List.nodup_nil⟩
  obtain ⟨hT, hnd⟩ := hT
  unfold discoverSharp at h
  rw [hs, Option.bind_some] at h
  refine ⟨fun hne => sharpMaximize_ne it _ _ fuel 0 s.tuples r hne h, fun hno => sharpMaximize_same it _ _ fuel s.tuples r hnd
    (fun x hx y hy hne => ?_) h, ?_⟩
  · cases e : tryMerge s.rel x y with
    | none => rfl
    | some m => exact absurd ⟨m, (tryMerge_tells hT e).2, (tryMerge_tells hT e).1⟩ (hno x hx y hy hne)
  refine (fun k => ⟨fun t ht u hu hne => tryMerge_none hT (k.2 t ht u hu hne), k.1⟩) (sharpMaximize_keeps it (Tuple.same hash) (tryMerge s.rel) (fun t => (Valid (namesOf log) t ∨ Doubled t) ∧ t.pin ≠ [] ∧
      t.pout ≠ [] ∧ (∀ i ∈ t.pin, ∃ a b, i.1 = [a] ∧ (a, b) ∈ s.pairs) ∧ ∀ o ∈ t.pout, ∃ y ∈ (namesOf log).flatten, o.1 = [y])
    ?_ ?_ fuel 0 s.tuples r ?_ h)
  · rintro x y m ⟨_, x2, x3, x4, x5⟩ ⟨_, _, _, y4, y5⟩ hm
    obtain ⟨v, _, _, u3, u4⟩ := tryMerge_tells hT hm
    refine ⟨Or.inl v, ?_, ?_, fun i hi => ?_, fun o ho => ?_⟩
    · obtain ⟨i, hi⟩ := List.exists_mem_of_ne_nil _ x2
      exact List.ne_nil_of_mem ((u3 i).mpr (Or.inl hi))
    · obtain ⟨o, ho⟩ := List.exists_mem_of_ne_nil _ x3
      exact List.ne_nil_of_mem ((u4 o).mpr (Or.inl ho))
    · exact ((u3 i).mp hi).elim (x4 i) (y4 i)
    · exact ((u4 o).mp ho).elim (x5 o) (y5 o)
  · rintro x ⟨_, x2, x3, x4, x5⟩
    have m1 : ∀ i, i ∈ x.clone.pin ↔ ∃ j ∈ x.pin, (j.1, j.1) = i := fun i => by
      rw [Tuple.clone, (setsOf_spec _).2, List.mem_map]
    have m2 : ∀ i, i ∈ x.clone.pout ↔ ∃ j ∈ x.pout, (j.1, j.1) = i := fun i => by
      rw [Tuple.clone, (setsOf_spec _).2, List.mem_map]
    refine ⟨Or.inr (fun i hi => ?_), ?_, ?_, fun i hi => ?_, fun o ho => ?_⟩
    · rcases List.mem_append.mp hi with hi | hi
      · obtain ⟨j, _, rfl⟩ := (m1 i).mp hi; rfl
      · obtain ⟨j, _, rfl⟩ := (m2 i).mp hi; rfl
    · obtain ⟨i, hi⟩ := List.exists_mem_of_ne_nil _ x2
      exact List.ne_nil_of_mem ((m1 _).mpr ⟨i, hi, rfl⟩)
    · obtain ⟨o, ho⟩ := List.exists_mem_of_ne_nil _ x3
      exact List.ne_nil_of_mem ((m2 _).mpr ⟨o, ho, rfl⟩)
    · obtain ⟨j, hj, rfl⟩ := (m1 i).mp hi
      exact x4 j hj
    · obtain ⟨j, hj, rfl⟩ := (m2 o).mp ho
      exact x5 j hj
  · intro t ht
    obtain ⟨a, b, x, y, rfl, hab, hx, hy, hn⟩ := c3 t ht
    refine ⟨Or.inl ?_, by simp, by simp, ?_, ?_⟩
    · simp only [Valid, List.mem_singleton, forall_eq, List.pairwise_singleton, and_true]
      exact ⟨((c2 a b).mp hab).1, hn⟩
    · simp only [List.mem_singleton, forall_eq]
      exact ⟨a, b, rfl, hab⟩
    · simp only [List.mem_singleton, forall_eq]
      exact ⟨y, hy, rfl⟩

/-- **C174** (no classes that go together). If no two classes of the log go together, alpha sharp ends with the tuples that it made first,
and all of them are valid. -/
theorem C174_apart_partial (it : Iter) (hash : List String → Nat) (log : List (List E)) (h1 : ¬ ShortTrace (namesOf log))
    (h2 : ¬ ∃ a b, Together (namesOf log) a b) :
    ∃ s, sharpStart it hash log = some s ∧ EndsWith (fun fuel => discoverSharp it hash fuel log) s.tuples ∧
      ∀ t ∈ s.tuples, Valid (namesOf log) t := by
  obtain ⟨s, hs⟩ := Option.ne_none_iff_exists'.mp (fun h => h1 ((C173_panics it hash log).mp h))
  obtain ⟨_, c2, c3, _⟩ := C173_start it hash log s hs
  have hT : Tells s.rel (namesOf log) ∧ s.tuples.Nodup := by
    obtain ⟨_, t2⟩ := triangles_spec (namesOf log)
    unfold sharpStart at hs
    obtain ⟨_, _, hs⟩ := Option.bind_eq_some_iff.mp hs
    obtain ⟨tri, htri, rfl⟩ := Option.map_eq_some_iff.mp hs
    exact ⟨relOf_tells it log tri (t2 tri htri), insertBy_nodup _ (fun x => by simp [Tuple.same]) _ _ List.nodup_nil⟩
  obtain ⟨hT, hnd⟩ := hT
  have e := round_apart it (Tuple.same hash) (tryMerge s.rel) s.tuples hnd (fun x hx y hy hne => by
    obtain ⟨_, _, _, _, ex, _⟩ := c3 x hx
    obtain ⟨_, _, _, _, ey, _⟩ := c3 y hy
    cases em : tryMerge s.rel x y with
    | none => rfl
    | some m => exact absurd (union_apart h2 (tryMerge_tells hT em).2 (tryMerge_tells hT em).1 ex ey) hne)
  refine ⟨s, hs, ⟨1, fun fuel hf => ?_⟩, fun t ht => ?_⟩
  · refine discoverSharp_more it hash 1 fuel log s.tuples ?_ hf
    unfold discoverSharp
    rw [hs, Option.bind_some]
    unfold sharpMaximize
    rw [e]
  · obtain ⟨a, b, x, y, rfl, hab, _, _, hn⟩ := c3 t ht
    simp only [Valid, List.mem_singleton, forall_eq, List.pairwise_singleton, and_true]
    exact ⟨((c2 a b).mp hab).1, hn⟩

/-- The tuples of a log in which no class comes directly after another and the other way round. -/
example : (discoverSharp .plain exHash 1 [["a", "b"], ["a", "c", "b"]]).map List.length = some 9 := by decide +kernel

/-- A log for which tuples are merged in one round and others are copied. -/
def exSharp : List (List String) := [["a", "a", "c", "a", "b"], ["a", "b", "b", "b"], ["a", "c", "a", "c", "b"]]

theorem exSharp_result : discoverSharp .plain exHash 3 exSharp = some [
    ⟨[(["a"], ["a"]), (["a"], ["b"]), (["a"], ["c"])], [(["c"], ["b"])]⟩,
    ⟨[(["a"], ["a"]), (["a"], ["b"]), (["a"], ["c"])], [(["b"], ["b"])]⟩,
    ⟨[(["a"], ["a"])], [(["a"], ["a"])]⟩, ⟨[(["c"], ["c"])], [(["c"], ["c"])]⟩,
    ⟨[(["c"], ["c"])], [(["b"], ["b"])]⟩, ⟨[(["c"], ["c"])], [(["a"], ["a"])]⟩] := by decide +kernel

/-- The hypotheses of `C174_result_partial` for it. -/
example : (sharpStart .plain exHash exSharp).map Start.pairs = some [("a", "b"), ("c", "b")] ∧
    (discoverSharp .plain exHash 3 exSharp).isSome := ⟨by decide +kernel, by rw [exSharp_result]; rfl⟩

/-- **C174** (an invalid tuple). There is a log for which alpha sharp prints a tuple at the end that is not valid: its output has lost the
class to which its input is in the advanced relation. -/
theorem C174_invalid : ∃ (log : List (List String)) (r : List Tuple), EndsWith (fun fuel => discoverSharp .plain exHash fuel log) r ∧
    ∃ t ∈ r, ¬ Valid log t ∧ ∀ i ∈ t.pin, ∀ a ∈ i.1, ∀ o ∈ t.pout, ∀ b ∈ o.2, ¬ Directly log a b := by
  refine ⟨exSharp, _, ⟨3, fun fuel hf => discoverSharp_more .plain exHash 3 fuel exSharp _ exSharp_result hf⟩, ⟨[(["c"], ["c"])], [(["c"], ["c"])]⟩, by simp, ?_⟩
  have hd : ¬ Directly exSharp "c" "c" := by
    unfold Directly
    decide +kernel
  constructor
  · rintro ⟨h, _⟩
    have := (h (["c"], ["c"]) (by simp) (["c"], ["c"]) (by simp)).1 "c" (by simp) "c" (by simp)
    exact hd this.1.1
  · intro i hi a ha o ho b hb
    simp only [List.mem_singleton] at hi ho
    subst hi ho
    simp only [List.mem_singleton] at ha hb
    subst ha hb
    exact hd

end Ficus.Rs
