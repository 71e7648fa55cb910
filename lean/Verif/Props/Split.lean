import Verif.Proofs.Split

/-! Properties C13 (partition into variants), C14 (variants are name sequences) and C15 (merging traces). -/

namespace Ficus
open Spec
variable {E : Type} [HasName E]

/-- C13a: `split_log_by_traces` never fails and returns the partition of the traces by their sequences of name hashes
(which determine the length): groups are exactly the classes, in the order of the log. -/
theorem C13_partition (log : Log E) :
    ∃ gs, splitLogByTraces log = .ok gs ∧ GroupedBy hashVariant log.traces gs :=
  splitLogByTraces_spec log

/-- C13b: every trace occurrence is in exactly one group (the groups together are a rearrangement of the log), no group is
empty, and traces of one group agree in length and name hashes while traces of different groups do not. -/
theorem C13_every_trace_once (log : Log E) (gs : List (List (Trace E))) (h : splitLogByTraces log = .ok gs) :
    gs.flatten.Perm log.traces ∧ [] ∉ gs ∧
    (∀ i j (hi : i < gs.length) (hj : j < gs.length), ∀ a ∈ gs[i], ∀ b ∈ gs[j], hashVariant a = hashVariant b ↔ i = j) := by
  obtain ⟨gs', h', hg⟩ := splitLogByTraces_spec log
  rw [h] at h'; cases h'
  refine ⟨hg.perm, fun hm => hg.ne_nil hm rfl, ?_⟩
  intro i j hi hj a ha b hb
  constructor
  · intro hab
    by_contra hij
    rcases Nat.lt_or_gt_of_ne hij with hlt | hlt
    · exact (List.pairwise_iff_getElem.1 hg.distinct) i j hi hj hlt a ha b hb hab
    · exact (List.pairwise_iff_getElem.1 hg.distinct) j i hj hi hlt b hb a ha hab.symm
  · rintro rfl; exact hg.same (List.getElem_mem hi) ha hb

example : splitLogByTraces (Log.ofEvs [["a", "b"], ["a"], ["a", "c"], ["a", "b"]]) =
    .ok [[{ events := ["a", "b"] }, { events := ["a", "b"] }], [{ events := ["a", "c"] }], [{ events := ["a"] }]] := by
  decide

/-- The histogram array of `_create_array_for_hist`: one entry per trace, class `i + 1` as often as group `i` is large, and
the returned number is one more than the number of classes. -/
theorem C13_histogram (log : Log E) (gs : List (List (Trace E))) (h : splitLogByTraces log = .ok gs) :
    ∃ hist, createArrayForHist log = .ok (hist, gs.length + 1) ∧ hist.length = log.traces.length ∧
      ∀ i (hi : i < gs.length), hist.count (i + 1) = gs[i].length := by
  have key : ∀ (l : List (List (Trace E))) (acc : List Nat) (c : Nat),
      l.foldl (fun (st : List Nat × Nat) g => (st.1 ++ List.replicate g.length st.2, st.2 + 1)) (acc, c) =
        (acc ++ (l.zipIdx c).flatMap (fun p => List.replicate p.1.length p.2), c + l.length) := by
    intro l
    induction l with
    | nil => intro acc c; simp
    | cons g l ih => intro acc c; rw [List.foldl_cons, ih]; simp [List.zipIdx_cons, List.append_assoc]; omega
  refine ⟨(gs.zipIdx 1).flatMap (fun p => List.replicate p.1.length p.2), ?_, ?_, ?_⟩
  · unfold createArrayForHist
    rw [h]
    show Except.ok (gs.foldl _ ([], 1)) = _
    rw [key]; simp [Nat.add_comm]
  · rw [← (C13_every_trace_once log gs h).1.length_eq]
    rw [List.length_flatMap, List.length_flatten]
    generalize 1 = c
    clear h
    induction gs generalizing c with
    | nil => rfl
    | cons g gs ih =>
      simp only [List.zipIdx_cons, List.map_cons, List.sum_cons, List.length_replicate] at ih ⊢
      rw [ih]
  · have hc : ∀ (l : List (List (Trace E))) (c i : Nat) (hi : i < l.length),
        ((l.zipIdx c).flatMap (fun p => List.replicate p.1.length p.2)).count (i + c) = l[i].length := by
      intro l
      have hz : ∀ (l : List (List (Trace E))) (c j : Nat), j < c →
          ((l.zipIdx c).flatMap (fun p => List.replicate p.1.length p.2)).count j = 0 := by
        intro l
        induction l with
        | nil => intro c j _; rfl
        | cons g l ih =>
          intro c j hj
          simp only [List.zipIdx_cons, List.flatMap_cons, List.count_append, ih (c + 1) j (by omega),
            List.count_replicate]
          rw [if_neg (by simp; omega)]
      induction l with
      | nil => intro c i hi; simp at hi
      | cons g l ih =>
        intro c i hi
        simp only [List.zipIdx_cons, List.flatMap_cons, List.count_append]
        cases i with
        | zero =>
          rw [Nat.zero_add, hz l (c + 1) c (by omega)]; simp
        | succ i =>
          have e := ih (c + 1) i (by simpa using hi)
          rw [show i + 1 + c = i + (c + 1) by omega, e, List.count_replicate, if_neg (by simp; omega)]
          simp
    exact fun i hi => hc gs 1 i hi

example : createArrayForHist (Log.ofEvs [["a", "b"], ["a"], ["a", "c"], ["a", "b"]]) = .ok ([1, 1, 2, 3], 4) := by decide

/-- The hash of names is injective on the names of the log. -/
def NoNameCollision (log : Log E) : Prop :=
  ∀ t ∈ log.traces, ∀ e ∈ t.events, ∀ t' ∈ log.traces, ∀ e' ∈ t'.events,
    stringHash (name e) = stringHash (name e') → name e = name e'

theorem map_hash_inj {s t : List E}
    (h : ∀ e ∈ s, ∀ e' ∈ t, stringHash (name e) = stringHash (name e') → name e = name e') :
    s.map (fun e => stringHash (name e)) = t.map (fun e => stringHash (name e)) ↔ s.map name = t.map name := by
  induction s generalizing t with
  | nil => cases t <;> simp
  | cons a s ih =>
    cases t with
    | nil => simp
    | cons b t =>
      simp only [List.map_cons, List.cons.injEq]
      rw [ih (fun e he e' he' => h e (by simp [he]) e' (by simp [he']))]
      constructor
      · rintro ⟨h1, h2⟩; exact ⟨h a (by simp) b (by simp) h1, h2⟩
      · rintro ⟨h1, h2⟩; exact ⟨by rw [h1], h2⟩

theorem filterVariants_eq (log : Log E) (gs : List (List (Trace E))) (h : splitLogByTraces log = .ok gs) :
    ∃ ts, filterTracesByVariants log = .ok { traces := ts } ∧ List.Forall₂ (fun g t => g.head? = some t) gs ts := by
  obtain ⟨gs', h', hg⟩ := splitLogByTraces_spec log
  rw [h] at h'; cases h'
  obtain ⟨ts, hm, hall⟩ := mapM_choose firstOf gs (fun g t => g.head? = some t) (by
      intro g hgm
      cases g with
      | nil => exact absurd rfl (hg.ne_nil hgm)
      | cons t g => exact ⟨t, rfl, rfl⟩)
  refine ⟨ts, ?_, hall⟩
  unfold filterTracesByVariants
  rw [h]
  simp only [bind, Except.bind]
  rw [hm]; rfl

/-- C14a: without hash collisions between names of the log, the groups are exactly the classes of equal name sequences.
Missing for the full property: the hypothesis (see `C14_collision`). -/
theorem C14_variants_partial (log : Log E) (hinj : NoNameCollision log) :
    ∃ gs, splitLogByTraces log = .ok gs ∧ GroupedBy variant log.traces gs := by
  obtain ⟨gs, h, hg⟩ := splitLogByTraces_spec log
  exact ⟨gs, h, hg.change (fun a ha b hb => map_hash_inj (fun e he e' he' => hinj a ha e he b hb e' he'))⟩

/-- C14b: without collisions, filtering by variants keeps exactly one trace of every name sequence of the log, namely the
first one. -/
theorem C14_filter_by_variants_partial (log : Log E) (hinj : NoNameCollision log) :
    ∃ ts, filterTracesByVariants log = .ok { traces := ts } ∧ (ts.map variant).Nodup ∧
      (∀ v, v ∈ ts.map variant ↔ v ∈ log.traces.map variant) ∧
      ∀ t ∈ ts, log.traces.find? (fun u => decide (variant u = variant t)) = some t := by
  obtain ⟨gs, h, hg⟩ := C14_variants_partial log hinj
  obtain ⟨ts, hts, hall⟩ := filterVariants_eq log gs h
  have hmem : ∀ t ∈ ts, ∃ g ∈ gs, g.head? = some t := by
    intro t ht
    obtain ⟨i, hi, rfl⟩ := List.getElem_of_mem ht
    have hi' : i < gs.length := by rw [hall.length_eq]; exact hi
    exact ⟨gs[i], List.getElem_mem hi', hall.get (i := i) hi' hi⟩
  refine ⟨ts, hts, ?_, ?_, ?_⟩
  · rw [List.Nodup, List.pairwise_map, List.pairwise_iff_getElem]
    intro i j hi hj hij
    have hi' : i < gs.length := by rw [hall.length_eq]; exact hi
    have hj' : j < gs.length := by rw [hall.length_eq]; exact hj
    exact (List.pairwise_iff_getElem.1 hg.distinct) i j hi' hj' hij _
      (List.mem_of_mem_head? (hall.get (i := i) hi' hi)) _ (List.mem_of_mem_head? (hall.get (i := j) hj' hj))
  · intro v
    constructor
    · intro hv
      obtain ⟨t, ht, rfl⟩ := List.mem_map.1 hv
      obtain ⟨g, hgm, hgt⟩ := hmem t ht
      exact List.mem_map.2 ⟨t, hg.mem hgm (List.mem_of_mem_head? hgt), rfl⟩
    · intro hv
      obtain ⟨t, ht, rfl⟩ := List.mem_map.1 hv
      obtain ⟨i, hi, hgi⟩ := List.getElem_of_mem (hg.covers t ht)
      have hi' : i < ts.length := by rw [← hall.length_eq]; exact hi
      have hh := hall.get (i := i) hi hi'
      simp only [List.get_eq_getElem] at hh
      have hm := List.mem_of_mem_head? hh
      rw [hgi] at hm
      exact List.mem_map.2 ⟨ts[i], List.getElem_mem hi', of_decide_eq_true (List.mem_filter.1 hm).2⟩
  · intro t ht
    obtain ⟨g, hgm, hgt⟩ := hmem t ht
    obtain ⟨x, hx, hgx⟩ := hg.isClass g hgm
    have htx : variant t = variant x := by
      have := List.mem_of_mem_head? hgt
      rw [hgx] at this; exact of_decide_eq_true (List.mem_filter.1 this).2
    rw [← List.head?_filter, htx, ← hgx]; exact hgt

/-- The names of the example do not collide. -/
example : NoNameCollision (Log.ofEvs [["a", "b"], ["a"], ["a", "c"], ["a", "b"]]) ∧
    filterTracesByVariants (Log.ofEvs [["a", "b"], ["a"], ["a", "c"], ["a", "b"]]) =
      .ok (Log.ofEvs [["a", "b"], ["a", "c"], ["a"]]) := by
  unfold NoNameCollision; decide

/-- C14c: the full property fails: the names `aB` and `BC` collide, so the two traces form one variant and the filter drops
the second. -/
theorem C14_collision :
    splitLogByTraces (Log.ofEvs [["BC"], ["aB"]]) = .ok [[{ events := ["BC"] }, { events := ["aB"] }]] ∧
    filterTracesByVariants (Log.ofEvs [["BC"], ["aB"]]) = .ok (Log.ofEvs [["BC"]]) := by decide

/-- C14d: the full property, refuted. -/
theorem C14_full_property_fails :
    ¬ ∀ (log : Log String), ∃ gs, splitLogByTraces log = .ok gs ∧ GroupedBy variant log.traces gs := by
  intro h
  obtain ⟨gs, h1, hg⟩ := h (Log.ofEvs [["BC"], ["aB"]])
  rw [C14_collision.1] at h1; cases h1
  have := hg.same (g := [{ events := ["BC"] }, { events := ["aB"] }]) (by simp)
    (a := { events := ["BC"] }) (b := { events := ["aB"] }) (by simp) (by simp)
  exact absurd this (by decide)

omit [HasName E] in
/-- C15a: the merged log has one trace, the concatenation of all traces, each followed by one separator. -/
theorem C15_concatenation (unique : Nat → E) (log : Log E) :
    (mergeAllTraces unique log).evs = [(log.evs.zipIdx.map (fun p => p.1 ++ [unique p.2])).flatten] := by
  unfold mergeAllTraces
  simp only [Log.ofEvs, Log.evs, List.map_cons, List.map_nil, List.cons.injEq, and_true]
  rw [mergeLoop_eq, List.flatMap_def]

omit [HasName E] in
/-- C15b: all original events remain, in order: dropping the separators gives the concatenation of the traces. -/
theorem C15_events_kept (unique : Nat → E) (log : Log E) (isUnique : E → Bool) (hu : ∀ i, isUnique (unique i) = true)
    (hn : ∀ t ∈ log.evs, ∀ e ∈ t, isUnique e = false) :
    (mergeAllTraces unique log).evs.flatten.filter (fun e => !isUnique e) = log.evs.flatten := by
  have key : ∀ (ts : List (List E)) (i : Nat), (∀ t ∈ ts, ∀ e ∈ t, isUnique e = false) →
      (mergeLoop unique i ts).filter (fun e => !isUnique e) = ts.flatten := by
    intro ts
    induction ts with
    | nil => intro i _; rfl
    | cons t ts ih =>
      intro i h
      simp only [mergeLoop, List.filter_append, ih (i + 1) (fun t ht => h t (by simp [ht])), List.flatten_cons]
      rw [List.filter_eq_self.2 (fun e he => by simp [h t (by simp) e he])]
      simp [hu i]
  have e : (mergeAllTraces unique log).evs.flatten = mergeLoop unique 0 log.evs := by
    simp [mergeAllTraces, Log.ofEvs, Log.evs]
  rw [e]; exact key _ _ hn

/-- C15c: if the fresh names are pairwise different and occur in no trace, then the name of each of the first
`len(log)` separators occurs exactly once in the merged log and no other fresh name occurs. -/
theorem C15_separator_once (unique : Nat → E) (log : Log E) (j : Nat)
    (hinj : ∀ a b, name (unique a) = name (unique b) → a = b)
    (hfresh : ∀ t ∈ log.evs, ∀ e ∈ t, name e ≠ name (unique j)) :
    ((mergeAllTraces unique log).evs.flatten.map name).count (name (unique j)) =
      if j < log.traces.length then 1 else 0 := by
  have e : (mergeAllTraces unique log).evs.flatten = mergeLoop unique 0 log.evs := by
    simp [mergeAllTraces, Log.ofEvs, Log.evs]
  rw [e, mergeLoop_count unique log.evs 0 j hinj hfresh]
  simp [Log.evs]

omit [HasName E] in
/-- C15d: a window of the merged trace that contains no separator is a window of one original trace: no repeat without
separators spans two traces. -/
theorem C15_no_window_spans_traces (unique : Nat → E) (log : Log E) (w : List E) (hne : w ≠ [])
    (hw : ∃ t ∈ (mergeAllTraces unique log).evs, w <:+: t) (hu : ∀ j, unique j ∉ w) :
    ∃ t ∈ log.evs, w <:+: t := by
  obtain ⟨t, ht, hwt⟩ := hw
  have e : (mergeAllTraces unique log).evs = [mergeLoop unique 0 log.evs] := by
    simp [mergeAllTraces, Log.ofEvs, Log.evs]
  rw [e, List.mem_singleton] at ht
  subst ht
  exact mergeLoop_window unique log.evs 0 w hwt hne hu

example : (mergeAllTraces (fun i => "u" ++ toString i) (Log.ofEvs [["a", "b"], [], ["b"]])).evs =
    [["a", "b", "u0", "u1", "b", "u2"]] := by decide

end Ficus
