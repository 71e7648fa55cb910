import Verif.Proofs.Info
import Mathlib.Algebra.BigOperators.Group.List.Lemmas

/-! Properties C09 - C12: directly-follows information. -/

namespace Ficus
open Spec
variable {E : Type} [HasName E]

/-- A log used in the examples. -/
def exInfoLog : Log String := Log.ofEvs [["a", "x", "b", "a", "b"], ["x"], ["b", "c"]]

/-- C09a: with artificial events, the count stored for a pair is the number of adjacent occurrences in the framed traces
without ignored events; a pair is stored iff that number is positive. -/
theorem C09_pairs_exact_framed (log : Log E) (ignored : Option (List String)) (p : String × String) :
    (createLogInformation log ignored true).pairs.get? p =
      (let n := (log.evs.flatMap (fun t => adjacent (framed "FAKE_START" "FAKE_END" (kept (ignored.getD []) t)))).count p
       if n = 0 then none else some n) := by
  rw [createLogInformation_eq]
  simp only [counter_get?, keptNames_eq, List.flatMap_map]
  simp only [recordedPairs_none_true]
  rfl

example : (createLogInformation exInfoLog (some ["x"]) true).pairs.get? ("a", "b") = some 2 ∧
    (createLogInformation exInfoLog (some ["x"]) true).pairs.get? ("b", "FAKE_END") = some 1 ∧
    (createLogInformation exInfoLog (some ["x"]) true).pairs.get? ("a", "c") = none := by decide

/-- C09b: without artificial events, the count stored for a pair is the number of adjacent occurrences in the traces
without ignored events. -/
theorem C09_pairs_exact_plain (log : Log E) (ignored : Option (List String)) (p : String × String) :
    (createLogInformation log ignored false).pairs.get? p =
      (let n := (log.evs.flatMap (fun t => adjacent (kept (ignored.getD []) t))).count p
       if n = 0 then none else some n) := by
  rw [createLogInformation_eq]
  simp only [counter_get?, keptNames_eq, List.flatMap_map]
  simp only [recordedPairs_none_false]

/-- C09c: the event count of a name is the number of its occurrences, and ignored or absent names are not stored. -/
theorem C09_events_count_exact (log : Log E) (ignored : Option (List String)) (fake : Bool) (n : String) :
    (createLogInformation log ignored fake).eventsCount.get? n =
      if n ∈ ignored.getD [] ∨ occurrences log n = 0 then none else some (occurrences log n) := by
  rw [createLogInformation_eq]
  simp only [counter_get?, keptNames_eq]
  have h : ((log.evs.map (kept (ignored.getD []))).flatten).count n =
      if n ∈ ignored.getD [] then 0 else occurrences log n := by
    have e : (log.evs.map (kept (ignored.getD []))).flatten =
        (log.evs.flatten.map name).filter (fun n => decide (n ∉ ignored.getD [])) := by
      unfold kept
      rw [List.map_flatten, List.filter_flatten, List.map_map]; rfl
    rw [e]
    by_cases hi : n ∈ ignored.getD []
    · simp only [hi, if_true]
      rw [List.count_eq_zero]
      intro hm
      have := (List.mem_filter.1 hm).2
      simp [hi] at this
    · simp only [hi, if_false]
      rw [List.count_filter]
      · rfl
      · simpa using hi
  rw [h]
  by_cases hi : n ∈ ignored.getD [] <;> simp [hi]

example : (createLogInformation exInfoLog (some ["x"]) true).eventsCount.get? "b" = some 3 ∧
    (createLogInformation exInfoLog (some ["x"]) true).eventsCount.get? "x" = none := by decide

/-- C09d: both results are proper dictionaries (unique keys). -/
theorem C09_wellformed (log : Log E) (ignored : Option (List String)) (fake : Bool) :
    (createLogInformation log ignored fake).pairs.WF ∧ (createLogInformation log ignored fake).eventsCount.WF := by
  rw [createLogInformation_eq]
  exact ⟨counter_WF _, counter_WF _⟩

/-- C09e: ignoring a set of names gives the same information as computing it on traces from which the names have been
dropped. -/
theorem C09_ignoring_eq_dropping (log : Log E) (ns : List String) (fake : Bool) :
    createLogInformation log (some ns) fake =
      createLogInformation (Log.ofEvs (log.evs.map (fun t => t.filter (fun e => decide (name e ∉ ns))))) none fake := by
  rw [createLogInformation_eq, createLogInformation_eq]
  have : keptNames (some ns) log =
      keptNames none (Log.ofEvs (log.evs.map (fun t => t.filter (fun e => decide (name e ∉ ns))))) := by
    unfold keptNames Log.ofEvs
    simp only [Log.evs, List.map_map]
    congr 1; funext t
    simp only [Function.comp_apply, isIgnored, Bool.not_false, List.filter_true]
    rw [List.filter_map]
    congr 1
    apply List.filter_congr
    intro e _; simp
  rw [this]

/-- C09f: the trace counts used by the position entropies: one entry per trace, counting the names of that trace. -/
theorem C09_trace_counts_exact (log : Log E) :
    (calculateEventsInEachTrace log).map (fun c => c.overallCount) = log.evs.map List.length ∧
    ∀ (i : Nat) (t : List E), log.evs[i]? = some t → ∃ c, (calculateEventsInEachTrace log)[i]? = some c ∧
      ∀ n, (c.counts.get? n).getD 0 = (t.map name).count n := by
  constructor
  · simp [calculateEventsInEachTrace]
  · intro i t ht
    refine ⟨_, by simp only [calculateEventsInEachTrace, List.getElem?_map, ht, Option.map_some]; rfl, ?_⟩
    intro n
    have : t.foldl (fun d e => increaseInIntMap d (name e)) ([] : Dict String Nat) = counter (t.map name) := by
      unfold counter; rw [List.foldl_map]
    simp only [this, counter_getD]

theorem sum_out_aux (log : Log E) (ignored : Option (List String)) (q : String × String → Bool) :
    (((createLogInformation log ignored true).pairs.filter (fun e => q e.1)).map Prod.snd).sum =
      ((log.evs.flatMap (fun t => adjacent (framed fakeStart fakeEnd (kept (ignored.getD []) t)))).filter q).length := by
  rw [createLogInformation_eq]
  simp only [counter_sum_filter, keptNames_eq, List.flatMap_map, recordedPairs_none_true]

theorem filter_fst_length (l : List (String × String)) (a : String) :
    (l.filter (fun k => decide (k.1 = a))).length = (l.map Prod.fst).count a := by
  induction l with
  | nil => rfl
  | cons x l ih => simp only [List.filter_cons, List.map_cons, List.count_cons]; by_cases h : x.1 = a <;> simp [h, ih]

theorem filter_snd_length (l : List (String × String)) (a : String) :
    (l.filter (fun k => decide (k.2 = a))).length = (l.map Prod.snd).count a := by
  induction l with
  | nil => rfl
  | cons x l ih => simp only [List.filter_cons, List.map_cons, List.count_cons]; by_cases h : x.2 = a <;> simp [h, ih]

theorem framed_dropLast (s e : String) (t : List String) : (framed s e t).dropLast = if t = [] then [] else s :: t := by
  unfold framed; by_cases h : t = []
  · simp [h]
  · simp only [h, if_false]
    exact List.dropLast_concat

theorem framed_tail (s e : String) (t : List String) : (framed s e t).tail = if t = [] then [] else t ++ [e] := by
  unfold framed; by_cases h : t = [] <;> simp [h]

/-- C10a: for every name other than the artificial start, the outgoing pair counts sum to its number of occurrences. -/
theorem C10_outgoing_sum (log : Log E) (ignored : Option (List String)) (a : String) (ha : a ≠ "FAKE_START") :
    (((createLogInformation log ignored true).pairs.filter (fun e => decide (e.1.1 = a))).map Prod.snd).sum =
      ((createLogInformation log ignored true).eventsCount.get? a).getD 0 := by
  rw [sum_out_aux log ignored (fun k => decide (k.1 = a)), filter_fst_length]
  rw [createLogInformation_eq]
  simp only [counter_getD, keptNames_eq]
  generalize log.evs = ts
  induction ts with
  | nil => rfl
  | cons t ts ih =>
    simp only [List.flatMap_cons, List.map_append, List.count_append, List.map_cons, List.flatten_cons, ih,
      adjacent_map_fst, framed_dropLast]
    congr 1
    by_cases h : kept (ignored.getD []) t = []
    · simp [h]
    · simp only [h, if_false, List.count_cons]
      have : ¬ fakeStart = a := fun e => ha e.symm
      simp [this]

example : (((createLogInformation exInfoLog none true).pairs.filter (fun e => decide (e.1.1 = "b"))).map Prod.snd).sum = 3 := by
  decide

/-- C10b: for every name other than the artificial end, the incoming pair counts sum to its number of occurrences. -/
theorem C10_incoming_sum (log : Log E) (ignored : Option (List String)) (a : String) (ha : a ≠ "FAKE_END") :
    (((createLogInformation log ignored true).pairs.filter (fun e => decide (e.1.2 = a))).map Prod.snd).sum =
      ((createLogInformation log ignored true).eventsCount.get? a).getD 0 := by
  rw [sum_out_aux log ignored (fun k => decide (k.2 = a)), filter_snd_length]
  rw [createLogInformation_eq]
  simp only [counter_getD, keptNames_eq]
  generalize log.evs = ts
  induction ts with
  | nil => rfl
  | cons t ts ih =>
    simp only [List.flatMap_cons, List.map_append, List.count_append, List.map_cons, List.flatten_cons, ih,
      adjacent_map_snd, framed_tail]
    congr 1
    by_cases h : kept (ignored.getD []) t = []
    · simp [h]
    · simp only [h, if_false, List.count_append]
      have : ¬ fakeEnd = a := fun e => ha e.symm
      simp [this]

/-- C10c: the counts out of the artificial start and into the artificial end both equal the number of traces with a
non-ignored event, when no event carries an artificial name. -/
theorem C10_start_end_sum (log : Log E) (ignored : Option (List String))
    (hs : occurrences log "FAKE_START" = 0) (he : occurrences log "FAKE_END" = 0) :
    (((createLogInformation log ignored true).pairs.filter (fun e => decide (e.1.1 = "FAKE_START"))).map Prod.snd).sum =
      (log.evs.filter (fun t => decide (kept (ignored.getD []) t ≠ []))).length ∧
    (((createLogInformation log ignored true).pairs.filter (fun e => decide (e.1.2 = "FAKE_END"))).map Prod.snd).sum =
      (log.evs.filter (fun t => decide (kept (ignored.getD []) t ≠ []))).length := by
  rw [sum_out_aux log ignored (fun k => decide (k.1 = "FAKE_START")), filter_fst_length,
    sum_out_aux log ignored (fun k => decide (k.2 = "FAKE_END")), filter_snd_length]
  unfold occurrences at hs he
  generalize log.evs = ts at hs he
  induction ts with
  | nil => exact ⟨rfl, rfl⟩
  | cons t ts ih =>
    simp only [List.flatten_cons, List.map_append, List.count_append, Nat.add_eq_zero_iff] at hs he
    obtain ⟨ih1, ih2⟩ := ih hs.2 he.2
    have k1 : ∀ n, (t.map name).count n = 0 → (kept (ignored.getD []) t).count n = 0 := by
      intro n hn
      rw [List.count_eq_zero] at hn ⊢
      exact fun hm => hn (List.mem_filter.1 hm).1
    simp only [List.flatMap_cons, List.map_append, List.count_append, ih1, ih2, adjacent_map_fst, framed_dropLast,
      adjacent_map_snd, framed_tail, List.filter_cons]
    by_cases h : kept (ignored.getD []) t = []
    · simp [h]
    · have a1 := k1 _ hs.1
      have a2 := k1 _ he.1
      simp only [h, if_false, List.count_cons, List.count_append, a1, a2, ne_eq, not_false_iff, decide_true, if_true,
        List.length_cons]
      constructor
      · simp only [fakeStart, beq_self_eq_true, if_true]; omega
      · simp only [fakeEnd, beq_self_eq_true, if_true, List.count_nil]; omega

example : (((createLogInformation exInfoLog (some ["x"]) true).pairs.filter
    (fun e => decide (e.1.1 = "FAKE_START"))).map Prod.snd).sum = 2 := by decide

/-- C10d: the total of all pair counts is the number of kept events plus one for each trace that keeps an event. -/
theorem C10_total (log : Log E) (ignored : Option (List String)) :
    ((createLogInformation log ignored true).pairs.map Prod.snd).sum =
      (log.evs.map (fun t => if kept (ignored.getD []) t = [] then 0 else (kept (ignored.getD []) t).length + 1)).sum := by
  have h := sum_out_aux log ignored (fun _ => true)
  simp only [List.filter_true] at h
  rw [h]
  generalize log.evs = ts
  induction ts with
  | nil => rfl
  | cons t ts ih =>
    simp only [List.flatMap_cons, List.length_append, ih, List.map_cons, List.sum_cons]
    congr 1
    rw [← List.length_map (f := Prod.fst), adjacent_map_fst, framed_dropLast]
    split <;> simp

/-- C11a: the follower dictionary of an event holds exactly its direct followers with their counts. -/
theorem C11_followed_events_exact (pairs : Dict (String × String) Nat) (hw : pairs.WF) (f s : String) (c : Nat) :
    (∃ m, (dfgOf pairs).followedEvents.get? f = some m ∧ m.get? s = some c) ↔ pairs.get? (f, s) = some c := by
  have h := (dfg_inv pairs pairs.keys [] { pairs := pairs } (by rw [List.nil_append]; exact hw) (by simp) (by simp)).1 f
  simp only [List.nil_append] at h
  unfold dfgOf
  rw [h]
  set L := pairs.keys.filter (fun k => decide (k.1 = f)) with hL
  have hLn : L.Nodup := hw.filter _
  have hm : ∀ m : Dict String Nat, m = L.map (fun k => (k.2, (pairs.get? k).getD 0)) → m.WF := by
    rintro m rfl
    unfold Dict.WF Dict.keys
    rw [List.map_map]
    refine List.Nodup.map_on ?_ hLn
    intro x hx y hy hxy
    rw [hL] at hx hy
    simp only [List.mem_filter, decide_eq_true_eq] at hx hy
    exact Prod.ext (hx.2.trans hy.2.symm) hxy
  constructor
  · rintro ⟨m, hm1, hm2⟩
    by_cases hnil : L = []
    · simp [hnil] at hm1
    · simp only [hnil, if_false, Option.some.injEq] at hm1
      rw [Dict.get?_eq_some_iff (hm m hm1.symm), ← hm1] at hm2
      obtain ⟨k, hk, hke⟩ := List.mem_map.1 hm2
      rw [hL] at hk
      simp only [List.mem_filter, decide_eq_true_eq] at hk
      obtain ⟨v, hv⟩ := (Dict.mem_keys_iff _ _).1 hk.1
      have : k = (f, s) := Prod.ext hk.2 (by simpa using (Prod.ext_iff.1 hke).1)
      subst this
      rw [hv] at hke; simp at hke; rw [hv, hke]
  · intro hp
    have hk : (f, s) ∈ L := by
      rw [hL]; simp only [List.mem_filter, decide_eq_true_eq, and_true]
      exact (Dict.mem_keys_iff _ _).2 ⟨c, hp⟩
    have hnil : L ≠ [] := List.ne_nil_of_mem hk
    simp only [hnil, if_false]
    refine ⟨_, rfl, ?_⟩
    rw [Dict.get?_eq_some_iff (hm _ rfl)]
    exact List.mem_map.2 ⟨(f, s), hk, by simp [hp]⟩

example : (dfgOf [(("a", "b"), 2), (("b", "c"), 1), (("a", "c"), 5)]).followedEvents.get? "a" = some [("b", 2), ("c", 5)] := by
  decide

/-- C11b: the single-follower set holds exactly the events with one distinct direct follower. -/
theorem C11_single_follower_exact (pairs : Dict (String × String) Nat) (hw : pairs.WF) (x : String) :
    x ∈ (dfgOf pairs).singleFollower ↔ ∃! s, (x, s) ∈ pairs.keys := by
  have h := (dfg_inv pairs pairs.keys [] { pairs := pairs } (by rw [List.nil_append]; exact hw) (by simp) (by simp)).2 x
  simp only [List.nil_append] at h
  unfold dfgOf
  rw [h]
  have hn : (pairs.keys.filter (fun k => decide (k.1 = x))).Nodup := hw.filter _
  constructor
  · intro hl
    obtain ⟨k, hk⟩ := List.length_eq_one_iff.1 hl
    have hkm : k ∈ pairs.keys.filter (fun k => decide (k.1 = x)) := by rw [hk]; simp
    simp only [List.mem_filter, decide_eq_true_eq] at hkm
    refine ⟨k.2, ?_, ?_⟩
    · show (x, k.2) ∈ pairs.keys
      have : (x, k.2) = k := Prod.ext hkm.2.symm rfl
      rw [this]; exact hkm.1
    · intro y hy
      have hym : (x, y) ∈ pairs.keys.filter (fun k => decide (k.1 = x)) := by
        simp only [List.mem_filter, decide_eq_true_eq, and_true]; exact hy
      rw [hk] at hym; simp at hym; rw [← hym]
  · rintro ⟨s, hs, hu⟩
    have hs' : (x, s) ∈ pairs.keys := hs
    have : pairs.keys.filter (fun k => decide (k.1 = x)) = [(x, s)] := by
      refine List.perm_singleton.1 ((List.perm_ext_iff_of_nodup hn (by simp)).2 ?_)
      intro k
      simp only [List.mem_filter, decide_eq_true_eq, List.mem_singleton]
      constructor
      · rintro ⟨h1, h2⟩
        have : (x, k.2) ∈ pairs.keys := by
          have e : (x, k.2) = k := Prod.ext h2.symm rfl
          rw [e]; exact h1
        exact Prod.ext h2 (hu k.2 this)
      · rintro rfl; exact ⟨hs', rfl⟩
    rw [this]; rfl

example : (dfgOf [(("a", "b"), 2), (("b", "c"), 1), (("a", "c"), 5), (("a", "d"), 1)]).singleFollower = ["b"] := by
  decide

/-- C11c: for the graph of a log, `b` is among the followers of `a` iff `b` directly follows `a` somewhere in a trace. -/
theorem C11_log_followers (log : Log E) (a b : String) :
    (∃ m, (createDfg log).followedEvents.get? a = some m ∧ b ∈ m.keys) ↔
      ∃ t ∈ log.evs, (a, b) ∈ adjacent (t.map name) := by
  have hw := (C09_wellformed log none false).1
  have key : (∃ m, (createDfg log).followedEvents.get? a = some m ∧ b ∈ m.keys) ↔
      ∃ c, (createLogInformation log none false).pairs.get? (a, b) = some c := by
    simp only [Dict.mem_keys_iff, createDfg]
    constructor
    · rintro ⟨m, hm, c, hc⟩; exact ⟨c, (C11_followed_events_exact _ hw a b c).1 ⟨m, hm, hc⟩⟩
    · rintro ⟨c, hc⟩
      obtain ⟨m, hm, h⟩ := (C11_followed_events_exact _ hw a b c).2 hc
      exact ⟨m, hm, c, h⟩
  rw [key]
  simp only [C09_pairs_exact_plain]
  have hk : ∀ t : List E, kept ((none : Option (List String)).getD []) t = t.map name := by
    intro t; simp [kept]
  simp only [hk]
  have : (∃ c, (if (log.evs.flatMap (fun t => adjacent (t.map name))).count (a, b) = 0 then none
      else some ((log.evs.flatMap (fun t => adjacent (t.map name))).count (a, b))) = some c) ↔
      (a, b) ∈ log.evs.flatMap (fun t => adjacent (t.map name)) := by
    rw [← List.count_pos_iff]
    by_cases h : (log.evs.flatMap (fun t => adjacent (t.map name))).count (a, b) = 0
    · simp [h]
    · simp only [h, if_false, Option.some.injEq, exists_eq', true_iff]; omega
  rw [this, List.mem_flatMap]

example : ∃ m, (createDfg exInfoLog).followedEvents.get? "a" = some m ∧ "b" ∈ m.keys :=
  (C11_log_followers exInfoLog "a" "b").2 ⟨["a", "x", "b", "a", "b"], by decide, by decide⟩

/-- C12: exactly the names that occur and all of whose events satisfy the predicate. -/
theorem C12_find_all_events_names (log : Log E) (predicate : E → Bool) (n : String) :
    n ∈ findAllEventsNames log predicate ↔
      (∃ e ∈ log.evs.flatten, name e = n) ∧ ∀ e ∈ log.evs.flatten, name e = n → predicate e = true := by
  unfold findAllEventsNames
  rw [foldl_flatten_gen]
  simpa using findNames_inv predicate log.evs.flatten ([], []) [] (by simp) (by simp) n

instance : HasName (String × Nat) := ⟨Prod.fst⟩

example : findAllEventsNames (Log.ofEvs [[("a", 1), ("b", 5)], [("a", 7), ("b", 9)], [("a", 8)]])
    (fun e => decide (e.2 ≥ 5)) = ["b"] := by decide

end Ficus
