import Verif.Proofs.RsEntropy
import Verif.Props.Position
import Verif.Props.RsInfo

/-! Properties C144 and C145: the entropies of the backend. -/

namespace Ficus.Rs
open Ficus.Spec
variable {E : Type} [HasName E]

/-! ### C144: position entropies -/

/-- A log for the examples; `x` is going to be ignored. -/
def exEnt : List (List String) := [["x", "a", "b", "a"], ["a", "x"], ["x", "x"], ["b", "a", "x", "a"], []]

/-- C144a: for every log whose traces keep the right values, or none yet, the plain function counts for each position the traces
that have the event there, after the ignored events are dropped, and the traces that stay non-empty. The events are left as they
were, and so is the agreement of the kept values. -/
theorem C144_slow (it : Iter) (log : List (EventsHolder E)) (hs : ∀ h ∈ log, InStep h) (n : String)
    (ignored : Option (List String)) (hg : (ignored.getD []).Nodup) (hne : ignored = none → log ≠ []) :
    ∃ log', slowCounts it log n ignored =
      some ((positionTable (keptLog ignored (eventsOf log)) n, nonEmptyCount (keptLog ignored (eventsOf log))), log') ∧
      eventsOf log' = eventsOf log ∧ ∀ h ∈ log', InStep h :=
  slowCounts_eq it log hs n ignored hg hne

example : (slowCounts .reversed (freshLog exEnt) "a" (some ["x", "y"])).map Prod.fst = some ([2, 1, 2], 3) := by decide +kernel

/-- C144b: the fast function counts the same for each event that is not ignored. -/
theorem C144_fast (it : Iter) (log : List (EventsHolder E)) (hs : ∀ h ∈ log, InStep h) (n : String)
    (ignored : Option (List String)) (hg : (ignored.getD []).Nodup) (hn : n ∉ ignored.getD [])
    (hne : ignored = none → log ≠ []) :
    ∃ log', fastCounts it log n ignored =
      some ((positionTable (keptLog ignored (eventsOf log)) n, nonEmptyCount (keptLog ignored (eventsOf log))), log') ∧
      eventsOf log' = eventsOf log ∧ ∀ h ∈ log', InStep h :=
  fastCounts_eq it log hs n ignored hg hn hne

example : (fastCounts .reversed (freshLog exEnt) "a" (some ["x", "y"])).map Prod.fst = some ([2, 1, 2], 3) := by decide +kernel

/-- The map for a way to count. -/
theorem entropiesWith_eq
    (counts : List (EventsHolder E) → String → Option ((List Nat × Nat) × List (EventsHolder E)))
    (it : Iter) (log : List (EventsHolder E)) (hs : ∀ h ∈ log, InStep h) (ignored : Option (List String))
    (hcnt : ∀ l n, l ≠ [] → n ∉ ignored.getD [] → (∀ h ∈ l, InStep h) →
      ∃ l', counts l n =
        some ((positionTable (keptLog ignored (eventsOf l)) n, nonEmptyCount (keptLog ignored (eventsOf l))), l') ∧
        Sound l l') :
    ∃ d log', entropiesWith counts it log ignored = some (d, log') ∧ Sound log log' ∧
      ∀ n, d.get? n = if n ∈ (keptLog ignored (eventsOf log)).flatten then
        some (positionEntropy (positionTable (keptLog ignored (eventsOf log)) n)
          (nonEmptyCount (keptLog ignored (eventsOf log)))) else none := by
  have hmem : ∀ n, n ∈ (createInfo it (log.map (·.events))).allClasses it 0 ↔ n ∈ (eventsOf log).flatten.map name := by
    intro n
    unfold Info.allClasses
    rw [(it.perm _ _ _).mem_iff, createInfo_eq]
    simp only [mem_counter_keys, keptNamesOf, Option.getD_none, List.mem_flatMap, kept_nil, List.map_flatten, eventsOf,
      List.mem_flatten, List.mem_map]
    simp
  obtain ⟨d, log', e, s, hd⟩ := entropyStep_fold counts ignored (eventsOf log)
    (fun n => (positionTable (keptLog ignored (eventsOf log)) n, nonEmptyCount (keptLog ignored (eventsOf log))))
    ((createInfo it (log.map (·.events))).allClasses it 0)
    (by
      intro l n hn hni he hl
      have hne : l ≠ [] := by
        rintro rfl
        rw [hmem, ← he] at hn
        simp [eventsOf] at hn
      rw [← he]
      exact hcnt l n hne hni hl)
    [] log rfl hs
  refine ⟨d, log', e, s, fun n => ?_⟩
  rw [hd n, posEntropy_eq, Dict.get?_nil]
  have : (n ∈ (createInfo it (log.map (·.events))).allClasses it 0 ∧ n ∉ ignored.getD []) ↔
      n ∈ (keptLog ignored (eventsOf log)).flatten := by
    rw [hmem]
    simp only [keptLog, List.mem_flatten, List.mem_map, kept]
    constructor
    · rintro ⟨⟨e, ⟨t, ht, he⟩, rfl⟩, h2⟩
      exact ⟨_, ⟨t, ht, rfl⟩, List.mem_filter.2 ⟨List.mem_map_of_mem he, by simpa using h2⟩⟩
    · rintro ⟨_, ⟨t, ht, rfl⟩, h⟩
      obtain ⟨h1, h2⟩ := List.mem_filter.1 h
      obtain ⟨e, he, rfl⟩ := List.mem_map.1 h1
      exact ⟨⟨e, ⟨t, ht, he⟩, rfl⟩, by simpa using h2⟩
  simp only [this]

/-- C144c: neither function over all events panics, not even for the log without traces; both give the same map, with exactly
the names that stay, whatever the order of iteration. -/
theorem C144_entropies (it it' : Iter) (log : List (EventsHolder E)) (hs : ∀ h ∈ log, InStep h)
    (ignored : Option (List String)) (hg : (ignored.getD []).Nodup) :
    ∃ d d' log' log'', posEntropies it log ignored = some (d, log') ∧ posEntropiesFast it' log ignored = some (d', log'') ∧
      (∀ n, d'.get? n = d.get? n) ∧
      (∀ n, d.get? n = if n ∈ (keptLog ignored (eventsOf log)).flatten then
        some (positionEntropy (positionTable (keptLog ignored (eventsOf log)) n)
          (nonEmptyCount (keptLog ignored (eventsOf log)))) else none) ∧
      eventsOf log' = eventsOf log ∧ (∀ h ∈ log', InStep h) ∧ eventsOf log'' = eventsOf log ∧ ∀ h ∈ log'', InStep h := by
  obtain ⟨d, log', e, s, hd⟩ := entropiesWith_eq (fun l n => slowCounts it l n ignored) it log hs ignored
    (fun l n hne _ hl => slowCounts_eq it l hl n ignored hg (fun _ => hne))
  obtain ⟨d', log'', e', s', hd'⟩ := entropiesWith_eq (fun l n => fastCounts it' l n ignored) it' log hs ignored
    (fun l n hne hn hl => fastCounts_eq it' l hl n ignored hg hn (fun _ => hne))
  exact ⟨d, d', log', log'', e, e', fun n => by rw [hd n, hd' n], hd, s.1, s.2, s'.1, s'.2⟩

/-- C144d: for a new log they are the values of the local library (C17 to C19). -/
theorem C144_local (it : Iter) (log : Log E) (ignored : Option (List String)) (hg : (ignored.getD []).Nodup) :
    ∃ d log' p, posEntropiesFast it (freshLog log.evs) ignored = some (d, log') ∧
      calculatePositionEntropies log (ignored.map (fun g => ⟨g, calculateEventsInEachTrace log⟩)) = .ok p ∧
      ∀ n, d.get? n = p.get? n := by
  have hev : eventsOf (freshLog log.evs) = log.evs := by simp [eventsOf, freshLog, EventsHolder.new, Function.comp_def]
  have hs : ∀ h ∈ freshLog log.evs, InStep h := by
    intro h hh
    obtain ⟨t, _, rfl⟩ := List.mem_map.1 hh
    exact ⟨.inl rfl, .inl rfl⟩
  obtain ⟨_, d, _, log', _, e, hdd, hd, _⟩ := C144_entropies it it (freshLog log.evs) hs ignored hg
  have hp : IgnoreArg log (ignored.map (fun g => (⟨g, calculateEventsInEachTrace log⟩ : IgnoredEvents))) := by
    cases ignored with
    | none => trivial
    | some g => exact ⟨hg, rfl⟩
  refine ⟨d, log', _, e, C17_slow_entropies log _ hp, fun n => ?_⟩
  have hig : ignoredNames (ignored.map (fun g => (⟨g, calculateEventsInEachTrace log⟩ : IgnoredEvents))) = ignored.getD [] := by
    cases ignored <;> rfl
  have hk : Spec.keptOf log (ignored.map (fun g => (⟨g, calculateEventsInEachTrace log⟩ : IgnoredEvents))) =
      keptLog ignored log.evs := by
    unfold Spec.keptOf keptLog; rw [hig]
  have hm : (ignored.map (fun g => (⟨g, calculateEventsInEachTrace log⟩ : IgnoredEvents))).map (·.ignored) = ignored := by
    cases ignored <;> rfl
  rw [hdd n, hd n, hev, hk, hm]
  have hkeys : ∀ m, m ∈ (createLogInformation log ignored).eventsCount.keys ↔ m ∈ (keptLog ignored log.evs).flatten := by
    intro m
    rw [createLogInformation_eq, mem_counter_keys, keptNames_eq]; rfl
  generalize (createLogInformation log ignored).eventsCount.keys = ks at hkeys
  have hget : ∀ (ks : List String) (f : String → Option ℝ),
      Dict.get? (ks.map (fun k => (k, f k))) n = if n ∈ ks then some (f n) else none := by
    intro ks f
    induction ks with
    | nil => rfl
    | cons k ks ih =>
      rw [List.map_cons, Dict.get?_cons, ih]
      by_cases h : n = k
      · subst h; simp
      · have : ¬ k = n := fun h' => h h'.symm
        simp [h, this]
  rw [hget]
  simp only [hkeys n]

example : exEnt.length = 5 ∧ ((some ["x", "y"]).getD []).Nodup ∧ (keptLog (some ["x"]) exEnt).flatten = ["a", "b", "a", "a", "b", "a", "a"] :=
  by decide

/-- What can be done to a log between two questions as long as its events stay: questions and copies. -/
inductive Asked : List (EventsHolder E) → List (EventsHolder E) → Prop
  | start (log) : Asked log log
  | slow {log log' log'' : List (EventsHolder E)} {r} (it : Iter) (n : String) (ignored : Option (List String)) :
      Asked log log' → slowCounts it log' n ignored = some (r, log'') → (ignored.getD []).Nodup → Asked log log''
  | fast {log log' log'' : List (EventsHolder E)} {r} (it : Iter) (n : String) (ignored : Option (List String)) :
      Asked log log' → fastCounts it log' n ignored = some (r, log'') → (ignored.getD []).Nodup → n ∉ ignored.getD [] →
      Asked log log''
  | clone {log log' : List (EventsHolder E)} : Asked log log' → Asked log (log'.map EventsHolder.clone)

/-- C144e: a new log keeps its events and right values through all questions and copies, so that the answers above hold each
time. -/
theorem C144_asked (evs : List (List E)) (log : List (EventsHolder E)) (h : Asked (freshLog evs) log) :
    eventsOf log = evs ∧ ∀ x ∈ log, InStep x := by
  generalize hn : freshLog evs = start at h
  induction h with
  | start =>
    subst hn
    refine ⟨by simp [eventsOf, freshLog, EventsHolder.new, Function.comp_def], ?_⟩
    intro x hx
    obtain ⟨t, _, rfl⟩ := List.mem_map.1 hx
    exact ⟨.inl rfl, .inl rfl⟩
  | @slow l1 l2 r it n ignored _ h2 h3 ih =>
    obtain ⟨i1, i2⟩ := ih
    by_cases hne : ignored = none → l1 ≠ []
    · obtain ⟨l', e, s1, s2⟩ := C144_slow it l1 i2 n ignored h3 hne
      rw [h2] at e; simp only [Option.some.injEq, Prod.mk.injEq] at e
      rw [e.2]; exact ⟨s1.trans i1, s2⟩
    · rw [Classical.not_imp, not_not] at hne
      rw [hne.1, hne.2] at h2; simp [slowCounts, maxVectorLengthOf, vectorLength] at h2
  | @fast l1 l2 r it n ignored _ h2 h3 h4 ih =>
    obtain ⟨i1, i2⟩ := ih
    by_cases hne : ignored = none → l1 ≠ []
    · obtain ⟨l', e, s1, s2⟩ := C144_fast it l1 i2 n ignored h3 h4 hne
      rw [h2] at e; simp only [Option.some.injEq, Prod.mk.injEq] at e
      rw [e.2]; exact ⟨s1.trans i1, s2⟩
    · rw [Classical.not_imp, not_not] at hne
      rw [hne.1, hne.2] at h2; simp [fastCounts, maxVectorLengthOf, vectorLength] at h2
  | @clone l1 _ ih =>
    obtain ⟨i1, i2⟩ := ih
    refine ⟨?_, ?_⟩
    · rw [← i1]; simp [eventsOf, EventsHolder.clone, Function.comp_def]
    · intro x hx
      obtain ⟨y, _, rfl⟩ := List.mem_map.1 hx
      exact ⟨.inl rfl, .inl rfl⟩

example : Asked (freshLog [["a", "b"], ["b"]])
    [⟨["a", "b"], none, some [("a", [0]), ("b", [1])]⟩, ⟨["b"], none, some [("b", [0])]⟩] :=
  .fast .plain "a" none (.start _) (r := ([1, 0], 2)) (by decide +kernel) (by simp) (by simp)

/-- C144f, a defect: the values that a trace keeps are not renewed when its events change. After the events of one name are
removed from a log that was asked before, the fast function panics for an event that is still there (its old position is
outside of the new vector), with an ignored name both functions panic (fewer events than ignored ones are left), and after a
renaming the fast function does not see the new name; a copy of the changed log gets the right answers. -/
theorem C144_stale :
    (∃ (log changed : List (EventsHolder String)) (r : List Nat × Nat),
      fastCounts .plain (freshLog [["x", "a"], ["x", "a"]]) "a" none = some (r, log) ∧
      changed = log.map (·.removeBy (· == "x")) ∧ eventsOf changed = [["a"], ["a"]] ∧
      fastCounts .plain changed "a" none = none ∧
      (fastCounts .plain (changed.map EventsHolder.clone) "a" none).map Prod.fst = some ([2], 2)) ∧
    (∃ (log changed : List (EventsHolder String)) (r : List Nat × Nat),
      slowCounts .plain (freshLog [["x", "x", "a"], ["a"]]) "a" (some ["x"]) = some (r, log) ∧
      changed = log.map (·.removeBy (· == "x")) ∧
      slowCounts .plain changed "a" (some ["x"]) = none ∧ fastCounts .plain changed "a" (some ["x"]) = none ∧
      (slowCounts .plain (changed.map EventsHolder.clone) "a" (some ["x"])).map Prod.fst = some ([2], 2)) ∧
    (∃ (log changed : List (EventsHolder String)) (r : List Nat × Nat),
      fastCounts .plain (freshLog [["a"], ["a"]]) "a" none = some (r, log) ∧
      changed = log.map (·.mutate (fun _ => "z")) ∧
      (fastCounts .plain changed "z" none).map Prod.fst = some ([0], 2) ∧
      (slowCounts .plain changed "z" none).map Prod.fst = some ([2], 2)) :=
  ⟨⟨_, _, ([0, 2], 2), rfl, rfl, rfl, by decide +kernel, by decide +kernel⟩,
    ⟨_, _, ([2], 2), rfl, rfl, by decide +kernel, by decide +kernel, by decide +kernel⟩,
    ⟨_, _, ([2], 2), rfl, rfl, by decide +kernel, by decide +kernel⟩⟩

/-- C144g: removing events, renaming them and adding one leave the kept values alone: they are right afterwards only if they
are those of the new events as well. -/
theorem C144_not_renewed (h : EventsHolder E) (p : E → Bool) (f : E → E) (e : E) (i : Dict String Nat)
    (hi : h.info = some i) :
    (h.removeBy p).getInfo.1 = i ∧ (h.mutate f).getInfo.1 = i ∧ (h.push e).getInfo.1 = i := by
  simp [EventsHolder.removeBy, EventsHolder.mutate, EventsHolder.push, EventsHolder.getInfo, hi]

example : (⟨["a"], some [("a", 1)], none⟩ : EventsHolder String).info = some [("a", 1)] := rfl

/-- C144h: the functions for one event panic on a log without traces if no ignored names are given, and the fast one differs
from the plain one for an ignored name. -/
theorem C144_edges (it : Iter) (n : String) :
    slowCounts (E := E) it [] n none = none ∧ fastCounts (E := E) it [] n none = none ∧
    (fastCounts .plain (freshLog [["a", "b"]]) "a" (some ["a"])).map Prod.fst = some ([1], 1) ∧
    (slowCounts .plain (freshLog [["a", "b"]]) "a" (some ["a"])).map Prod.fst = some ([0], 1) :=
  ⟨rfl, rfl, by decide +kernel, by decide +kernel⟩

/-! ### C145: entropies of the directly follows relation -/

theorem allClasses_perm_keys (it : Iter) (log : Log E) (ignored : Option (List String)) :
    ((createInfo it log.evs ignored true).allClasses it 0).Perm (createLogInformation log ignored).eventsCount.keys := by
  unfold Info.allClasses
  refine (it.perm _ _ _).trans ?_
  rw [createInfo_eq, createLogInformation_eq, keptNames_eq, ← List.flatMap_def]
  exact List.Perm.refl _

theorem classesCount_eq (it : Iter) (log : Log E) (ignored : Option (List String)) :
    (createInfo it log.evs ignored true).classesCount = (createLogInformation log ignored).eventsCount.length := by
  rw [createInfo_eq, createLogInformation_eq, keptNames_eq, ← List.flatMap_def]
  rfl

theorem dfgRatio_eq (laplace : Bool) (info : Info) (n : String) (k : Nat) :
    dfgRatio laplace info n k = ratioValue laplace info.classesCount (info.eventCount n) k := by
  cases laplace
  · rfl
  · simp [dfgRatio, ratioValue]

/-- What the map holds for a name. -/
theorem dfgEntropies_get? (laplace : Bool) (it : Iter) (log : List (List E)) (ignored : Option (List String)) (n : String) :
    (dfgEntropies laplace it log ignored).get? n =
      if n ∈ keptNamesOf (ignored.getD []) log then
        some (vectorEntropy (followRatios laplace (createInfo it log ignored true)
            ((createInfo it log ignored true).allClasses it 0) n) +
          vectorEntropy (precedeRatios laplace (createInfo it log ignored true)
            ((createInfo it log ignored true).allClasses it 0) n))
      else none := by
  unfold dfgEntropies
  simp only
  rw [set_fold, Dict.get?_nil]
  have : n ∈ (createInfo it log ignored true).allClasses it 0 ↔ n ∈ keptNamesOf (ignored.getD []) log := by
    unfold Info.allClasses
    rw [(it.perm _ _ _).mem_iff, createInfo_eq, mem_counter_keys]
  simp only [this, ratiosEntropy_eq]

/-- C145a: for every log, both kinds of ratios and every order of iteration the backend gives the entropies of the local
library (C16): the same names with the same values. -/
theorem C145_local (laplace : Bool) (it : Iter) (log : Log E) (ignored : Option (List String)) :
    ∃ p, calculateEntropies laplace log ignored = .ok p ∧
      ∀ n, (dfgEntropies laplace it log.evs ignored).get? n = p.get? n := by
  have hk : ∀ a ∈ (createLogInformation log ignored).eventsCount.keys, a ∉ ignored.getD [] ∧ occurrences log a ≠ 0 := by
    intro a ha
    rw [info_eq] at ha
    exact (mem_namesList_iff log ignored a).1 ((mem_counter_keys _ _).1 ha)
  have hwf : (createLogInformation log ignored).eventsCount.keys.Nodup := (C09_wellformed log ignored true).2
  let info := createLogInformation log ignored
  let f : String → List ℚ := fun a => (info.eventsCount.keys ++ [fakeEnd]).map
    (fun x => ratioValue laplace info.eventsCount.length (occurrences log a) (pairCount info a x))
  let q : String → List ℚ := fun a => (info.eventsCount.keys ++ [fakeStart]).map
    (fun x => ratioValue laplace info.eventsCount.length (occurrences log a) (pairCount info x a))
  have hf : ∀ a ∈ info.eventsCount.keys, dfrVector laplace info a = .ok (f a) := by
    intro a ha
    refine mapM_ok_map _ _ _ (fun x _ => ratioOf_ok laplace info a _ _ (eventsCount_get? log ignored a (hk a ha).1 (hk a ha).2) ?_)
    exact Nat.pos_of_ne_zero (hk a ha).2
  have hq : ∀ a ∈ info.eventsCount.keys, dprVector laplace info a = .ok (q a) := by
    intro a ha
    refine mapM_ok_map _ _ _ (fun x _ => ratioOf_ok laplace info a _ _ (eventsCount_get? log ignored a (hk a ha).1 (hk a ha).2) ?_)
    exact Nat.pos_of_ne_zero (hk a ha).2
  refine ⟨info.eventsCount.keys.map (fun k => (k, vectorEntropy (f k) + vectorEntropy (q k))), ?_, fun n => ?_⟩
  · have := assign_loop (V := ℝ) info.eventsCount.keys hwf
      (fun k => do let a ← dfrVector laplace info k; let b ← dprVector laplace info k; return vectorEntropy a + vectorEntropy b)
      (fun k => vectorEntropy (f k) + vectorEntropy (q k)) (by intro k hk; rw [hf k hk, hq k hk]; rfl) [] (by simp [Dict.keys])
    rw [List.nil_append] at this
    rw [← this]
    show info.eventsCount.keys.foldlM (entropyLoop laplace info) [] = _
    congr 1
    funext d k
    unfold entropyLoop
    show (do let f ← dfrVector laplace info k; let p ← dprVector laplace info k
             return d.set k (vectorEntropy f + vectorEntropy p)) = _
    cases dfrVector laplace info k with
    | error e => rfl
    | ok a => cases dprVector laplace info k <;> rfl
  · have hget : ∀ (ks : List String) (g : String → ℝ),
        Dict.get? (ks.map (fun k => (k, g k))) n = if n ∈ ks then some (g n) else none := by
      intro ks g
      induction ks with
      | nil => rfl
      | cons k ks ih =>
        rw [List.map_cons, Dict.get?_cons, ih]
        by_cases h : n = k
        · subst h; simp
        · have : ¬ k = n := fun h' => h h'.symm
          simp [h, this]
    rw [hget, dfgEntropies_get?]
    have hmem : n ∈ keptNamesOf (ignored.getD []) log.evs ↔ n ∈ info.eventsCount.keys := by
      show _ ↔ n ∈ (createLogInformation log ignored).eventsCount.keys
      rw [createLogInformation_eq, keptNames_eq, ← List.flatMap_def, mem_counter_keys]; rfl
    simp only [hmem]
    by_cases hn : n ∈ info.eventsCount.keys
    · rw [if_pos hn, if_pos hn]
      have hc : (createInfo it log.evs ignored true).eventCount n = occurrences log n := by
        rw [(C110_agrees it log ignored true n n).2.1, eventsCount_get? log ignored n (hk n hn).1 (hk n hn).2]; rfl
      have hpair : ∀ a b, (createInfo it log.evs ignored true).followsCount a b = pairCount info a b :=
        fun a b => (C110_agrees it log ignored true a b).1
      have hperm := allClasses_perm_keys it log ignored
      congr 2
      · apply vectorEntropy_perm
        unfold followRatios
        simp only [dfgRatio_eq, hc, hpair, classesCount_eq]
        exact (hperm.append_right _).map _
      · apply vectorEntropy_perm
        unfold precedeRatios
        simp only [dfgRatio_eq, hc, hpair, classesCount_eq]
        exact (hperm.append_right _).map _
    · rw [if_neg hn, if_neg hn]

/-- C145b: the entropy of a name is that of the shares of its followers and of its predecessors, with an artificial event at the
ends of the traces, among the names that are not ignored. -/
theorem C145_values (it : Iter) (log : List (List E)) (ignored : Option (List String)) (n : String)
    (hn : n ∈ keptNamesOf (ignored.getD []) log) :
    let P := neighbours (ignored.getD []) true log
    let c : ℚ := (keptNamesOf (ignored.getD []) log).count n
    let names := (keptNamesOf (ignored.getD []) log).dedup
    let part : ℚ → ℝ := fun q => -((q : ℝ) * Real.logb 2 q)
    (dfgEntropies false it log ignored).get? n =
      some (((names ++ ["FAKE_END"]).map (fun x => part (P.count (n, x) / c))).sum +
        ((names ++ ["FAKE_START"]).map (fun x => part (P.count (x, n) / c))).sum) ∧
    (dfgEntropies true it log ignored).get? n =
      some (((names ++ ["FAKE_END"]).map (fun x => part ((1 / c + P.count (n, x)) / (1 / c * (names.length + 1) + c)))).sum +
        ((names ++ ["FAKE_START"]).map (fun x => part ((1 / c + P.count (x, n)) / (1 / c * (names.length + 1) + c)))).sum) := by
  intro P c names part
  have hperm : ((createInfo it log ignored true).allClasses it 0).Perm names := by
    unfold Info.allClasses
    refine (it.perm _ _ _).trans ?_
    rw [createInfo_eq]
    exact (List.perm_ext_iff_of_nodup (counter_WF _) (List.nodup_dedup _)).2
      (fun x => by rw [mem_counter_keys, List.mem_dedup])
  have hcount : (createInfo it log ignored true).eventCount n = (keptNamesOf (ignored.getD []) log).count n :=
    (C110_counts it log ignored true).2.2.1 n
  have hclasses : (createInfo it log ignored true).classesCount = names.length := (C110_counts it log ignored true).2.2.2
  have hfol : ∀ a b, (createInfo it log ignored true).followsCount a b = P.count (a, b) :=
    fun a b => (C110_pairs it log ignored true a b).1
  constructor <;>
  · rw [dfgEntropies_get?, if_pos hn]
    congr 2 <;>
    · rw [vectorEntropy_eq]
      simp only [followRatios, precedeRatios, dfgRatio_eq, hcount, hclasses, hfol, List.map_map]
      refine (((hperm.append_right _).map _).sum_eq).trans ?_
      congr 1

/-- C145c: names without an event, or ignored, have no entropy; the others have one between 0 and `2 log2 (k + 1)` for `k`
names, provided no event has the name of an artificial one. -/
theorem C145_range (laplace : Bool) (it : Iter) (log : Log E) (ignored : Option (List String)) (hf : NoFakeNames log) (n : String) :
    ((dfgEntropies laplace it log.evs ignored).get? n = none ↔ n ∉ keptNamesOf (ignored.getD []) log.evs) ∧
    ∀ e, (dfgEntropies laplace it log.evs ignored).get? n = some e →
      0 ≤ e ∧ e ≤ 2 * Real.logb 2 ((keptNamesOf (ignored.getD []) log.evs).dedup.length + 1) := by
  constructor
  · rw [dfgEntropies_get?]
    split <;> simp_all
  · intro e he
    obtain ⟨p, hp, hget⟩ := C145_local laplace it log ignored
    obtain ⟨d, hd, hkeys, _, hb⟩ := C16_entropies laplace log ignored hf
    rw [hp] at hd; cases hd
    rw [hget] at he
    have hl : p.length = (keptNamesOf (ignored.getD []) log.evs).dedup.length := by
      have h1 : p.length = p.keys.length := by simp [Dict.keys]
      rw [h1, hkeys]
      have h2 := (allClasses_perm_keys it log ignored).length_eq
      have h3 := (C110_counts it log.evs ignored true).2.2.2
      rw [classesCount_eq] at h3
      rw [← h3]; simp [Dict.keys]
    rw [← hl]
    exact hb n e (Dict.mem_of_get? he)

/-- A log for the examples. -/
def exDfgEnt : Log String := Log.ofEvs [["a", "x", "b"], ["a", "b", "a"]]

example : NoFakeNames exDfgEnt ∧ "a" ∈ keptNamesOf ((some ["x"]).getD []) exDfgEnt.evs := by
  constructor
  · constructor <;> decide
  · decide

example : followRatios false (createInfo .plain exDfgEnt.evs (some ["x"]) true)
    ((createInfo .plain exDfgEnt.evs (some ["x"]) true).allClasses .plain 0) "a" = [0, 2/3, 1/3] := by decide +kernel

end Ficus.Rs
