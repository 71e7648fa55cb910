import Verif.Proofs.RsVariants
import Verif.Proofs.Mutations
import Verif.Props.Split

/-! The parts of the backend that filter and change a log: what they leave, and where they differ from the local parts. -/

namespace Ficus.Rs
open Spec
variable {E : Type}

/-! ### C123: removing events -/

/-- C123a: removing events by name removes exactly the events of that name and the traces that are empty then, keeps the
order of the others, never panics, and gives the event lists that the local removal gives. -/
theorem C123_filter_by_name [HasName E] (log : Log E) (n : String) :
    filterByName log.evs n = some (without (fun e => decide (name e = n)) log.evs) ∧
      filterByName log.evs n = some (removeEvent log n).evs := by
  have h := filterEventsBy_some (fun e : E => some (decide (name e = n))) (fun e => decide (name e = n)) log.evs
    (fun _ _ _ _ => rfl)
  refine ⟨h, h.trans ?_⟩
  unfold removeEvent
  rw [filterEvents_evs]
  simp [without]

example : filterByName (E := String) [["a", "b", "b"], ["b"], [], ["c", "b", "a"]] "b" = some [["a"], ["c", "a"]] := by decide

/-- C123b: the same for a set of names. -/
theorem C123_filter_by_names [HasName E] (log : Log E) (names : List String) :
    filterByNames log.evs names = some (without (fun e => decide (name e ∈ names)) log.evs) ∧
      filterByNames log.evs names = some (removeEvents log names).evs := by
  have h := filterEventsBy_some (fun e : E => some (decide (name e ∈ names))) (fun e => decide (name e ∈ names)) log.evs
    (fun _ _ _ _ => rfl)
  refine ⟨h, h.trans ?_⟩
  unfold removeEvents
  rw [filterEvents_evs]
  simp [without]

example : filterByNames (E := String) [["a", "b", "b"], ["b"], ["c", "b", "a"]] ["b", "c"] = some [["a"], ["a"]] := by decide

/-- C123c: the part for regular expressions reports a text that is no expression; it panics exactly if the matcher fails on
the name of some event; otherwise it removes exactly the events whose names match and the traces that are empty then. -/
theorem C123_filter_by_regex [HasName E] (parse : String → Option (String → Option Bool)) (regex : String)
    (log : List (List E)) :
    (filterByRegexPart parse regex log = .invalid ↔ parse regex = none) ∧
      ∀ isMatch, parse regex = some isMatch →
        (filterByRegexPart parse regex log = .panics ↔ ∃ t ∈ log, ∃ e ∈ t, isMatch (name e) = none) ∧
        ((∀ t ∈ log, ∀ e ∈ t, isMatch (name e) ≠ none) →
          filterByRegexPart parse regex log = .done (without (fun e => decide (isMatch (name e) = some true)) log)) := by
  unfold filterByRegexPart
  refine ⟨?_, ?_⟩
  · cases parse regex with
    | none => simp
    | some m => simp only [reduceCtorEq, iff_false]; split <;> simp
  · intro isMatch hp
    rw [hp]
    simp only
    have hn := filterEventsBy_none (fun e : E => isMatch (name e)) log
    refine ⟨?_, ?_⟩
    · unfold filterByRegex
      rw [← hn]
      split <;> simp_all
    · intro h
      have hs := filterEventsBy_some (fun e : E => isMatch (name e)) (fun e => decide (isMatch (name e) = some true)) log
        (by
          intro t ht e he
          cases hm : isMatch (name e) with
          | none => exact absurd hm (h t ht e he)
          | some b => cases b <;> simp)
      unfold filterByRegex
      rw [hs]

/-- A matcher that finds names that begin with `a` and fails on the name `?`. -/
def exMatch (s : String) : Option Bool := if s = "?" then none else some (s.toList.head? = some 'a')

example : filterByRegexPart (fun r => if r = "^a" then some exMatch else none) "^a" [["ab", "c"], ["a"], ["d", "ad"]] =
      .done [["c"], ["d"]] ∧
    filterByRegexPart (fun r => if r = "^a" then some exMatch else none) "^a" [["ab", "c"], ["a", "?"]] = .panics ∧
    filterByRegexPart (fun r => if r = "^a" then some exMatch else none) "(" [["ab", "c"]] = .invalid := by decide

/-! ### C124: traces with few events -/

/-- C124a: the remote filter by the number of events keeps exactly the traces with at least that number of events, in their
order, and never panics. -/
theorem C124_at_least (log : List (List E)) (n : Nat) :
    filterByCount log n = some (log.filter (fun t => decide (n ≤ t.length))) := by
  unfold filterByCount
  rw [filterTracesBy_eq]
  simp only [Option.some.injEq]
  have : ∀ k, ((log.zipIdx k).filter (fun x => !decide (x.1.length < n))).map Prod.fst =
      log.filter (fun t => decide (n ≤ t.length)) := by
    induction log with
    | nil => intro k; rfl
    | cons t log ih =>
      intro k
      rw [List.zipIdx_cons, List.filter_cons, List.filter_cons]
      by_cases h : n ≤ t.length
      · have : ¬ t.length < n := by omega
        simp [this, h, ih]
      · have : t.length < n := by omega
        simp [this, ih]
  exact this 0

example : filterByCount [["a", "b"], ["a"], [], ["a", "b", "c"]] 2 = some [["a", "b"], ["a", "b", "c"]] := by decide

/-- C124b: the local filter with the same number needs one event more: it gives what the remote one gives for the next
number. -/
theorem C124_local_needs_one_more (log : Log E) (n : Nat) :
    some (removeEmptyTraces log n).evs = filterByCount log.evs (n + 1) := by
  rw [C124_at_least]
  unfold removeEmptyTraces Log.evs
  rw [filterTraces_traces, List.filter_map]
  rfl

/-- C124c: with the same number, the two filters agree exactly on the logs without a trace of exactly that number of
events. -/
theorem C124_agree_iff (log : Log E) (n : Nat) :
    filterByCount log.evs n = some (removeEmptyTraces log n).evs ↔ ∀ t ∈ log.evs, t.length ≠ n := by
  rw [C124_local_needs_one_more, C124_at_least, C124_at_least]
  simp only [Option.some.injEq]
  constructor
  · intro h t ht hn
    have : t ∈ log.evs.filter (fun t => decide (n ≤ t.length)) := by simp [ht, hn]
    rw [h, List.mem_filter] at this
    have := of_decide_eq_true this.2
    omega
  · intro h
    apply List.filter_congr
    intro t ht
    have := h t ht
    by_cases h1 : n ≤ t.length
    · have : n + 1 ≤ t.length := by omega
      simp [h1, this]
    · have : ¬ n + 1 ≤ t.length := by omega
      simp [h1, this]

example : filterByCount (Log.ofEvs [["a", "b"], ["a"]]).evs 2 = some [["a", "b"]] ∧
    (removeEmptyTraces (Log.ofEvs [["a", "b"], ["a"]]) 2).evs = [] := by decide

/-! ### C125: variants -/

/-- C125a: if the hash tells the names of the log apart, the groups of the backend are the classes of equal names in the
order of their first traces, each with its traces in the order of the log, in whatever order the maps are iterated.
Missing for the full property: logs with colliding names (see `C125_collision`). -/
theorem C125_groups_partial [HasName E] (it : Iter) (hash : String → Nat) (log : List (List E))
    (hh : HashTells hash log) : groupsIndices it hash log = some (variantClasses log) :=
  groupsIndices_eq it hash log hh

/-- C125e: the groups of traces are the traces at these indices. Missing as before. -/
theorem C125_split_partial [HasName E] (it : Iter) (hash : String → Nat) (log : List (List E))
    (hh : HashTells hash log) :
    splitTraces it hash log = some ((variantClasses log).map (fun g => g.filterMap (fun i => log[i]?))) :=
  splitTraces_eq it hash log hh

/-- C125b: then the filter by variants keeps exactly the first trace of each variant, in the order of the log. Missing as
before. -/
theorem C125_filter_partial [HasName E] (it : Iter) (hash : String → Nat) (log : List (List E))
    (hh : HashTells hash log) : filterByVariants it hash log = some (firstTraces log) :=
  filterByVariants_eq it hash log hh

/-- A hash for examples: the length of the name. -/
def exLength (s : String) : Nat := s.length

example : HashTells exLength [["a"], ["bb", "a"], ["a"], ["a", "bb"], ["bb", "a"], []] ∧
    groupsIndices Iter.reversed exLength [["a"], ["bb", "a"], ["a"], ["a", "bb"], ["bb", "a"], []] =
      some [[0, 2], [1, 4], [3], [5]] ∧
    filterByVariants Iter.reversed exLength [["a"], ["bb", "a"], ["a"], ["a", "bb"], ["bb", "a"], []] =
      some [["a"], ["bb", "a"], ["a", "bb"], []] ∧
    splitTraces Iter.reversed exLength [["a"], ["bb", "a"], ["a"], ["a", "bb"]] =
      some [[["a"], ["a"]], [["bb", "a"]], [["a", "bb"]]] := by
  refine ⟨?_, by decide +kernel, by decide +kernel, by decide +kernel⟩
  unfold HashTells; decide

theorem namesAt_mem [HasName E] (log : List (List E)) (i : Nat) (hi : i < log.length) :
    namesAt log i = some ((log[i]).map name) := by simp [namesAt, List.getElem?_eq_getElem hi]

theorem mem_firstTraces [HasName E] (log : List (List E)) (t : List E) :
    t ∈ firstTraces log ↔ log.find? (fun u => decide (u.map name = t.map name)) = some t := by
  unfold firstTraces
  rw [List.mem_filterMap, List.find?_eq_some_iff_getElem]
  constructor
  · rintro ⟨i, hi, ht⟩
    rw [List.mem_filter, List.mem_range] at hi
    obtain ⟨hi, hf⟩ := hi
    have hf := of_decide_eq_true hf
    rw [List.getElem?_eq_getElem hi, Option.some.injEq] at ht
    refine ⟨by simp, i, hi, ht, ?_⟩
    intro j hj
    have := hf j hj
    rw [namesAt_mem log i hi, namesAt_mem log j (by omega), ht] at this
    simpa using this
  · rintro ⟨-, i, hi, ht, h⟩
    refine ⟨i, ?_, by rw [List.getElem?_eq_getElem hi, ht]⟩
    rw [List.mem_filter, List.mem_range]
    refine ⟨hi, decide_eq_true ?_⟩
    intro j hj e
    have := h j hj
    rw [namesAt_mem log i hi, namesAt_mem log j (by omega), ht, Option.some.injEq] at e
    simp [e] at this

theorem firstTraces_nodup [HasName E] (log : List (List E)) : ((firstTraces log).map (fun t => t.map name)).Nodup := by
  have h1 : (firstTraces log).map (fun t => t.map name) =
      ((List.range log.length).filter (fun i => decide (FirstOfVariant log i))).filterMap (namesAt log) := by
    unfold firstTraces
    rw [List.map_filterMap]; rfl
  rw [h1, List.Nodup, List.pairwise_filterMap]
  have hlt : ((List.range log.length).filter (fun i => decide (FirstOfVariant log i))).Pairwise (· < ·) :=
    List.pairwise_lt_range.sublist List.filter_sublist
  refine hlt.imp_of_mem ?_
  intro i j hi hj hij a ha b hb e
  have := of_decide_eq_true (List.mem_filter.1 hj).2 i hij
  rw [ha, hb, e] at this
  exact this rfl

/-- C125c: if neither hash has collisions, the local filter by variants keeps the same traces, but possibly in another
order: it lists shorter or longer traces as their lengths occur first. Missing as before. -/
theorem C125_same_traces_partial [HasName E] (it : Iter) (hash : String → Nat) (log : Log E)
    (hh : HashTells hash log.evs) (hinj : NoNameCollision log) :
    ∃ remote loc, filterByVariants it hash log.evs = some remote ∧ filterTracesByVariants log = .ok loc ∧
      loc.evs.Perm remote := by
  obtain ⟨ts, h1, h2, h3, h4⟩ := C14_filter_by_variants_partial log hinj
  refine ⟨firstTraces log.evs, _, C125_filter_partial it hash log.evs hh, h1, ?_⟩
  have hn1 : (ts.map Trace.events).Nodup := by
    have : (ts.map variant) = (ts.map Trace.events).map (fun t => t.map name) := by
      rw [List.map_map]; rfl
    rw [this] at h2
    exact List.Nodup.of_map _ h2
  have hn2 : (firstTraces log.evs).Nodup := List.Nodup.of_map _ (firstTraces_nodup log.evs)
  show (ts.map Trace.events).Perm _
  refine (List.perm_ext_iff_of_nodup hn1 hn2).2 ?_
  intro t
  have hmem : ∀ u ∈ ts, log.evs.find? (fun v => decide (v.map name = u.events.map name)) = some u.events := by
    intro u hu
    have := h4 u hu
    show (log.traces.map Trace.events).find? _ = _
    rw [List.find?_map]
    have e : ((fun v : List E => decide (v.map name = u.events.map name)) ∘ Trace.events) =
        (fun v : Trace E => decide (variant v = variant u)) := rfl
    rw [e, this]; rfl
  rw [mem_firstTraces]
  constructor
  · intro ht
    obtain ⟨u, hu, rfl⟩ := List.mem_map.1 ht
    exact hmem u hu
  · intro ht
    have htm : t ∈ log.evs := List.mem_of_find?_eq_some ht
    obtain ⟨v, hv, hvt⟩ := List.mem_map.1 htm
    have : variant v ∈ ts.map variant := (h3 _).2 (List.mem_map.2 ⟨v, hv, rfl⟩)
    obtain ⟨u, hu, huv⟩ := List.mem_map.1 this
    have hun : u.events.map name = t.map name := by rw [← hvt]; exact huv
    have h5 := hmem u hu
    rw [hun, ht] at h5
    exact List.mem_map.2 ⟨u, hu, (Option.some.inj h5).symm⟩

/-- The orders of the two filters differ: the local one puts both traces of two events first. -/
example : filterByVariants Iter.plain exLength [["a", "bb"], ["a"], ["bb", "a"]] = some [["a", "bb"], ["a"], ["bb", "a"]] ∧
    filterTracesByVariants (Log.ofEvs [["a", "bb"], ["a"], ["bb", "a"]]) =
      .ok (Log.ofEvs [["a", "bb"], ["bb", "a"], ["a"]]) := by decide +kernel

/-- C125d: two names with the same hash are one variant for the backend, so that the full property fails. -/
theorem C125_collision : groupsIndices Iter.plain exLength [["a"], ["b"]] = some [[0, 1]] ∧
    filterByVariants Iter.plain exLength [["a"], ["b"]] = some [["a"]] ∧
    variantClasses [["a"], ["b"]] = [[0], [1]] := by decide +kernel

/-! ### C126: artificial events -/

section
variable {P : Type}

/-- C126a: each trace, an empty one too, gets one event at its start and one at its end, as asked for; the events between
are untouched. -/
theorem C126_wraps (c : Calendar) (addStart addEnd : Bool) (log : List (List (REvent P))) :
    List.Forall₂ (fun before after : List (REvent P) =>
      ∃ front back, after = front ++ before ++ back ∧
        front = (if addStart then [⟨"ARTIFICIAL_START", c.minUtc, none⟩] else []) ∧
        back = (if addEnd then [⟨"ARTIFICIAL_END", c.maxUtc, none⟩] else []))
      log (addArtificialEvents c addStart addEnd log) := by
  unfold addArtificialEvents
  rw [List.forall₂_map_right_iff, List.forall₂_same]
  intro t _
  refine ⟨_, _, ?_, rfl, rfl⟩
  unfold addToTrace REvent.new
  cases addStart <;> cases addEnd <;> simp

/-- C126b: if the times of a trace do not go back and lie between the least and the greatest time, the times of the result
do not go back either. -/
theorem C126_times (c : Calendar) (addStart addEnd : Bool) (t : List (REvent P))
    (hs : t.Pairwise (fun a b => a.date ≤ b.date)) (hr : ∀ e ∈ t, c.minUtc ≤ e.date ∧ e.date ≤ c.maxUtc)
    (hc : c.minUtc ≤ c.maxUtc) : (addToTrace c addStart addEnd t).Pairwise (fun a b => a.date ≤ b.date) := by
  unfold addToTrace REvent.new
  cases addStart <;> cases addEnd
  · simpa using hs
  · simp only [if_true, Bool.false_eq_true, if_false, List.pairwise_append, hs, true_and]
    exact ⟨by simp, fun a ha b hb => by simp at hb; subst hb; exact (hr a ha).2⟩
  · simp only [if_true, Bool.false_eq_true, if_false, List.pairwise_cons, hs, and_true]
    exact fun a ha => (hr a ha).1
  · simp only [if_true, List.pairwise_append, List.pairwise_cons, hs, and_true]
    refine ⟨fun a ha => (hr a ha).1, by simp, fun a ha b hb => ?_⟩
    simp at hb; subst hb
    rcases List.mem_cons.1 ha with rfl | ha
    · exact hc
    · exact (hr a ha).2

/-- C126c: removing both names afterwards gives the log back, if it has no empty trace and no event of these names. -/
theorem C126_removed_again (c : Calendar) (addStart addEnd : Bool) (log : List (List (REvent P))) (hne : [] ∉ log)
    (hfree : ∀ t ∈ log, ∀ e ∈ t, e.name ≠ "ARTIFICIAL_START" ∧ e.name ≠ "ARTIFICIAL_END") :
    filterByNames (addArtificialEvents c addStart addEnd log) ["ARTIFICIAL_START", "ARTIFICIAL_END"] = some log := by
  unfold filterByNames
  rw [filterEventsBy_some _ (fun e : REvent P => decide (name e ∈ ["ARTIFICIAL_START", "ARTIFICIAL_END"])) _
    (fun _ _ _ _ => rfl)]
  simp only [Option.some.injEq]
  unfold without addArtificialEvents
  rw [List.map_map]
  have : ∀ t ∈ log, ((fun t : List (REvent P) => t.filter (fun e =>
      !decide (name e ∈ ["ARTIFICIAL_START", "ARTIFICIAL_END"]))) ∘ addToTrace c addStart addEnd) t = t := by
    intro t ht
    have hid : t.filter (fun e => !decide (name e ∈ ["ARTIFICIAL_START", "ARTIFICIAL_END"])) = t := by
      rw [List.filter_eq_self]
      intro e he
      have := hfree t ht e he
      simp [name, this.1, this.2]
    simp only [Function.comp_apply]
    unfold addToTrace REvent.new
    cases addStart <;> cases addEnd <;>
      simp only [if_true, Bool.false_eq_true, if_false, List.filter_append, List.filter_cons, List.filter_nil, hid] <;>
      simp [name]
  rw [List.map_congr_left this, List.map_id', List.filter_eq_self]
  intro t ht
  simp only [ne_eq, decide_eq_true_eq]
  rintro rfl
  exact hne ht

example : addArtificialEvents (P := Unit) ⟨-100, 100⟩ true true [[⟨"a", 3, none⟩], []] =
      [[⟨"ARTIFICIAL_START", -100, none⟩, ⟨"a", 3, none⟩, ⟨"ARTIFICIAL_END", 100, none⟩],
        [⟨"ARTIFICIAL_START", -100, none⟩, ⟨"ARTIFICIAL_END", 100, none⟩]] ∧
    filterByNames (addArtificialEvents (P := Unit) ⟨-100, 100⟩ true true [[⟨"a", 3, none⟩]])
      ["ARTIFICIAL_START", "ARTIFICIAL_END"] = some [[⟨"a", 3, none⟩]] := by decide

/-! ### C127: classes of names -/

/-- C127a: the part that replaces names by their classes panics exactly if the filter fails on the name of some event. -/
theorem C127_panics_iff (isMatch : String → Option Bool) (find : String → Option (Option Match))
    (log : List (List (REvent P))) :
    applyClassExtractor isMatch find log = none ↔ ∃ t ∈ log, ∃ e ∈ t, isMatch e.name = none := by
  unfold applyClassExtractor
  have h1 : ∀ s, extractClass isMatch find s = none ↔ isMatch s = none := by
    intro s
    unfold extractClass
    cases hm : isMatch s with
    | none => simp
    | some b => cases b <;> simp; split <;> simp
  rw [mapM_none]
  constructor
  · rintro ⟨t, ht, h⟩
    rw [mapM_none] at h
    obtain ⟨e, he, h⟩ := h
    simp only [Option.bind_eq_bind, Option.bind_eq_none_iff, Option.pure_def, reduceCtorEq, imp_false] at h
    refine ⟨t, ht, e, he, (h1 _).1 ?_⟩
    cases hx : extractClass isMatch find e.name with
    | none => rfl
    | some x => exact absurd hx (h x)
  · rintro ⟨t, ht, e, he, h⟩
    refine ⟨t, ht, ?_⟩
    rw [mapM_none]
    exact ⟨e, he, by rw [(h1 _).2 h]; rfl⟩

theorem extractClass_eq (isMatch : String → Option Bool) (find : String → Option (Option Match)) (s : String) (b : Bool)
    (h : isMatch s = some b) : extractClass isMatch find s = some (if b then classOf find s else s) := by
  unfold extractClass classOf upTo
  rw [h]
  cases b with
  | false => simp
  | true =>
    simp only [Option.bind_eq_bind, Option.bind_some, if_true]
    cases find s with
    | none => rfl
    | some f =>
      cases f with
      | none => simp
      | some m =>
        obtain ⟨i, j⟩ := m
        cases i with
        | zero => rfl
        | succ i => simp

/-- C127b: otherwise it changes nothing but names: the name of an event that passes the filter becomes its class, which is
what the expression matches at the start of the name and the whole name if it matches nothing there. -/
theorem C127_classes (isMatch : String → Option Bool) (find : String → Option (Option Match)) (log : List (List (REvent P)))
    (h : ∀ t ∈ log, ∀ e ∈ t, isMatch e.name ≠ none) :
    applyClassExtractor isMatch find log = some (log.map (fun t => t.map (fun e =>
      { e with
        name := if isMatch e.name = some true then classOf find e.name else e.name }))) := by
  unfold applyClassExtractor
  refine mapM_total _ _ log ?_
  intro t ht
  refine mapM_total _ _ t ?_
  intro e he
  cases hm : isMatch e.name with
  | none => exact absurd hm (h t ht e he)
  | some b =>
    rw [extractClass_eq isMatch find e.name b hm]
    cases b <;> simp

/-- C127c: a class is a prefix of the name. -/
theorem C127_prefix (find : String → Option (Option Match)) (s : String) : (classOf find s).toList <+: s.toList := by
  unfold classOf
  split
  · simp only [String.toList_ofList]; exact List.take_prefix _ _
  · exact List.prefix_refl _

/-- C127d: the hashes of a log for an expression of classes, from which patterns are found, are the hashes of the names
after replacing all names by their classes. -/
theorem C127_hashes (hash : String → Nat) (find : String → Option (Option Match)) (log : List (List (REvent P))) :
    (applyClassExtractor (fun _ => some true) find log).map (hashedLog hash none) = some (hashedLog hash (some find) log) := by
  rw [C127_classes _ _ _ (fun _ _ _ _ => by simp)]
  simp only [Option.map_some, Option.some.injEq, hashedLog, List.map_map]
  apply List.map_congr_left
  intro t _
  simp only [Function.comp_apply, List.map_map]
  apply List.map_congr_left
  intro e _
  simp only [Function.comp_apply, if_true, hashName, classOf, upTo]
  cases find e.name with
  | none => rfl
  | some f =>
    cases f with
    | none => rfl
    | some m =>
      obtain ⟨i, j⟩ := m
      cases i with
      | zero => rfl
      | succ i => simp

/-- An expression for examples: the letters before a dot, if the name has one after the first letter. -/
def exFind (s : String) : Option (Option Match) :=
  if s = "?" then none else if '.' ∈ s.toList then some (some (0, s.toList.idxOf '.')) else some (some (1, 2))

example : applyClassExtractor (P := Unit) exMatch exFind [[⟨"ab.c", 1, none⟩, ⟨"b.c", 2, some ()⟩], [⟨"abc", 3, none⟩]] =
      some [[⟨"ab", 1, none⟩, ⟨"b.c", 2, some ()⟩], [⟨"abc", 3, none⟩]] ∧
    applyClassExtractor (P := Unit) exMatch exFind [[⟨"ab.c", 1, none⟩, ⟨"?", 2, none⟩]] = none := by decide

/-! ### C128: names and underlying events -/

theorem eventsOfNames_getElem? (date : Int) (names : List String) (k : Nat) :
    (eventsOfNames (P := P) date names)[k]? = (names[k]?).map (fun n => ⟨n, date + k, none⟩) := by
  induction names generalizing date k with
  | nil => simp [eventsOfNames]
  | cons n names ih =>
    cases k with
    | zero => simp [eventsOfNames, REvent.new]
    | succ k =>
      simp only [eventsOfNames, List.getElem?_cons_succ, ih]
      congr 1
      funext m
      simp only [Nat.cast_add, Nat.cast_one, REvent.mk.injEq, true_and, and_true]
      ring

/-- C128a: a log made of names has these names, and its events are a second apart from the least time on. -/
theorem C128_names (c : Calendar) (names : List (List String)) :
    namesLog (useNamesLog (P := P) c names) = names ∧
      ∀ i k : Nat, (((useNamesLog (P := P) c names)[i]?).bind (fun t => t[k]?)).map REvent.date =
        ((names[i]?).bind (fun t => t[k]?)).map (fun _ => c.minUtc + k) := by
  have hn : ∀ (l : List String) (d : Int), (eventsOfNames (P := P) d l).map name = l := by
    intro l
    induction l with
    | nil => intro d; rfl
    | cons n l ih => intro d; rw [eventsOfNames, List.map_cons, ih]; rfl
  refine ⟨?_, ?_⟩
  · unfold namesLog useNamesLog
    rw [List.map_map]
    conv_rhs => rw [← List.map_id names]
    apply List.map_congr_left
    intro l _
    exact hn l _
  · intro i k
    unfold useNamesLog
    rw [List.getElem?_map]
    cases names[i]? with
    | none => rfl
    | some l =>
      simp only [Option.map_some, Option.bind_some, eventsOfNames_getElem?, Option.map_map]
      rfl

/-- C128b: taking the names of a log and making a log of them keeps the names of every trace, and nothing else. -/
theorem C128_only_names (c : Calendar) (log log' : List (List (REvent P))) :
    useNamesLog (P := P) c (namesLog log) = useNamesLog c (namesLog log') ↔ namesLog log = namesLog log' := by
  constructor
  · intro h
    have := congrArg namesLog h
    rwa [(C128_names c _).1, (C128_names c _).1] at this
  · intro h; rw [h]

example : useNamesLog (P := Unit) ⟨-100, 100⟩ (namesLog (E := REvent Unit) [[⟨"a", 5, some ()⟩, ⟨"b", 9, none⟩], []]) =
    [[⟨"a", -100, none⟩, ⟨"b", -99, none⟩], []] := by decide
end

mutual
theorem substitute_spec {E : Type} (e : Nested E) (trace : List E) :
    ∃ r, Atoms [e] r ∧ substitute trace e = trace ++ r := by
  cases e with
  | atom a => exact ⟨[a], .atom .nil, rfl⟩
  | over a u =>
    obtain ⟨r, h1, h2⟩ := substituteAll_spec u trace
    exact ⟨r ++ [], .over h1 .nil, by simp [substitute, h2]⟩

theorem substituteAll_spec {E : Type} (l : List (Nested E)) (trace : List E) :
    ∃ r, Atoms l r ∧ substituteAll trace l = trace ++ r := by
  cases l with
  | nil => exact ⟨[], .nil, by simp [substituteAll]⟩
  | cons e l =>
    obtain ⟨r, h1, h2⟩ := substitute_spec e trace
    obtain ⟨s, h3, h4⟩ := substituteAll_spec l (trace ++ r)
    refine ⟨r ++ s, ?_, by simp [substituteAll, h2, h4]⟩
    cases h1 with
    | atom h => cases h; exact .atom h3
    | over hu h => cases h; simpa using Atoms.over hu h3
end

theorem atoms_unique {E : Type} {l : List (Nested E)} {r s : List E} (hr : Atoms l r) (hs : Atoms l s) : r = s := by
  induction hr generalizing s with
  | nil => cases hs; rfl
  | atom _ ih => cases hs with | atom h => rw [ih h]
  | over _ _ ih1 ih2 => cases hs with | over h1 h2 => rw [ih1 h1, ih2 h2]

/-- C128c: substituting underlying events replaces every event, however deeply nested, by the events below it that have no
underlying events, in their order; the number of traces stays, and an event with an empty list of underlying events
disappears. -/
theorem C128_substitute (log : List (List (Nested E))) :
    List.Forall₂ (fun before after => ∀ r, Atoms before r ↔ after = r) log (substituteLog log) := by
  unfold substituteLog
  rw [List.forall₂_map_right_iff, List.forall₂_same]
  intro t _ r
  obtain ⟨s, h1, h2⟩ := substituteAll_spec t ([] : List E)
  rw [h2, List.nil_append]
  constructor
  · intro h; exact atoms_unique h1 h
  · rintro rfl; exact h1

/-- C128d: a log whose events have no underlying events stays as it is. -/
theorem C128_substitute_atoms (log : List (List E)) : substituteLog (log.map (fun t => t.map Nested.atom)) = log := by
  unfold substituteLog
  rw [List.map_map]
  conv_rhs => rw [← List.map_id log]
  apply List.map_congr_left
  intro t _
  have : ∀ (l acc : List E), substituteAll acc (l.map Nested.atom) = acc ++ l := by
    intro l
    induction l with
    | nil => intro acc; simp [substituteAll]
    | cons a l ih => intro acc; simp [substituteAll, substitute, ih]
  simp [this]

example : substituteLog [[.atom "a", .over "x" [.atom "b", .over "y" [.atom "c", .atom "a"]], .over "z" []], []] =
    [["a", "b", "c", "a"], []] := by decide +kernel

end Ficus.Rs
