import Verif.Proofs.Relabel
import Verif.Props.Labels
import Verif.Props.Rounds

/-! Property C109: the options of the parts that discover activities. -/

namespace Ficus
open Spec
variable {E : Type}

theorem inTracesPart_eq (ext : E → String) (filter : Instance → Bool) (narrow : Bool) (log : Log E) (acts : List ActTree) :
    inTracesPart ext filter narrow log acts =
      .ok ((hashTraces ext log).map (instancesOf acts narrow filter),
        printInstancesText ((hashTraces ext log).map (instancesOf acts narrow filter))) := by
  unfold inTracesPart extractActivities
  rw [extractFromHashes_eq]

theorem execute_eq (lib : TreeLib) (sep : Nat → E) (part : DiscoverPart E) (uid : Nat) (log : Log E) (d : Discovered) :
    part.execute lib sep uid log = .ok d ↔
      ∃ acts, discoverActivities lib part.source part.merged sep part.ext part.nameOf part.level uid log = .ok acts ∧
        d = { activities := acts, instances := (hashTraces part.ext log).map (instancesOf acts true part.filter),
              printed := printFoundText acts ++ (printActivitiesText part.debug acts ++
                printInstancesText ((hashTraces part.ext log).map (instancesOf acts true part.filter))) } := by
  unfold DiscoverPart.execute
  cases discoverActivities lib part.source part.merged sep part.ext part.nameOf part.level uid log with
  | error e => simp [bind, Except.bind]
  | ok acts =>
    simp only [bind, Except.bind, inTracesPart_eq, pure, Except.pure, Except.ok.injEq, exists_eq_left']
    exact ⟨Eq.symm, Eq.symm⟩

theorem discoverActivities_forest {lib : TreeLib} {source : PatternsSource} {merged : Bool} {sep : Nat → E} {ext : E → String}
    {nameOf : Log E → RepeatSet → String} {level uid : Nat} {log : Log E} {acts : List ActTree}
    (h : discoverActivities lib source merged sep ext nameOf level uid log = .ok acts) :
    ∃ ps, findPatterns lib source ext (searchedLog merged sep log) = .ok ps ∧
      buildRepeatSetTree (searchedLog merged sep log) (createRepeatSets (searchedLog merged sep log) ps ext)
        (nameOf (searchedLog merged sep log)) level ext uid = .ok acts := by
  unfold discoverActivities at h
  simp only at h
  cases hp : findPatterns lib source ext (searchedLog merged sep log) with
  | error e => rw [hp] at h; cases h
  | ok ps => rw [hp] at h; exact ⟨ps, rfl, h⟩

/-- C109a: what the options of the parts mean: all activities, at any depth, have the given level and the name that the given
creator has for their place in the searched log; all instances satisfy the given filter. Missing: without narrowing the
activities of instances are roots (`C109_narrow_lost`). -/
theorem C109_options_partial (lib : TreeLib) (sep : Nat → E) (part : DiscoverPart E) (uid : Nat) (log : Log E) (d : Discovered)
    (h : part.execute lib sep uid log = .ok d) :
    (∀ a ∈ actsL d.activities, a.level = part.level ∧
      a.name = part.nameOf (searchedLog part.merged sep log) a.repeatSet) ∧
    (∀ is ∈ d.instances, ∀ i ∈ is, part.filter i = true) ∧ d.instances.length = log.traces.length := by
  obtain ⟨acts, h1, rfl⟩ := (execute_eq lib sep part uid log d).1 h
  obtain ⟨ps, _, h2⟩ := discoverActivities_forest h1
  refine ⟨fun a ha => ?_, fun is his i hi => ?_, by simp [hashTraces, Log.evs]⟩
  · have := (C28_each_repeat_set_once _ _ _ _ _ _ _ h2).2.2 a ha
    exact ⟨this.2.1, this.1⟩
  · obtain ⟨t, _, rfl⟩ := List.mem_map.1 his
    exact (List.mem_filter.1 hi).2

/-- C109b: the filter only selects instances: the activities are the same with every filter. -/
theorem C109_filter (lib : TreeLib) (sep : Nat → E) (part : DiscoverPart E) (uid : Nat) (log : Log E) (d : Discovered)
    (h : ({ part with filter := fun _ => true }).execute lib sep uid log = .ok d) :
    ∃ d', part.execute lib sep uid log = .ok d' ∧ d'.activities = d.activities ∧
      d'.instances = d.instances.map (·.filter part.filter) := by
  obtain ⟨acts, h1, rfl⟩ := (execute_eq lib sep _ uid log d).1 h
  refine ⟨_, (execute_eq lib sep part uid log _).2 ⟨acts, h1, rfl⟩, rfl, ?_⟩
  simp only [List.map_map]
  apply List.map_congr_left
  intro t _
  simp [instancesOf]

/-- C109c: the level and the names are labels: with another level, and with names whose order is the same, the parts find the
same activities and instances with the other labels, if the filter does not look at labels. -/
theorem C109_labels (lib : TreeLib) (sep : Nat → E) (part : DiscoverPart E) (uid : Nat) (log : Log E) (d : Discovered)
    (h : part.execute lib sep uid log = .ok d) (f : String → String) (level : Nat)
    (ho : ∀ a ∈ d.activities, ∀ b ∈ d.activities, a.act.name ≤ b.act.name ↔ f a.act.name ≤ f b.act.name)
    (hf : ∀ i, part.filter (mapInstance (relabelled f level) i) = part.filter i) :
    ∃ d', ({ part with level := level, nameOf := fun l r => f (part.nameOf l r) }).execute lib sep uid log = .ok d' ∧
      d'.activities = d.activities.map (mapTree (relabelled f level)) ∧
      d'.instances = d.instances.map (List.map (mapInstance (relabelled f level))) := by
  obtain ⟨acts, h1, rfl⟩ := (execute_eq lib sep part uid log d).1 h
  obtain ⟨ps, h2, h3⟩ := discoverActivities_forest h1
  have h4 : discoverActivities lib part.source part.merged sep part.ext (fun l r => f (part.nameOf l r)) level uid log =
      .ok (acts.map (mapTree (relabelled f level))) := by
    unfold discoverActivities
    simp only
    rw [h2]
    simp only [bind, Except.bind]
    rw [buildTree_relabel _ _ (part.nameOf (searchedLog part.merged sep log)) f part.level, h3]
    rfl
  refine ⟨_, (execute_eq lib sep _ uid log _).2 ⟨_, h4, rfl⟩, rfl, ?_⟩
  simp only [List.map_map]
  apply List.map_congr_left
  intro t _
  exact instancesOf_map (relabelled_keeps f level) ho true part.filter hf t

/-- C109d: what is printed: the number of roots, with `debug_prints` their names, each followed by an empty line, and the number
of instances. `debug_prints` has no other effect. -/
theorem C109_debug (lib : TreeLib) (sep : Nat → E) (part : DiscoverPart E) (uid : Nat) (log : Log E) (d : Discovered)
    (h : ({ part with debug := false }).execute lib sep uid log = .ok d) :
    ∃ found instances : String, found = "Discovered " ++ toString d.activities.length ++ " activities\n" ∧
    instances = "Discovered " ++ toString (d.instances.map List.length).sum ++ " activities instances\n" ∧
    d.printed = found ++ instances ∧
    ({ part with debug := true }).execute lib sep uid log =
      .ok { d with printed := found ++ ("Found activities:\n" ++
        String.join (d.activities.map (fun t => t.act.name ++ "\n\n")) ++ instances) } := by
  obtain ⟨acts, h1, rfl⟩ := (execute_eq lib sep _ uid log d).1 h
  have hj : ∀ ts : List ActTree, printNames (ts.map (fun t => t.act.name)) =
      String.join (ts.map (fun t => t.act.name ++ "\n\n")) := by
    intro ts
    induction ts with
    | nil => rfl
    | cons t ts ih =>
      rw [List.map_cons, List.map_cons, printNames, ih, String.join_cons]
      simp only [printText, String.append_assoc]
      rfl
  have h0 : printActivitiesText false acts = "" := rfl
  have h2 : ∀ is, printActivitiesText false acts ++ printInstancesText is = printInstancesText is := by
    intro is; rw [h0, String.empty_append]
  refine ⟨printFoundText acts, printInstancesText ((hashTraces part.ext log).map (instancesOf acts true part.filter)), ?_, ?_, ?_,
    (execute_eq lib sep _ uid log _).2 ⟨acts, h1, ?_⟩⟩
  · unfold printFoundText printText
    rw [String.append_assoc (s₂ := " activities")]
    rfl
  · unfold printInstancesText printText
    rw [String.append_assoc (s₂ := " activities instances")]
    rfl
  · show printFoundText acts ++ (printActivitiesText false acts ++ printInstancesText _) = _
    rw [h2]
  · rw [← hj]
    rfl

/-- C109e: `should_narrow_activity` takes effect in `DiscoverActivitiesInTraces`: without it all activities reported are given
ones; with it each is replaced by the one that `narrow_activity` chooses for the classes of the events of the instance. The
places are the same. -/
theorem C109_in_traces (ext : E → String) (log : Log E) (acts : List ActTree) :
    ∃ plain narrow textP textN, inTracesPart ext (fun _ => true) false log acts = .ok (plain, textP) ∧
      inTracesPart ext (fun _ => true) true log acts = .ok (narrow, textN) ∧
      (∀ is ∈ plain, ∀ i ∈ is, i.node ∈ acts) ∧
      plain.length = log.evs.length ∧ narrow.length = log.evs.length ∧
      ∀ (n : Nat) es p q, log.evs[n]? = some es → plain[n]? = some p → narrow[n]? = some q →
        List.Forall₂ (fun i j => span i = span j ∧ ∃ seen,
          SameSet seen (classHashes ext (slice es i.startPos i.length)) ∧ narrowActivity i.node seen = some j.node) p q := by
  refine ⟨_, _, _, _, inTracesPart_eq _ _ _ _ _, inTracesPart_eq _ _ _ _ _, ?_, by simp [hashTraces], by simp [hashTraces], ?_⟩
  · intro is his i hi
    obtain ⟨t, _, rfl⟩ := List.mem_map.1 his
    unfold instancesOf at hi
    obtain ⟨hi, _⟩ := List.mem_filter.1 hi
    obtain ⟨g, hg, rfl⟩ := List.mem_map.1 hi
    exact ((scan_segsOk acts t).each g hg).mem
  · intro n es p q he hp hq
    have hh : (hashTraces ext log)[n]? = some (classHashes ext es) := by
      unfold hashTraces; rw [List.getElem?_map, he]; rfl
    rw [List.getElem?_map, hh] at hp hq
    simp only [Option.map_some, Option.some.injEq] at hp hq
    subst hp hq
    unfold instancesOf
    have hft : ∀ l : List Instance, l.filter (fun _ => true) = l := fun l => by simp
    rw [hft, hft, List.forall₂_map_left_iff, List.forall₂_map_right_iff]
    refine List.forall₂_same.2 (fun g hg => ⟨rfl, g.seen, ?_, narrowActivity_eq _ _⟩)
    have ok := (scan_segsOk acts (classHashes ext es)).each g hg
    intro e
    rw [ok.seen]
    unfold classHashes
    rw [slice_map]
    rfl

/-- C109f: the two parts that discover activities and their instances do not pass `should_narrow_activity` on. -/
theorem C109_narrow_ignored (lib : TreeLib) (sep : Nat → E) (part : DiscoverPart E) (uid : Nat) (log : Log E) (b : Bool) :
    ({ part with narrow := b }).execute lib sep uid log = part.execute lib sep uid log := rfl

/-- C109l: nor does the repetition of the discovery, which hands it to one of these parts. -/
theorem C109_until_narrow_ignored (part : UntilPart) (fuel uid : Nat) (c : DiscoveryCtx) (b : Bool) :
    ({ part with shouldNarrow := b }).execute fuel uid c = part.execute fuel uid c :=
  C46_narrowing_option_ignored part.toRoundsConfig b fuel part.initialLevel uid c

theorem finds_level {cfg : RoundsConfig} {level uid : Nat} {log : Log NEvent} {acts : List ActTree}
    {insts : List (List Instance)} (h : Finds cfg level uid log acts insts) : ∀ a ∈ actsL acts, a.level = level := by
  obtain ⟨_, _, _, _, hb, _⟩ := h
  exact fun a ha => ((C28_each_repeat_set_once _ _ _ _ _ _ _ hb).2.2 a ha).2.1

theorem untilNoMoreLoop_levels (cfg : RoundsConfig) (ho : Observing cfg)
    (hba : ∀ c c', cfg.before c = .ok c' → c'.activities = c.activities)
    (haa : ∀ c c', cfg.after c = .ok c' → c'.activities = c.activities) :
    ∀ (fuel level uid : Nat) (c r : DiscoveryCtx),
      untilNoMoreLoop cfg fuel level uid (calculateEventsCount c.log) c = some (.ok r) →
      ∃ k, RoundRun cfg level uid c.log (k + 1) r.log ∧
        ∀ a ∈ actsL r.activities, a.level = level + if cfg.increaseLevel then k else 0 := by
  intro fuel
  induction fuel with
  | zero => intro _ _ _ _ h; simp [untilNoMoreLoop] at h
  | succ fuel ih =>
    intro level uid c r h
    unfold untilNoMoreLoop at h
    simp only at h
    split at h
    · cases h
    · next found hfound =>
      obtain ⟨hl, hfi⟩ := discover_finds cfg level uid (clearActivities c) found hfound
      have hcl0 : (clearActivities c).log = c.log := rfl
      rw [hcl0] at hfi hl
      split at h
      · next hz =>
        obtain rfl := Except.ok.inj (Option.some.inj h)
        exact ⟨0, .nothing hfi ((noInstance_iff _).1 hz), fun a ha => by simp [clearActivities, actsL] at ha⟩
      · next hz =>
        split at h
        · cases h
        · next b hb =>
          obtain ⟨hbl, hbi⟩ := ho.1 _ _ hb
          split at h
          · cases h
          · next n hn =>
            have hfit : FitsLog b.log b.instances := by
              rw [hbl, hbi, hl]; exact finds_fits hfi
            obtain ⟨next, h1, h2⟩ := createLog_ok (cfg := cfg) hfit
            rw [h2] at hn
            obtain rfl := Except.ok.inj hn
            split at h
            · cases h
            · next a ha =>
              have hal : a.log = next := ho.2 _ _ ha
              have hs := C46_round_shrinks _ _ _ _ hfit h1
              have hcl : b.log = c.log := by rw [hbl, hl]
              rw [hcl, hbi] at hs h1
              split at h
              · next heq =>
                obtain rfl := Except.ok.inj (Option.some.inj h)
                have hact : a.activities = found.activities := by
                  have h3 := haa _ _ ha
                  exact h3.trans (by rw [← hba _ _ hb])
                rw [hal] at heq ⊢
                refine ⟨0, .singles hfi (fun hn => hz ((noInstance_iff _).2 hn)) (hs.1.1 heq) h1, fun x hx => ?_⟩
                rw [hact] at hx
                rw [finds_level hfi x hx]; simp
              · next hne =>
                rw [hal] at hne
                obtain ⟨k, hr, hlev⟩ := ih _ _ a r h
                rw [hal] at hr
                refine ⟨k + 1, .more hfi (fun h => hne (hs.1.2 h)) h1 hr, fun x hx => ?_⟩
                rw [hlev x hx]
                split <;> omega

/-- C109m: the levels of the repetition: the rounds begin with `initial_activity_level`. The activities left in the context are
those of the last round, so they have the initial level, or with `increase_activity_level` that level plus the number of
rounds before. The optional pipelines leave the log, the instances and the activities alone. -/
theorem C109_until_levels (part : UntilPart) (ho : Observing part.toRoundsConfig)
    (hb : ∀ c c', part.before c = .ok c' → c'.activities = c.activities)
    (ha : ∀ c c', part.after c = .ok c' → c'.activities = c.activities)
    (fuel uid : Nat) (c r : DiscoveryCtx) (h : part.execute fuel uid c = some (.ok r)) :
    ∃ k, RoundRun part.toRoundsConfig part.initialLevel uid c.log (k + 1) r.log ∧
      ∀ a ∈ actsL r.activities, a.level = part.initialLevel + if part.increaseLevel then k else 0 :=
  untilNoMoreLoop_levels part.toRoundsConfig ho hb ha fuel part.initialLevel uid c r h

/-- C109g: the repetition of the discovery ignores `min_events_in_trace`. -/
theorem C109_min_events_ignored (part : UntilPart) (fuel uid n : Nat) (c : DiscoveryCtx) :
    ({ part with minEvents := n }).execute fuel uid c = part.execute fuel uid c := rfl

/-- C109h: `AddAllPatterns` ignores its extractor of classes and looks at names. -/
theorem C109_extractor_ignored [HasName E] (find : List (List Int) → List Int → Bool) (ext : Option (E → String)) (log : Log E)
    (patterns : List (List SubArray)) :
    addAllPatternsPart find ext log patterns = addAllPatterns find (log.evs.map (classHashes name)) patterns := rfl

/-! ### Concrete cases -/

/-- Two repeats, one within the other: `a b c` and `a b`. -/
def narrowLog : Log String := Log.ofEvs [["a", "b", "c", "x", "a", "b", "c", "y", "a", "b"]]

/-- Names for the examples: the length of the repeat. -/
def lengthName (_ : Log String) (r : RepeatSet) : String := if r.length = 3 then "long" else "short"

/-- The part of the examples. -/
def samplePart : DiscoverPart String :=
  { source := .repeats .maximal, merged := false, level := 3, debug := true, ext := id, filter := fun _ => true,
    nameOf := lengthName, narrow := false }

/-- What is observable of a result: the names and levels of the roots, the names and places of the instances, the text. -/
structure Observed where
  roots : List (String × Nat)
  instances : List (List (String × Nat × Nat))
  text : String
  deriving DecidableEq

/-- What is observable of a result, if there is one. -/
def observed (r : Except PyErr Discovered) : Option Observed :=
  match r with
  | .error _ => none
  | .ok d => some ⟨d.activities.map (fun t => (t.act.name, t.act.level)),
      d.instances.map (List.map (fun i => (i.node.act.name, i.startPos, i.length))), d.printed⟩

theorem samplePart_observed : observed (samplePart.execute slowTrees (fun _ => "") 0 narrowLog) =
    some ⟨[("long", 3)], [[("long", 0, 3), ("long", 4, 3), ("short", 8, 2)]],
      "Discovered 1 activities\nFound activities:\nlong\n\nDiscovered 3 activities instances\n"⟩ := by
  decide +kernel

/-- C109i: hence the option is lost: without narrowing all activities reported should be roots (as C109e shows for
`DiscoverActivitiesInTraces`), but the part reports one that is not. -/
theorem C109_narrow_lost : ∃ d, samplePart.narrow = false ∧ samplePart.execute slowTrees (fun _ => "") 0 narrowLog = .ok d ∧
    ∃ is ∈ d.instances, ∃ i ∈ is, i.node ∉ d.activities := by
  have h := samplePart_observed
  cases hd : samplePart.execute slowTrees (fun _ => "") 0 narrowLog with
  | error e => rw [hd] at h; cases h
  | ok d =>
    rw [hd] at h
    simp only [observed, Option.some.injEq, Observed.mk.injEq] at h
    obtain ⟨h1, h2, _⟩ := h
    refine ⟨d, rfl, rfl, ?_⟩
    have hm : [("long", 0, 3), ("long", 4, 3), ("short", 8, 2)] ∈
        d.instances.map (List.map (fun i => (i.node.act.name, i.startPos, i.length))) := by rw [h2]; simp
    obtain ⟨is, his, hi⟩ := List.mem_map.1 hm
    have hs : ("short", 8, 2) ∈ is.map (fun i => (i.node.act.name, i.startPos, i.length)) := by rw [hi]; simp
    obtain ⟨i, hi, he⟩ := List.mem_map.1 hs
    refine ⟨is, his, i, hi, fun hmem => ?_⟩
    have := List.mem_map_of_mem (f := fun t : ActTree => (t.act.name, t.act.level)) hmem
    rw [h1] at this
    simp only [List.mem_singleton, Prod.mk.injEq] at this he
    rw [this.1] at he
    exact absurd he.1 (by decide)

/-- With another level, a prefix of the names and a filter, only labels change and instances are selected. -/
example :
    let part := { samplePart with level := 7, debug := false, nameOf := fun l r => "a " ++ lengthName l r }
    observed (({ part with filter := fun i => decide (2 < i.length) }).execute slowTrees (fun _ => "") 0 narrowLog) =
    some ⟨[("a long", 7)], [[("a long", 0, 3), ("a long", 4, 3)]], "Discovered 1 activities\nDiscovered 2 activities instances\n"⟩ := by
  decide +kernel

/-- The hypotheses of C109c can be met. -/
example : ∃ d d', samplePart.execute slowTrees (fun _ => "") 0 narrowLog = .ok d ∧
    ({ samplePart with level := 7, nameOf := fun l r => "a " ++ lengthName l r }).execute slowTrees (fun _ => "") 0
      narrowLog = .ok d' ∧
    d'.activities = d.activities.map (mapTree (relabelled ("a " ++ ·) 7)) := by
  have h := samplePart_observed
  cases hd : samplePart.execute slowTrees (fun _ => "") 0 narrowLog with
  | error e => rw [hd] at h; cases h
  | ok d =>
    rw [hd] at h
    simp only [observed, Option.some.injEq, Observed.mk.injEq] at h
    have hn : ∀ a ∈ d.activities, a.act.name = "long" := by
      intro a ha
      have := List.mem_map_of_mem (f := fun t : ActTree => (t.act.name, t.act.level)) ha
      rw [h.1] at this
      simp only [List.mem_singleton, Prod.mk.injEq] at this
      exact this.1
    obtain ⟨d', h1, h2, _⟩ := C109_labels slowTrees (fun _ => "") samplePart 0 narrowLog d hd ("a " ++ ·) 7
      (fun a ha b hb => by rw [hn a ha, hn b hb]; decide) (fun _ => rfl)
    exact ⟨d, d', rfl, h1, h2⟩

/-- A repetition in which the second round finds a single event and is the last. -/
def sampleUntil : UntilPart :=
  { exRoundsCfg (fun t => .ok (if t.length = 5 then [⟨0, 2⟩] else [⟨0, 1⟩])) with minEvents := 1, initialLevel := 4 }

/-- The levels of the activities that are left. -/
def levelsLeft (r : Option (Except PyErr DiscoveryCtx)) : List Nat :=
  match r with
  | some (.ok c) => (actsL c.activities).map (·.level)
  | _ => []

/-- The hypotheses of C109m can be met: after a first round at level 4 the activity left has level 5, without the option 4. -/
example : levelsLeft (sampleUntil.execute 6 0 { log := exRoundsLog }) = [5] ∧
    levelsLeft (({ sampleUntil with increaseLevel := false }).execute 6 0 { log := exRoundsLog }) = [4] ∧
    Observing sampleUntil.toRoundsConfig :=
  ⟨by decide +kernel, by decide +kernel, (exRoundsCfg_observing _).1⟩

/-- Two repeats of two classes that share `b`, and a single `b`. -/
def sharedLog : Log String := Log.ofEvs [["a", "b", "x", "a", "b"], ["b", "c", "y", "b", "c"], ["b"]]

/-- Names that begin with the number of the trace, and names in the other order. -/
def byTrace (swap : Bool) (_ : Log String) (r : RepeatSet) : String :=
  if (r.traceIndex = 0) = (swap = false) then "1 from " ++ toString r.traceIndex else "2 from " ++ toString r.traceIndex

/-- C109j: the condition on the order of names in C109c is needed: names also decide which of several activities of the same
size is reported. With two creators that differ only in the order of the names, the instance in the last trace belongs to
the activity of the first trace or to the one of the second. -/
theorem C109_names_decide :
    (observed (({ samplePart with nameOf := byTrace false }).execute slowTrees (fun _ => "") 0 sharedLog)).map
      (fun r => r.instances.getLast?) = some (some [("1 from 0", 0, 1)]) ∧
    (observed (({ samplePart with nameOf := byTrace true }).execute slowTrees (fun _ => "") 0 sharedLog)).map
      (fun r => r.instances.getLast?) = some (some [("1 from 1", 0, 1)]) := by
  constructor <;> decide +kernel

/-- The classes of the next example: the first letter of a name. -/
def initialOf (n : String) : String := String.ofList (n.toList.take 1)

/-- C109k: hence patterns of classes are not completed to patterns of classes: the part gives others than those that belong to
the classes. -/
theorem C109_classes_lost : ∃ (find : List (List Int) → List Int → Bool) (log : Log String) (patterns : List (List SubArray)),
    (∀ ps w, find ps w = true ↔ ∃ p ∈ ps, w <:+: p) ∧
    addAllPatternsPart find (some initialOf) log patterns ≠
      addAllPatterns find (log.evs.map (classHashes initialOf)) patterns := by
  refine ⟨fun ps w => ps.any (fun p => decide (w <:+: p)), Log.ofEvs [["a1", "b1", "a2", "b2", "c"]], [[⟨0, 2⟩]], ?_, ?_⟩
  · intro ps w; simp
  · decide +kernel

end Ficus
