import Verif.Spec.Levels
import Verif.Props.Rounds
import Verif.Props.Unattached

/-! Properties C57-C59: the discovery of activities at several levels. -/

namespace Ficus
open Spec

theorem fits_none (log : Log NEvent) : FitsLog log (log.traces.map (fun _ => [])) := by
  unfold FitsLog
  generalize log.traces = ts
  induction ts with
  | nil => exact .nil
  | cons t ts ih => exact .cons ⟨by simp, by simp⟩ ih

theorem source_spec (mode : AdjustingMode) (log : Log NEvent) (insts : List (List Instance)) (h : FitsLog log insts) :
    (mode = .other ∧ adjustSource mode log (some insts) = .error .valueError) ∨
      ∃ source, adjustSource mode log (some insts) = .ok source ∧ SourceLog mode log insts source := by
  cases mode with
  | other => exact .inl ⟨rfl, rfl⟩
  | fromAllLog => exact .inr ⟨log, rfl, .inl ⟨rfl, rfl⟩⟩
  | fromUnattached =>
    obtain ⟨r, h1, h2⟩ := C35_unattached_exactly_outside log insts h
    exact .inr ⟨r, h1, .inr ⟨rfl, h2⟩⟩

theorem patterns_spec (cfg : LevelsConfig) (ext : NEvent → String) (level uid : Nat) (source : Log NEvent)
    (f : DiscoveryCtx) (h : discoverFromPatterns (cfg.rounds ext) level uid { log := source } = .ok f) :
    ForestOfRepeats cfg ext level uid source f.activities := by
  unfold discoverFromPatterns at h
  simp only [bind, Except.bind] at h
  cases hp : (hashTraces (cfg.rounds ext).ext (patternLog (cfg.rounds ext) source)).mapM (cfg.rounds ext).repeats with
  | error e => rw [hp] at h; cases h
  | ok ps =>
    rw [hp] at h
    simp only at h
    split at h
    · cases h
    · next acts hb =>
      have h2 := Except.ok.inj h
      subst h2
      exact ⟨_, ps, rfl, hp, hb⟩

/-- The list object of the context after the merge. -/
theorem merge_spec (h : ActHeap) (c : LevelCtx) (hr : RefOk h c) (n : Nat) (new : List ActTree) (h' : ActHeap) (r : Nat)
    (hm : mergeActivities { h with counter := n } c.activities new = (h', r)) :
    h'.counter = n ∧ r < h'.lists.length ∧ h'.lists[r]? = some (shownActivities h c ++ new) ∧
      (∀ k, k < h.lists.length → c.activities ≠ some k → h'.lists[k]? = h.lists[k]?) ∧
      h.lists.length ≤ h'.lists.length ∧ (∀ k, c.activities = some k → r = k) ∧
      (c.activities = none → r = h.lists.length) := by
  unfold mergeActivities at hm
  unfold shownActivities
  cases hc : c.activities with
  | none =>
    rw [hc] at hm
    simp only [Prod.mk.injEq] at hm
    obtain ⟨rfl, rfl⟩ := hm
    refine ⟨rfl, by simp, by simp, ?_, by simp, by simp, by simp⟩
    intro k hk _
    simp [List.getElem?_append_left hk]
  | some q =>
    rw [hc] at hm
    simp only [Prod.mk.injEq] at hm
    obtain ⟨rfl, rfl⟩ := hm
    have hq := hr q hc
    refine ⟨rfl, by simpa using hq, ?_, ?_, by simp, by simp, by simp⟩
    · simp [List.getElem?_eq_getElem hq]
    · intro k hk hne
      have : q ≠ k := fun h => hne (by rw [h])
      simp [this]

/-- One round, all outcomes. -/
theorem adjust_cases (cfg : LevelsConfig) (ext : NEvent → String) (level : Nat) (h : ActHeap) (c : LevelCtx)
    (hr : RefOk h c) (hf : FitsLog c.log (shownInstances c)) :
    (∃ e, adjust cfg ext level h c = (h, { c with instances := some (shownInstances c) }, some e) ∧
      (cfg.mode = .other → e = .valueError) ∧
      (cfg.mode = .other ∨ ∃ source, SourceLog cfg.mode c.log (shownInstances c) source ∧
        discoverFromPatterns (cfg.rounds ext) level h.counter { log := source } = .error e)) ∨
    ∃ source new h' r insts, cfg.mode ≠ .other ∧ SourceLog cfg.mode c.log (shownInstances c) source ∧
      ForestOfRepeats cfg ext level h.counter source new ∧
      mergeActivities { h with counter := h.counter + createdNodes new } c.activities new = (h', r) ∧
      addUnattachedActivities c.log (shownActivities h c ++ new) (shownInstances c) ext cfg.filter cfg.minEvents
        cfg.shouldNarrow = .ok insts ∧
      adjust cfg ext level h c = (h', { log := c.log, activities := some r, instances := some insts }, none) := by
  have hsh : c.instances.getD (c.log.traces.map (fun _ => [])) = shownInstances c := rfl
  unfold adjust
  simp only [hsh]
  rcases source_spec cfg.mode c.log (shownInstances c) hf with ⟨hmo, hs⟩ | ⟨source, hs, hsl⟩
  · left
    rw [hs]
    exact ⟨_, rfl, fun _ => rfl, .inl hmo⟩
  · have hno : cfg.mode ≠ .other := by
      intro hmo
      rcases hsl with ⟨h1, _⟩ | ⟨h1, _⟩ <;> rw [hmo] at h1 <;> cases h1
    rw [hs]
    simp only
    cases hd : discoverFromPatterns (cfg.rounds ext) level h.counter { log := source } with
    | error e => exact .inl ⟨e, rfl, fun h => absurd h hno, .inr ⟨source, hsl, hd⟩⟩
    | ok f =>
      right
      have hfo := patterns_spec cfg ext level h.counter source f hd
      cases hm : mergeActivities { h with counter := h.counter + createdNodes f.activities } c.activities
          f.activities with
      | mk h' r =>
        obtain ⟨_, _, h3, _⟩ := merge_spec h c hr _ _ h' r hm
        obtain ⟨insts, hi, _⟩ := C36_existing_instances_kept c.log (shownActivities h c ++ f.activities)
          (shownInstances c) ext cfg.filter cfg.minEvents cfg.shouldNarrow hf
        refine ⟨source, f.activities, h', r, insts, hno, hsl, hfo, hm, hi, ?_⟩
        simp only [hm, h3, Option.getD_some, hi]

theorem countL_eq_length : ∀ n, (∀ t : ActTree, ActTree.count t ≤ n → ActTree.count t = (acts t).length) ∧
    (∀ f : List ActTree, ActTree.countL f ≤ n → ActTree.countL f = (actsL f).length) := by
  intro n
  induction n with
  | zero =>
    constructor
    · intro t ht; cases t; simp [ActTree.count] at ht
    · intro f hf
      cases f with
      | nil => rfl
      | cons t ts => cases t; simp [ActTree.countL, ActTree.count] at hf
  | succ n ih =>
    have h1 : ∀ t : ActTree, ActTree.count t ≤ n + 1 → ActTree.count t = (acts t).length := by
      intro t ht
      cases t with
      | node a cs =>
        have := ih.2 cs (by simp [ActTree.count] at ht; omega)
        simp [ActTree.count, acts, this]; omega
    refine ⟨h1, ?_⟩
    intro f
    induction f with
    | nil => intro _; rfl
    | cons t ts ihf =>
      intro hf
      have h2 := h1 t (by simp [ActTree.countL] at hf; omega)
      have h3 := ihf (by simp [ActTree.countL] at hf; omega)
      simp [ActTree.countL, actsL, h2, h3]

/-- The nodes of a forest of repeats: their level, and identities counted from `uid` on. -/
theorem forest_uids (cfg : LevelsConfig) (ext : NEvent → String) (level uid : Nat) (source : Log NEvent)
    (acts : List ActTree) (h : ForestOfRepeats cfg ext level uid source acts) :
    (∀ a ∈ actsL acts, a.level = level ∧ uid ≤ a.uid ∧ a.uid < uid + createdNodes acts) ∧
      ((actsL acts).map Activity.uid).Nodup := by
  obtain ⟨words, patterns, _, _, hb⟩ := h
  obtain ⟨_, hnd, hl⟩ := C28_each_repeat_set_once _ _ _ _ _ _ _ hb
  obtain ⟨nodes, hn, rfl, hu⟩ := forest_nodes _ _ _ _ _ _ _ hb
  obtain ⟨h1, h2, h3⟩ := createActivityNodes_spec _ _ _ _ _ _ hn
  obtain ⟨tops, below, hp, _, _, st, inv, he⟩ := forestOfNodes_spec nodes hu
  have hperm : (actsL (forestOfNodes nodes)).Perm nodes := by rw [he]; exact inv.perm.trans hp
  refine ⟨fun a ha => ⟨(hl a ha).2.1, ?_⟩, hnd⟩
  have hm : a.uid ∈ nodes.map Activity.uid := List.mem_map.2 ⟨a, hperm.mem_iff.1 ha, rfl⟩
  have hlen : createdNodes (forestOfNodes nodes) = nodes.length := by
    unfold createdNodes
    rw [(countL_eq_length _).2 _ (le_refl _), hperm.length_eq]
  have hlr : (createRepeatSets words patterns ext).length = nodes.length := by rw [← h1, List.length_map]
  rw [h2, List.mem_range'_1] at hm
  rw [hlen, ← hlr]
  exact hm

/-- C57a: a round that does not raise leaves the log alone, searches activities in the whole log or in the events that
are in no instance, appends their forest to the activities and then adds instances of all activities, old and new, in the
gaps of every trace (C36 says which). -/
theorem C57_round_exactly (cfg : LevelsConfig) (ext : NEvent → String) (level : Nat) (h h' : ActHeap) (c c' : LevelCtx)
    (hr : RefOk h c) (hf : FitsLog c.log (shownInstances c)) (hok : adjust cfg ext level h c = (h', c', none)) :
    ∃ source new insts, SourceLog cfg.mode c.log (shownInstances c) source ∧
      ForestOfRepeats cfg ext level h.counter source new ∧ c'.log = c.log ∧
      shownActivities h' c' = shownActivities h c ++ new ∧
      addUnattachedActivities c.log (shownActivities h c ++ new) (shownInstances c) ext cfg.filter cfg.minEvents
        cfg.shouldNarrow = .ok insts ∧ c'.instances = some insts ∧
      h'.counter = h.counter + ActTree.countL new := by
  rcases adjust_cases cfg ext level h c hr hf with ⟨e, he, _⟩ | ⟨source, new, h1, r, insts, _, hs, hfo, hm, hi, he⟩
  · rw [hok] at he; simp at he
  · rw [hok] at he
    simp only [Prod.mk.injEq, and_true] at he
    obtain ⟨rfl, rfl⟩ := he
    obtain ⟨hc, _, h3, _⟩ := merge_spec h c hr _ _ _ r hm
    exact ⟨source, new, insts, hs, hfo, rfl, by simp [shownActivities, h3], hi, rfl, hc⟩

/-- C57b: a round that raises leaves the log, the activities of all contexts and the instances as they were, except that
a context without instances now has an empty list for every trace. -/
theorem C57_failed_round (cfg : LevelsConfig) (ext : NEvent → String) (level : Nat) (h h' : ActHeap) (c c' : LevelCtx)
    (e : PyErr) (hr : RefOk h c) (hf : FitsLog c.log (shownInstances c))
    (hok : adjust cfg ext level h c = (h', c', some e)) :
    h' = h ∧ c'.log = c.log ∧ c'.activities = c.activities ∧ c'.instances = some (shownInstances c) := by
  rcases adjust_cases cfg ext level h c hr hf with ⟨e', he, _⟩ | ⟨source, new, h1, r, insts, _, _, _, _, _, he⟩
  · rw [hok] at he
    simp only [Prod.mk.injEq] at he
    obtain ⟨rfl, rfl, _⟩ := he
    exact ⟨rfl, rfl, rfl, rfl⟩
  · rw [hok] at he; simp at he

theorem adjust_refOk (cfg : LevelsConfig) (ext : NEvent → String) (level : Nat) (h h' : ActHeap) (c c' : LevelCtx)
    (hr : RefOk h c) (hf : FitsLog c.log (shownInstances c)) (e : Option PyErr)
    (hok : adjust cfg ext level h c = (h', c', e)) : RefOk h' c' := by
  rcases adjust_cases cfg ext level h c hr hf with ⟨e', he, _⟩ | ⟨source, new, h1, r, insts, _, _, _, hm, _, he⟩
  · rw [hok] at he
    simp only [Prod.mk.injEq] at he
    obtain ⟨rfl, rfl, _⟩ := he
    exact hr
  · rw [hok] at he
    simp only [Prod.mk.injEq] at he
    obtain ⟨rfl, rfl, _⟩ := he
    intro k hk
    simp only [Option.some.injEq] at hk
    subst hk
    exact (merge_spec h c hr _ _ _ r hm).2.1

theorem adjust_adds (cfg : LevelsConfig) (ext : NEvent → String) (level : Nat) (h h' : ActHeap) (c c' : LevelCtx)
    (hr : RefOk h c) (hf : FitsLog c.log (shownInstances c)) (e : Option PyErr)
    (hok : adjust cfg ext level h c = (h', c', e)) :
    c'.log = c.log ∧ FitsLog c.log (shownInstances c') ∧
      List.Forall₂ (fun old new => old.Sublist new) (shownInstances c) (shownInstances c') := by
  cases e with
  | some e =>
    obtain ⟨_, h2, _, h4⟩ := C57_failed_round cfg ext level h h' c c' e hr hf hok
    have h5 : shownInstances c' = shownInstances c := by simp [shownInstances, h4]
    rw [h5]
    exact ⟨h2, hf, List.forall₂_same.2 (fun _ _ => List.Sublist.refl _)⟩
  | none =>
    obtain ⟨source, new, insts, _, _, h3, _, h5, h6, _⟩ := C57_round_exactly cfg ext level h h' c c' hr hf hok
    obtain ⟨r, h7, h8, h9, _⟩ := C36_existing_instances_kept c.log (shownActivities h c ++ new)
      (shownInstances c) ext cfg.filter cfg.minEvents cfg.shouldNarrow hf
    rw [h5] at h7
    obtain rfl := Except.ok.inj h7
    have h10 : shownInstances c' = insts := by simp [shownInstances, h6]
    rw [h10]
    exact ⟨h3, h8, h9⟩

theorem sublist_trans (a b c : List (List Instance)) (h1 : List.Forall₂ (fun x y => x.Sublist y) a b)
    (h2 : List.Forall₂ (fun x y => x.Sublist y) b c) : List.Forall₂ (fun x y => x.Sublist y) a c := by
  induction h1 generalizing c with
  | nil => exact h2
  | cons h _ ih =>
    cases h2 with
    | cons h' t' => exact .cons (h.trans h') (ih _ t')

theorem levelsFrom_adds (cfg : LevelsConfig) (initial : Nat) (exts : List (NEvent → String)) :
    ∀ (index : Nat) (h h' : ActHeap) (c c' : LevelCtx) (e : Option PyErr), RefOk h c →
      FitsLog c.log (shownInstances c) → severalLevelsFrom cfg initial index exts h c = (h', c', e) →
      c'.log = c.log ∧ FitsLog c.log (shownInstances c') ∧
        List.Forall₂ (fun old new => old.Sublist new) (shownInstances c) (shownInstances c') ∧
        ∃ news : List (List ActTree), shownActivities h' c' = shownActivities h c ++ news.flatten ∧
          news.length ≤ exts.length ∧ (e = none ↔ news.length = exts.length) ∧
          (∀ k f, news[k]? = some f → ∀ a ∈ actsL f,
            a.level = initial + (index + k) ∧ h.counter ≤ a.uid ∧ a.uid < h'.counter) ∧
          ((actsL news.flatten).map Activity.uid).Nodup ∧ h.counter ≤ h'.counter := by
  induction exts with
  | nil =>
    intro index h h' c c' e hr hf hok
    simp only [severalLevelsFrom, Prod.mk.injEq] at hok
    obtain ⟨rfl, rfl, rfl⟩ := hok
    exact ⟨rfl, hf, List.forall₂_same.2 (fun _ _ => List.Sublist.refl _), [], by simp, by simp, by simp, by simp,
      by simp [actsL], le_refl _⟩
  | cons ext exts ih =>
    intro index h h' c c' e hr hf hok
    unfold severalLevelsFrom at hok
    rcases ha : adjust cfg ext (initial + index) h c with ⟨h1, c1, e1⟩
    rw [ha] at hok
    obtain ⟨hl1, hf1, hs1⟩ := adjust_adds cfg ext _ h h1 c c1 hr hf e1 ha
    have hr1 := adjust_refOk cfg ext _ h h1 c c1 hr hf e1 ha
    cases e1 with
    | some e1 =>
      simp only [Prod.mk.injEq] at hok
      obtain ⟨rfl, rfl, rfl⟩ := hok
      obtain ⟨rfl, _, h4, _⟩ := C57_failed_round cfg ext _ h h1 c c1 e1 hr hf ha
      exact ⟨hl1, hf1, hs1, [], by simp [shownActivities, h4], by simp, by simp, by simp, by simp [actsL], le_refl _⟩
    | none =>
      simp only at hok
      rw [← hl1] at hf1
      obtain ⟨hl2, hf2, hs2, news, hn1, hn2, hn3, hn4, hn5, hn6⟩ := ih (index + 1) h1 h' c1 c' e hr1 hf1 hok
      obtain ⟨source, new, insts, _, hfo, _, hact, _, _, hcnt⟩ := C57_round_exactly cfg ext _ h h1 c c1 hr hf ha
      obtain ⟨hu1, hu2⟩ := forest_uids cfg ext _ _ source new hfo
      refine ⟨hl2.trans hl1, hl1 ▸ hf2, sublist_trans _ _ _ hs1 hs2, new :: news, ?_, ?_, ?_, ?_, ?_, ?_⟩
      · rw [hn1, hact]; simp
      · simp only [List.length_cons]; omega
      · simp only [List.length_cons]; rw [hn3]; omega
      · intro k f hk a hfa
        cases k with
        | zero =>
          simp only [List.getElem?_cons_zero, Option.some.injEq] at hk
          subst hk
          obtain ⟨q1, q2, q3⟩ := hu1 a hfa
          unfold createdNodes at q3
          exact ⟨q1, q2, by omega⟩
        | succ k =>
          simp only [List.getElem?_cons_succ] at hk
          obtain ⟨q1, q2, q3⟩ := hn4 k f hk a hfa
          exact ⟨by omega, by omega, q3⟩
      · rw [List.flatten_cons, actsL_append, List.map_append, List.nodup_append]
        refine ⟨hu2, hn5, ?_⟩
        intro x hx y hy hxy
        subst hxy
        obtain ⟨a, ha', rfl⟩ := List.mem_map.1 hx
        obtain ⟨b, hb', hbe⟩ := List.mem_map.1 hy
        have q1 := (hu1 a ha').2.2
        have hmem : ∀ (L : List (List ActTree)), b ∈ actsL L.flatten →
            ∃ (k : Nat) (f : List ActTree), L[k]? = some f ∧ b ∈ actsL f := by
          intro L
          induction L with
          | nil => intro hb; simp [actsL] at hb
          | cons f L ihL =>
            intro hb
            rw [List.flatten_cons, actsL_append, List.mem_append] at hb
            rcases hb with hb | hb
            · exact ⟨0, f, rfl, hb⟩
            · obtain ⟨k, g, hk, hg⟩ := ihL hb; exact ⟨k + 1, g, by simpa using hk, hg⟩
        obtain ⟨k, f, hk, hbf⟩ := hmem news hb'
        have q2 := (hn4 k f hk b hbf).2.1
        unfold createdNodes at q1
        omega
      · omega

/-- C57c: discovery at several levels only adds. Whether or not it raises: the log stays, every instance found before
stays in its place and the instances of every trace remain disjoint and ordered; the activities are the old ones
followed by one forest per level handled, the nodes of the forest number `k` have the level `initial + k`, and all
new nodes have identities that are new and pairwise different. All levels are handled exactly if nothing is raised. -/
theorem C57_levels_only_add (cfg : LevelsConfig) (initial : Nat) (exts : List (NEvent → String)) (h h' : ActHeap)
    (c c' : LevelCtx) (e : Option PyErr) (hr : RefOk h c) (hf : FitsLog c.log (shownInstances c))
    (hok : severalLevels cfg initial exts h c = (h', c', e)) :
    c'.log = c.log ∧ FitsLog c.log (shownInstances c') ∧
      List.Forall₂ (fun old new => old.Sublist new) (shownInstances c) (shownInstances c') ∧
      ∃ news : List (List ActTree), shownActivities h' c' = shownActivities h c ++ news.flatten ∧
        news.length ≤ exts.length ∧ (e = none ↔ news.length = exts.length) ∧
        (∀ k f, news[k]? = some f → ∀ a ∈ actsL f, a.level = initial + k ∧ h.counter ≤ a.uid ∧ a.uid < h'.counter) ∧
        ((actsL news.flatten).map Activity.uid).Nodup := by
  obtain ⟨h1, h2, h3, news, h4, h5, h6, h7, h8, _⟩ := levelsFrom_adds cfg initial exts 0 h h' c c' e hr hf hok
  exact ⟨h1, h2, h3, news, h4, h5, h6, by simpa using h7, h8⟩

theorem mapM_ok_of {α β : Type} (f : α → Except PyErr β) (l : List α) (h : ∀ a ∈ l, ∃ b, f a = .ok b) :
    ∃ r, l.mapM f = .ok r ∧ r.length = l.length := by
  induction l with
  | nil => exact ⟨[], rfl, rfl⟩
  | cons a l ih =>
    obtain ⟨b, hb⟩ := h a (by simp)
    obtain ⟨r, hr, hl⟩ := ih (fun x hx => h x (by simp [hx]))
    refine ⟨b :: r, ?_, by simp [hl]⟩
    rw [List.mapM_cons, hb, hr]; rfl

theorem discoverFromPatterns_ok (cfg : RoundsConfig) (hrep : ∀ w, ∃ ps, cfg.repeats w = .ok ps) (level uid : Nat)
    (c : DiscoveryCtx) : ∃ f, discoverFromPatterns cfg level uid c = .ok f := by
  unfold discoverFromPatterns
  obtain ⟨ps, hp, hl⟩ := mapM_ok_of cfg.repeats (hashTraces cfg.ext (patternLog cfg c.log)) (fun w _ => hrep w)
  have hl' : ps.length = (patternLog cfg c.log).traces.length := by
    rw [hl]; simp [hashTraces, Log.evs]
  obtain ⟨forest, hb⟩ := C28_succeeds (patternLog cfg c.log) (createRepeatSets (patternLog cfg c.log) ps cfg.ext)
    (fun r => ((activityNameFromLog (patternLog cfg c.log) r cfg.ext).toOption).getD "") level cfg.ext uid (by
      intro r hr
      have hm := (C27_result_is_selection (patternLog cfg c.log) ps cfg.ext (by omega)).subset hr
      unfold indexedSubArrays at hm
      rw [List.mem_flatMap] at hm
      obtain ⟨p, hp1, hp2⟩ := hm
      obtain ⟨s, _, rfl⟩ := List.mem_map.1 hp2
      have := List.mem_zipIdx' hp1
      simp only
      omega)
  simp only [bind, Except.bind, hp, hb]
  exact ⟨_, rfl⟩

/-- C57d: nothing is raised when the search for repeats never raises and the mode is one of the two known ones; with any
other mode the first level raises `ValueError`. -/
theorem C57_never_raises (cfg : LevelsConfig) (initial : Nat) (exts : List (NEvent → String)) (h : ActHeap)
    (c : LevelCtx) (hr : RefOk h c) (hf : FitsLog c.log (shownInstances c)) :
    ((∀ w, ∃ ps, cfg.repeats w = .ok ps) → cfg.mode ≠ .other → (severalLevels cfg initial exts h c).2.2 = none) ∧
      (cfg.mode = .other → exts ≠ [] → severalLevels cfg initial exts h c =
        (h, { c with instances := some (shownInstances c) }, some .valueError)) := by
  constructor
  · intro hrep hmode
    unfold severalLevels
    generalize 0 = index
    induction exts generalizing index h c with
    | nil => rfl
    | cons ext exts ih =>
      unfold severalLevelsFrom
      rcases ha : adjust cfg ext (initial + index) h c with ⟨h1, c1, e1⟩
      cases e1 with
      | none =>
        have hl := adjust_adds cfg ext _ h h1 c c1 hr hf none ha
        exact ih h1 c1 (adjust_refOk cfg ext _ h h1 c c1 hr hf none ha) (hl.1 ▸ hl.2.1) (index + 1)
      | some e =>
        exfalso
        rcases adjust_cases cfg ext (initial + index) h c hr hf with ⟨e', he, _, h3⟩ | ⟨_, _, _, _, _, _, _, _, _, _, he⟩
        · rcases h3 with h3 | ⟨source, _, h4⟩
          · exact hmode h3
          · obtain ⟨f, hf'⟩ := discoverFromPatterns_ok (cfg.rounds ext) hrep (initial + index) h.counter { log := source }
            rw [hf'] at h4; cases h4
        · rw [ha] at he; simp at he
  · intro hmode hne
    cases exts with
    | nil => exact absurd rfl hne
    | cons ext exts =>
      unfold severalLevels severalLevelsFrom
      rcases adjust_cases cfg ext (initial + 0) h c hr hf with ⟨e', he, h2, _⟩ | ⟨_, _, _, _, _, hno, _⟩
      · rw [he, h2 hmode]
      · exact absurd hmode hno

theorem adjust_lists (cfg : LevelsConfig) (ext : NEvent → String) (level : Nat) (h h' : ActHeap) (c c' : LevelCtx)
    (hr : RefOk h c) (hf : FitsLog c.log (shownInstances c)) (e : Option PyErr)
    (hok : adjust cfg ext level h c = (h', c', e)) :
    (∀ k, k < h.lists.length → c.activities ≠ some k → h'.lists[k]? = h.lists[k]?) ∧
      h.lists.length ≤ h'.lists.length ∧ (∀ k, c.activities = some k → c'.activities = some k) ∧
      (c.activities = none → ∀ k, c'.activities = some k → h.lists.length ≤ k) := by
  rcases adjust_cases cfg ext level h c hr hf with ⟨e', he, _⟩ | ⟨source, new, h1, r, insts, _, _, _, hm, _, he⟩
  · rw [hok] at he
    simp only [Prod.mk.injEq] at he
    obtain ⟨rfl, rfl, _⟩ := he
    refine ⟨fun _ _ _ => rfl, le_refl _, fun _ h => h, ?_⟩
    intro h1 k h2; simp only at h2; rw [h1] at h2; cases h2
  · rw [hok] at he
    simp only [Prod.mk.injEq] at he
    obtain ⟨rfl, rfl, _⟩ := he
    obtain ⟨_, _, _, h4, h5, h6, h7⟩ := merge_spec h c hr _ _ _ r hm
    refine ⟨h4, h5, fun k hk => by rw [h6 k hk], ?_⟩
    intro hn k hk
    simp only [Option.some.injEq] at hk
    have := h7 hn
    omega

theorem levels_lists (cfg : LevelsConfig) (initial : Nat) (exts : List (NEvent → String)) :
    ∀ (index : Nat) (h h' : ActHeap) (c c' : LevelCtx) (e : Option PyErr), RefOk h c →
      FitsLog c.log (shownInstances c) → severalLevelsFrom cfg initial index exts h c = (h', c', e) →
      (∀ k, k < h.lists.length → c.activities ≠ some k → h'.lists[k]? = h.lists[k]?) ∧
        h.lists.length ≤ h'.lists.length ∧ (∀ k, c.activities = some k → c'.activities = some k) := by
  induction exts with
  | nil =>
    intro index h h' c c' e _ _ hok
    simp only [severalLevelsFrom, Prod.mk.injEq] at hok
    obtain ⟨rfl, rfl, rfl⟩ := hok
    exact ⟨fun _ _ _ => rfl, le_refl _, fun _ h => h⟩
  | cons ext exts ih =>
    intro index h h' c c' e hr hf hok
    unfold severalLevelsFrom at hok
    rcases ha : adjust cfg ext (initial + index) h c with ⟨h1, c1, e1⟩
    rw [ha] at hok
    obtain ⟨a1, a2, a3, a4⟩ := adjust_lists cfg ext _ h h1 c c1 hr hf e1 ha
    cases e1 with
    | some e1 =>
      simp only [Prod.mk.injEq] at hok
      obtain ⟨rfl, rfl, rfl⟩ := hok
      exact ⟨a1, a2, a3⟩
    | none =>
      simp only at hok
      have hl := adjust_adds cfg ext _ h h1 c c1 hr hf none ha
      obtain ⟨b1, b2, b3⟩ := ih (index + 1) h1 h' c1 c' e (adjust_refOk cfg ext _ h h1 c c1 hr hf none ha)
        (hl.1 ▸ hl.2.1) hok
      refine ⟨?_, by omega, fun k hk => b3 k (a3 k hk)⟩
      intro k hk hne
      rw [b1 k (by omega) ?_, a1 k hk hne]
      intro hk1
      cases hc : c.activities with
      | none => have := a4 hc k hk1; omega
      | some q =>
        rw [a3 q hc] at hk1
        exact hne (hc.trans hk1)

/-- C58a: the discovery leaves the activities of every context alone whose list object is a different one; what is
missing is the same for a context that shares the list object, such as a copy (`C58_sharing_context_sees_new`). -/
theorem C58_separate_lists_kept_partial (cfg : LevelsConfig) (initial : Nat) (exts : List (NEvent → String))
    (h h' : ActHeap) (c c' : LevelCtx) (e : Option PyErr) (hr : RefOk h c) (hf : FitsLog c.log (shownInstances c))
    (hok : severalLevels cfg initial exts h c = (h', c', e)) (d : LevelCtx) (hd : RefOk h d)
    (hne : d.activities ≠ c.activities) : shownActivities h' d = shownActivities h d := by
  obtain ⟨h1, _⟩ := levels_lists cfg initial exts 0 h h' c c' e hr hf hok
  unfold shownActivities
  cases hda : d.activities with
  | none => rfl
  | some k =>
    simp only [Option.bind_some]
    rw [h1 k (hd k hda) (fun hc => hne (by rw [hda, hc]))]

/-- C58b: a context that shares the list object (a copy of the context, or the context it was copied from) afterwards
shows exactly the activities that the context of the discovery shows. -/
theorem C58_sharing_context_sees_new (cfg : LevelsConfig) (initial : Nat) (exts : List (NEvent → String))
    (h h' : ActHeap) (c c' : LevelCtx) (e : Option PyErr) (hr : RefOk h c) (hf : FitsLog c.log (shownInstances c))
    (hok : severalLevels cfg initial exts h c = (h', c', e)) (d : LevelCtx) (r : Nat) (hc : c.activities = some r)
    (hd : d.activities = some r) : shownActivities h' d = shownActivities h' c' := by
  obtain ⟨_, _, h3⟩ := levels_lists cfg initial exts 0 h h' c c' e hr hf hok
  unfold shownActivities
  rw [hd, h3 r hc]

/-- The instances that a round adds. -/
theorem added_homogeneous {E : Type} (log : Log E) (nodes : List ActTree) (existing : List (List Instance))
    (ext : E → String) (filter : Instance → Bool) (minEvents : Nat) (narrow : Bool) (h : FitsLog log existing)
    (r : List (List Instance)) (hr : addUnattachedActivities log nodes existing ext filter minEvents narrow = .ok r)
    (n : Nat) (t : Trace E) (ht : log.traces[n]? = some t) (old new : List Instance) (ho : existing[n]? = some old)
    (hn : r[n]? = some new) (j : Instance) (hj : j ∈ new) (hnew : j ∉ old) :
    (∀ e ∈ (t.events.drop j.startPos).take j.length, stringHash (ext e) ∈ j.node.events) ∧
      (if narrow then j.node ∈ subtreesL nodes else j.node ∈ nodes) := by
  have hok : addUnattachedActivities log nodes existing ext filter minEvents narrow =
      .ok (List.zipWith (fun is (t : Trace E) =>
        (visitsFrom t.events.length 0 is).flatMap (addedFor t.events nodes ext filter minEvents narrow))
        existing log.traces) := by
    unfold addUnattachedActivities
    exact zip_mapM_ok _ _ _ _ _ h (fun is t hw => addUnattachedToTrace_eq t.events nodes ext filter minEvents narrow is hw)
  rw [hr] at hok
  obtain rfl := Except.ok.inj hok
  have hw : WellPlaced t.events.length (old.map span) := by
    unfold FitsLog at h
    rw [List.forall₂_iff_get] at h
    obtain ⟨h1, h2⟩ := List.getElem?_eq_some_iff.1 ho
    obtain ⟨h3, h4⟩ := List.getElem?_eq_some_iff.1 ht
    have := h.2 n h1 h3
    simpa [h2, h4] using this
  rw [List.getElem?_zipWith, ho, ht] at hn
  simp only [Option.some.injEq] at hn
  subst hn
  have hok' := addUnattachedToTrace_eq t.events nodes ext filter minEvents narrow old hw
  obtain ⟨fill, hf1, hf2⟩ := C36_result_exactly t.events nodes ext filter minEvents narrow old hw _
    (decomposition t.events.length old hw)
  rw [hok'] at hf1
  rw [Except.ok.inj hf1] at hj
  obtain ⟨v, hv, hjv⟩ := List.mem_flatMap.1 hj
  cases v with
  | act i =>
    simp only [perVisit, List.mem_singleton] at hjv
    subst hjv
    have : j ∈ (visitsFrom t.events.length 0 old).filterMap Visit.inst? := (act_mem_of_inst _ _).2 hv
    rw [filterMap_visits] at this
    exact absurd this hnew
  | gap s e =>
    simp only [perVisit] at hjv
    obtain ⟨g1, g2⟩ := hf2 s e
    by_cases hlen : e - s < minEvents
    · rw [g1 hlen] at hjv; simp at hjv
    · obtain ⟨found, hx, hfl⟩ := g2 (by omega)
      rw [hfl] at hjv
      obtain ⟨i, hi, rfl⟩ := List.mem_map.1 hjv
      have hh := C29_instances_homogeneous _ nodes ext filter narrow _ hx 0
        { events := (t.events.drop s).take (e - s) } rfl found rfl i hi
      have hp := C29_instances_well_placed _ nodes ext filter narrow _ hx 0
        { events := (t.events.drop s).take (e - s) } rfl found rfl
      have hb := hp.1 (span i) (List.mem_map.2 ⟨i, hi, rfl⟩)
      simp only [span, List.length_take, List.length_drop] at hb
      refine ⟨?_, hh.2.1⟩
      intro x hx'
      apply hh.1
      simp only [relocated] at hx'
      rw [List.drop_take, List.drop_drop, List.take_take, Nat.min_eq_left (by omega)]
      exact hx'

/-- C59a: an instance that a round adds refers to an activity (or a node below one) whose event set contains all its
events, and when no older activity knows a class of the log under the current class extractor, that activity was found in
this round and has its level. What is missing is the second part without this hypothesis (`C59_older_level_chosen`). -/
theorem C59_added_instances_of_level_partial (cfg : LevelsConfig) (ext : NEvent → String) (level : Nat)
    (h h' : ActHeap) (c c' : LevelCtx) (hr : RefOk h c) (hf : FitsLog c.log (shownInstances c))
    (hok : adjust cfg ext level h c = (h', c', none)) (n : Nat) (t : Trace NEvent) (ht : c.log.traces[n]? = some t)
    (old new : List Instance) (ho : (shownInstances c)[n]? = some old) (hn : (shownInstances c')[n]? = some new)
    (j : Instance) (hj : j ∈ new) (hnew : j ∉ old) :
    (∀ e ∈ (t.events.drop j.startPos).take j.length, stringHash (ext e) ∈ j.node.events) ∧
      j.node.act ∈ actsL (shownActivities h' c') ∧
      ((∀ e ∈ t.events, ∀ a ∈ actsL (shownActivities h c), stringHash (ext e) ∉ a.events) → j.node.act.level = level) := by
  obtain ⟨source, acts, insts, _, hfo, _, hact, hadd, hins, _⟩ := C57_round_exactly cfg ext level h h' c c' hr hf hok
  have hsi : shownInstances c' = insts := by simp [shownInstances, hins]
  rw [hsi] at hn
  obtain ⟨h1, h2⟩ := added_homogeneous c.log _ _ ext cfg.filter cfg.minEvents cfg.shouldNarrow hf insts hadd n t ht old
    new ho hn j hj hnew
  have hsub : j.node ∈ subtreesL (shownActivities h c ++ acts) := by
    cases hnar : cfg.shouldNarrow with
    | true => rw [hnar] at h2; simpa using h2
    | false =>
      rw [hnar] at h2
      simp only [Bool.false_eq_true, if_false] at h2
      exact subtrees_subset_subtreesL _ _ h2 _ (by cases hjn : j.node; simp [subtrees])
  have hmem := act_mem_actsL _ _ hsub
  refine ⟨h1, by rw [hact]; exact hmem, ?_⟩
  intro hun
  rw [actsL_append, List.mem_append] at hmem
  rcases hmem with hmem | hmem
  · exfalso
    have hfit := (C57_levels_only_add cfg level [ext] h h' c c' none hr hf (by
      unfold severalLevels severalLevelsFrom
      rw [Nat.add_zero, hok]
      rfl)).2.1
    rw [hsi] at hfit
    unfold FitsLog at hfit
    rw [List.forall₂_iff_get] at hfit
    obtain ⟨q1, q2⟩ := List.getElem?_eq_some_iff.1 hn
    obtain ⟨q3, q4⟩ := List.getElem?_eq_some_iff.1 ht
    have hw := hfit.2 n q1 q3
    simp only [List.get_eq_getElem, q2, q4] at hw
    have hb := hw.1 (span j) (List.mem_map.2 ⟨j, hj, rfl⟩)
    simp only [span] at hb
    have hx : t.events[j.startPos]? = some (t.events[j.startPos]'(by omega)) := List.getElem?_eq_getElem _
    have hin : t.events[j.startPos]'(by omega) ∈ (t.events.drop j.startPos).take j.length := by
      apply List.mem_of_getElem? (i := 0)
      rw [List.getElem?_take_of_lt hb.1, List.getElem?_drop, Nat.add_zero, hx]
    exact hun _ (List.mem_of_getElem? hx) _ hmem (h1 _ hin)
  · exact ((forest_uids cfg ext level _ source acts hfo).1 _ hmem).1

/-! ### Concrete case: two levels, by name and by first letter -/

def exLevelEvent (s : String) : NEvent := .leaf [("concept:name", .str s)] none
def exLevelName : NEvent → String
  | e => match e.payload with
    | (_, .str s) :: _ => s
    | _ => ""
def exLevelFirst (e : NEvent) : String := String.ofList ((exLevelName e).toList.take 1)
def exLevelLog : Log NEvent :=
  Log.ofEvs [["a", "b", "a", "b", "c"].map exLevelEvent, ["z", "a1", "b"].map exLevelEvent]
/-- The first two events of a trace with at least four events are a repeat. -/
def exLevelCfg (mode : AdjustingMode) : LevelsConfig :=
  { repeats := fun w => .ok (if 4 ≤ w.length then [⟨0, 2⟩] else []), separator := fun _ => exLevelEvent "|", merged := false,
    minEvents := 1, mode := mode, filter := fun _ => true, shouldNarrow := true }
def exLevelCtx : LevelCtx := { log := exLevelLog }
def exLevelHeap : ActHeap := { lists := [[]], counter := 7 }
/-- What a result shows: level and identity of the activities; level, start and length of the instances. -/
def exLevelShow (r : ActHeap × LevelCtx × Option PyErr) :
    List (Nat × Nat) × List (List (Nat × Nat × Nat)) × Option PyErr :=
  ((actsL (shownActivities r.1 r.2.1)).map (fun a => (a.level, a.uid)),
    (shownInstances r.2.1).map (·.map (fun i => (i.node.act.level, i.startPos, i.length))), r.2.2)

example : exLevelShow (severalLevels (exLevelCfg .fromAllLog) 0 [exLevelName] exLevelHeap exLevelCtx) =
    ([(0, 7)], [[(0, 0, 4)], [(0, 2, 1)]], none) := by decide +kernel

theorem exLevel_refOk : RefOk exLevelHeap exLevelCtx := fun _ h => by cases h

example : ∃ h' c', severalLevels (exLevelCfg .fromAllLog) 0 [exLevelName, exLevelFirst] exLevelHeap exLevelCtx = (h', c', none) ∧
    c'.log = exLevelLog ∧ FitsLog exLevelLog (shownInstances c') := by
  have h1 := (C57_never_raises (exLevelCfg .fromAllLog) 0 [exLevelName, exLevelFirst] exLevelHeap exLevelCtx exLevel_refOk
    (fits_none _)).1 (fun w => ⟨_, rfl⟩) (by decide)
  rcases hq : severalLevels (exLevelCfg .fromAllLog) 0 [exLevelName, exLevelFirst] exLevelHeap exLevelCtx with ⟨h', c', e⟩
  rw [hq] at h1
  obtain rfl : e = none := h1
  have h2 := C57_levels_only_add _ 0 _ exLevelHeap h' exLevelCtx c' none exLevel_refOk (fits_none _) hq
  exact ⟨h', c', rfl, h2.1, h2.2.1⟩

example : severalLevels (exLevelCfg .other) 0 [exLevelName] exLevelHeap exLevelCtx =
    (exLevelHeap, { exLevelCtx with instances := some [[], []] }, some .valueError) :=
  (C57_never_raises (exLevelCfg .other) 0 [exLevelName] exLevelHeap exLevelCtx exLevel_refOk (fits_none _)).2 rfl (by simp)

/-- C59b: the claim that the instances added for a level refer to activities of that level is false. At the level 1 (first
letters) the activities 7 (level 0) and 8 (level 1) have the same classes, and the event `a1`, which is in no instance
after level 0, becomes an instance of the activity of level 0. -/
theorem C59_older_level_chosen :
    exLevelShow (severalLevels (exLevelCfg .fromAllLog) 0 [exLevelName, exLevelFirst] exLevelHeap exLevelCtx) =
      ([(0, 7), (1, 8)], [[(0, 0, 4)], [(0, 1, 1), (0, 2, 1)]], none) := by decide +kernel

/-- C58c: the claim that a copied context protects the activities of the original is false: both contexts refer to the
list object 0; after the discovery on the one the other shows the new activity, but no instance. -/
theorem C58_copy_changes_original :
    let c : LevelCtx := { exLevelCtx with activities := some 0 }
    let r := severalLevels (exLevelCfg .fromAllLog) 0 [exLevelName] exLevelHeap c
    shownActivities exLevelHeap c = [] ∧ exLevelShow (r.1, c, none) = ([(0, 7)], [[], []], none) ∧
      exLevelShow r = ([(0, 7)], [[(0, 0, 4)], [(0, 2, 1)]], none) :=
  ⟨rfl, by decide +kernel, by decide +kernel⟩

example : shownActivities (severalLevels (exLevelCfg .fromAllLog) 0 [exLevelName] exLevelHeap exLevelCtx).1
    { exLevelCtx with activities := some 0 } = [] := by
  rcases hq : severalLevels (exLevelCfg .fromAllLog) 0 [exLevelName] exLevelHeap exLevelCtx with ⟨h', c', e⟩
  exact (C58_separate_lists_kept_partial _ 0 _ exLevelHeap h' exLevelCtx c' e exLevel_refOk (fits_none _) hq
    { exLevelCtx with activities := some 0 } (fun r h => by cases h; decide) (by simp [exLevelCtx])).trans rfl

example : ∃ h' c' source new, adjust (exLevelCfg .fromUnattached) exLevelName 3 exLevelHeap exLevelCtx = (h', c', none) ∧
    SourceLog .fromUnattached exLevelLog [[], []] source ∧
    ForestOfRepeats (exLevelCfg .fromUnattached) exLevelName 3 7 source new ∧ shownActivities h' c' = [] ++ new := by
  have h0 : (adjust (exLevelCfg .fromUnattached) exLevelName 3 exLevelHeap exLevelCtx).2.2 = none := by decide +kernel
  rcases hq : adjust (exLevelCfg .fromUnattached) exLevelName 3 exLevelHeap exLevelCtx with ⟨h', c', e⟩
  rw [hq] at h0
  obtain rfl : e = none := h0
  obtain ⟨source, new, _, h1, h2, _, h3, _⟩ := C57_round_exactly _ exLevelName 3 exLevelHeap h' exLevelCtx c'
    exLevel_refOk (fits_none _) hq
  exact ⟨h', c', source, new, rfl, h1, h2, h3⟩

/-- A search for repeats that raises. -/
def exLevelFails : LevelsConfig := { exLevelCfg .fromAllLog with repeats := fun _ => .error .indexError }

example : ∃ c', adjust exLevelFails exLevelName 3 exLevelHeap exLevelCtx = (exLevelHeap, c', some .indexError) ∧
    c'.activities = none ∧ c'.instances = some [[], []] := by
  have h0 : (adjust exLevelFails exLevelName 3 exLevelHeap exLevelCtx).2.2 = some .indexError := by decide +kernel
  rcases hq : adjust exLevelFails exLevelName 3 exLevelHeap exLevelCtx with ⟨h', c', e⟩
  rw [hq] at h0
  obtain rfl : e = some .indexError := h0
  obtain ⟨rfl, _, h2, h3⟩ := C57_failed_round exLevelFails exLevelName 3 exLevelHeap h' exLevelCtx c' .indexError
    exLevel_refOk (fits_none _) hq
  exact ⟨c', rfl, h2, h3⟩

example : let c : LevelCtx := { exLevelCtx with activities := some 0 }
    ∃ h' c' e, severalLevels (exLevelCfg .fromAllLog) 0 [exLevelName] exLevelHeap c = (h', c', e) ∧
      shownActivities h' { log := exLevelLog, activities := some 0, instances := some [] } = shownActivities h' c' := by
  intro c
  rcases hq : severalLevels (exLevelCfg .fromAllLog) 0 [exLevelName] exLevelHeap c with ⟨h', c', e⟩
  exact ⟨h', c', e, rfl, C58_sharing_context_sees_new _ 0 _ exLevelHeap h' c c' e (fun r h => by cases h; decide)
    (fits_none _) hq _ 0 rfl rfl⟩

/-- The first round meets the hypotheses of C59a: the instance of the trace 1 is new and no older activity exists. -/
example : ∃ h' c' j new, adjust (exLevelCfg .fromAllLog) exLevelName 3 exLevelHeap exLevelCtx = (h', c', none) ∧
    (shownInstances c')[1]? = some new ∧ j ∈ new ∧ j.node.act.level = 3 := by
  have h0 : (adjust (exLevelCfg .fromAllLog) exLevelName 3 exLevelHeap exLevelCtx).2.2 = none ∧
      ((shownInstances (adjust (exLevelCfg .fromAllLog) exLevelName 3 exLevelHeap exLevelCtx).2.1)[1]?.map
        (fun l => l.length)) = some 1 := by constructor <;> decide +kernel
  rcases hq : adjust (exLevelCfg .fromAllLog) exLevelName 3 exLevelHeap exLevelCtx with ⟨h', c', e⟩
  rw [hq] at h0
  obtain ⟨h1, h2⟩ := h0
  obtain rfl : e = none := h1
  simp only [Option.map_eq_some_iff] at h2
  obtain ⟨new, h3, h4⟩ := h2
  obtain ⟨j, rfl⟩ := List.length_eq_one_iff.1 h4
  exact ⟨h', c', j, [j], rfl, h3, by simp, (C59_added_instances_of_level_partial _ exLevelName 3 exLevelHeap h' exLevelCtx
    c' exLevel_refOk (fits_none _) hq 1 _ rfl [] [j] rfl h3 j (by simp) (by simp)).2.2
    (fun _ _ a ha => by exact absurd ha (by exact List.not_mem_nil))⟩

end Ficus
