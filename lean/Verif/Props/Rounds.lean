import Verif.Spec.Rounds
import Verif.Props.Abstraction

/-! Property C46: the repeated discovery of activities. -/

namespace Ficus
open Spec

theorem fitsLog_of_extract (log : Log NEvent) (nodes : List ActTree) (ext : NEvent → String)
    (filter : Instance → Bool) (sn : Bool) (r : List (List Instance))
    (h : extractActivities log nodes ext filter sn = some r) : FitsLog log r := by
  obtain ⟨r', h1, h2⟩ := C29_terminates log nodes ext filter sn
  rw [h] at h1
  obtain rfl := Option.some.inj h1
  unfold FitsLog
  rw [List.forall₂_iff_get]
  refine ⟨h2, ?_⟩
  intro i hi hi'
  exact C29_instances_well_placed log nodes ext filter sn r h i _ (List.getElem?_eq_getElem hi') _
    (List.getElem?_eq_getElem hi)

theorem finds_fits {cfg : RoundsConfig} {level uid : Nat} {log : Log NEvent} {acts : List ActTree}
    {insts : List (List Instance)} (h : Finds cfg level uid log acts insts) : FitsLog log insts := by
  obtain ⟨_, _, _, _, _, h4⟩ := h
  exact fitsLog_of_extract _ _ _ _ _ _ h4

/-- Discovery in the model is `Finds`. -/
theorem discover_finds (cfg : RoundsConfig) (level uid : Nat) (c f : DiscoveryCtx)
    (h : discoverFromRepeats cfg level uid c = .ok f) :
    f.log = c.log ∧ Finds cfg level uid c.log f.activities f.instances := by
  unfold discoverFromRepeats discoverFromPatterns at h
  simp only [bind, Except.bind] at h
  cases hp : (hashTraces cfg.ext (patternLog cfg c.log)).mapM cfg.repeats with
  | error e => rw [hp] at h; cases h
  | ok ps =>
    rw [hp] at h
    simp only at h
    cases hb : buildRepeatSetTree (patternLog cfg c.log) (createRepeatSets (patternLog cfg c.log) ps cfg.ext)
      (fun r => ((activityNameFromLog (patternLog cfg c.log) r cfg.ext).toOption).getD "") level cfg.ext uid with
    | error e => rw [hb] at h; cases h
    | ok acts =>
      rw [hb] at h
      simp only [pure, Except.pure] at h
      obtain ⟨r, h1, _⟩ := C29_terminates c.log acts cfg.ext cfg.filter true
      have h2 := Except.ok.inj h
      simp only [discoverInTraces, h1] at h2
      subst h2
      exact ⟨rfl, _, ps, rfl, hp, hb, h1⟩

theorem finds_discover (cfg : RoundsConfig) (level uid : Nat) (c : DiscoveryCtx) (acts : List ActTree)
    (insts : List (List Instance)) (h : Finds cfg level uid c.log acts insts) :
    ∃ f, discoverFromRepeats cfg level uid c = .ok f ∧ f.log = c.log ∧ f.activities = acts ∧ f.instances = insts := by
  obtain ⟨s, ps, hs, hp, hb, hx⟩ := h
  have hs' : patternLog cfg c.log = s := hs.symm
  unfold discoverFromRepeats discoverFromPatterns
  simp only [bind, Except.bind, hs', hp, hb, pure, Except.pure, discoverInTraces, hx]
  exact ⟨_, rfl, rfl, rfl, rfl⟩

theorem noInstance_iff (insts : List (List Instance)) : (insts.map List.length).sum = 0 ↔ NoInstance insts := by
  unfold NoInstance
  induction insts with
  | nil => simp
  | cons a l ih =>
    simp only [List.map_cons, List.sum_cons, Nat.add_eq_zero_iff, ih, List.forall_mem_cons, List.length_eq_zero_iff]

/-- Sum of the lengths of the instances of one trace. -/
theorem newTrace_length (names : Bool) (is : List Instance) (t : List NEvent)
    (hw : WellPlaced t.length (is.map span)) :
    ((visitsFrom t.length 0 is).flatMap (visitImage names .insertAllEvents t)).length + (is.map (·.length)).sum =
      t.length + is.length := by
  have hd := decomposition t.length is hw
  have h1 : ∀ vs : List Visit, (vs.flatMap (visitImage names .insertAllEvents t)).length +
      ((vs.filterMap Visit.inst?).map (fun i => (slice t i.startPos i.length).length)).sum =
      (vs.flatMap (fun v => pick t v.positions)).length + (vs.filterMap Visit.inst?).length := by
    intro vs
    induction vs with
    | nil => rfl
    | cons v vs ih =>
      cases v with
      | gap s e =>
        have hp : pick t (Visit.gap s e).positions = slice t s (e - s) := pick_range' _ _ _
        have hq : visitImage names .insertAllEvents t (.gap s e) = slice t s (e - s) := rfl
        simp only [List.flatMap_cons, List.length_append, hp, hq, List.filterMap_cons, Visit.inst?]
        omega
      | act i =>
        have hp : pick t (Visit.act i).positions = slice t i.startPos i.length := pick_range' _ _ _
        have hq : visitImage names .insertAllEvents t (.act i) = [activityEvent names t i] := rfl
        simp only [List.flatMap_cons, List.length_append, hp, hq, List.filterMap_cons, Visit.inst?, List.map_cons,
          List.sum_cons, List.length_cons, List.length_nil]
        omega
  have h2 := h1 (visitsFrom t.length 0 is)
  rw [← pick_flatMap, hd.tiles, pick_range, hd.instances] at h2
  rw [← h2]
  congr 2
  apply List.map_congr_left
  intro i hi
  have := hw.1 (span i) (List.mem_map.2 ⟨i, hi, rfl⟩)
  simp only [span] at this
  simp only [slice, List.length_take, List.length_drop]
  omega

/-- C46a: a round removes, for every instance, all of its events but one: with `n` instances that together consist of
`m` events, the number of events becomes smaller by `m - n`. -/
theorem C46_round_size (log next : Log NEvent) (insts : List (List Instance)) (names : Bool) (h : FitsLog log insts)
    (hn : createNewLog log insts names .insertAllEvents = .ok next) :
    calculateEventsCount next + (insts.flatten.map (·.length)).sum =
      calculateEventsCount log + insts.flatten.length := by
  rw [createNewLog_all log insts names h] at hn
  obtain rfl := Except.ok.inj hn
  clear hn
  unfold calculateEventsCount Log.evs Log.ofEvs
  unfold FitsLog at h
  simp only [List.map_map]
  generalize log.traces = ts at h ⊢
  induction h with
  | nil => rfl
  | @cons is t iss ts hw _ ih =>
    have := newTrace_length names is t.events hw
    simp only [List.zipWith_cons_cons, List.map_cons, List.sum_cons, List.flatten_cons, List.map_append,
      List.sum_append, List.length_append, Function.comp_apply] at ih ⊢
    omega

theorem sum_lengths_ge (is : List Instance) (h : ∀ i ∈ is, 0 < i.length) : is.length ≤ (is.map (·.length)).sum := by
  induction is with
  | nil => simp
  | cons i is ih =>
    have := h i (by simp)
    have := ih (fun j hj => h j (by simp [hj]))
    simp only [List.map_cons, List.sum_cons, List.length_cons]; omega

theorem sum_lengths_eq_iff (is : List Instance) (h : ∀ i ∈ is, 0 < i.length) :
    (is.map (·.length)).sum = is.length ↔ ∀ i ∈ is, i.length = 1 := by
  induction is with
  | nil => simp
  | cons i is ih =>
    have h1 := h i (by simp)
    have h2 := sum_lengths_ge is (fun j hj => h j (by simp [hj]))
    have h3 := ih (fun j hj => h j (by simp [hj]))
    simp only [List.map_cons, List.sum_cons, List.length_cons, List.forall_mem_cons, ← h3]
    omega

theorem fits_positive {log : Log NEvent} {insts : List (List Instance)} (h : FitsLog log insts) :
    ∀ i ∈ insts.flatten, 0 < i.length := by
  unfold FitsLog at h
  generalize log.traces = ts at h
  induction h with
  | nil => simp
  | cons hw _ ih =>
    intro i hi
    rw [List.flatten_cons, List.mem_append] at hi
    rcases hi with hi | hi
    · exact (hw.1 (span i) (List.mem_map.2 ⟨i, hi, rfl⟩)).1
    · exact ih i hi

/-- C46b: a round keeps the number of events exactly if all instances it found are single events, and makes it smaller
otherwise. -/
theorem C46_round_shrinks (log next : Log NEvent) (insts : List (List Instance)) (names : Bool) (h : FitsLog log insts)
    (hn : createNewLog log insts names .insertAllEvents = .ok next) :
    (calculateEventsCount next = calculateEventsCount log ↔ OnlySingles insts) ∧
      (¬ OnlySingles insts → calculateEventsCount next < calculateEventsCount log) := by
  have h1 := C46_round_size log next insts names h hn
  have h2 := sum_lengths_ge _ (fits_positive h)
  have h3 := sum_lengths_eq_iff _ (fits_positive h)
  have h4 : OnlySingles insts ↔ ∀ i ∈ insts.flatten, i.length = 1 := by
    unfold OnlySingles
    simp only [List.mem_flatten]
    exact ⟨fun h i ⟨is, h1, h2⟩ => h is h1 i h2, fun h is h1 i h2 => h i ⟨is, h1, h2⟩⟩
  rw [h4, ← h3]
  constructor
  · omega
  · intro h5; omega

theorem createLog_ok {cfg : RoundsConfig} {b : DiscoveryCtx} (h : FitsLog b.log b.instances) :
    ∃ next, createNewLog b.log b.instances cfg.hashesAsNames .insertAllEvents = .ok next ∧
      createLogFromActivities cfg.hashesAsNames b = .ok { b with log := next } := by
  refine ⟨_, createNewLog_all _ _ _ h, ?_⟩
  unfold createLogFromActivities
  rw [createNewLog_all _ _ _ h]
  rfl

theorem untilNoMoreLoop_terminates (cfg : RoundsConfig) (ho : Observing cfg) :
    ∀ (fuel level uid : Nat) (c : DiscoveryCtx), calculateEventsCount c.log + 1 ≤ fuel →
      ∃ r, untilNoMoreLoop cfg fuel level uid (calculateEventsCount c.log) c = some r := by
  intro fuel
  induction fuel with
  | zero => intro _ _ _ h; omega
  | succ fuel ih =>
    intro level uid c hf
    unfold untilNoMoreLoop
    simp only
    split
    · exact ⟨_, rfl⟩
    · next found hfound =>
      obtain ⟨hl, hfi⟩ := discover_finds cfg level uid (clearActivities c) found hfound
      split
      · exact ⟨_, rfl⟩
      · split
        · exact ⟨_, rfl⟩
        · next b hb =>
          obtain ⟨hbl, hbi⟩ := ho.1 _ _ hb
          split
          · exact ⟨_, rfl⟩
          · next n hn =>
            have hfit : FitsLog b.log b.instances := by
              rw [hbl, hbi, hl]; exact finds_fits hfi
            obtain ⟨next, h1, h2⟩ := createLog_ok (cfg := cfg) hfit
            rw [h2] at hn
            obtain rfl := Except.ok.inj hn
            split
            · exact ⟨_, rfl⟩
            · next a ha =>
              have hal : a.log = next := ho.2 _ _ ha
              have hs := C46_round_shrinks _ _ _ _ hfit h1
              have hcl : b.log = c.log := by rw [hbl, hl]; rfl
              rw [hal]
              split
              · exact ⟨_, rfl⟩
              · next hne =>
                rw [hcl] at hs
                have hlt := hs.2 (fun h => hne (hs.1.2 h))
                rw [← hal] at hlt ⊢
                exact ih _ _ a (by omega)

/-- C46c: for every oracle of repeats, every class extractor, filter and configuration whose extra pipelines leave the
log alone, the loop ends, after at most one round more than the log has events. -/
theorem C46_terminates (cfg : RoundsConfig) (ho : Observing cfg) (level uid : Nat) (c : DiscoveryCtx) (fuel : Nat)
    (hf : calculateEventsCount c.log + 1 ≤ fuel) : ∃ r, untilNoMore cfg fuel level uid c = some r :=
  untilNoMoreLoop_terminates cfg ho fuel level uid c hf

theorem untilNoMoreLoop_run (cfg : RoundsConfig) (ho : Observing cfg) :
    ∀ (fuel level uid : Nat) (c r : DiscoveryCtx),
      untilNoMoreLoop cfg fuel level uid (calculateEventsCount c.log) c = some (.ok r) →
      ∃ k ≤ fuel, RoundRun cfg level uid c.log k r.log := by
  intro fuel
  induction fuel with
  | zero => intro _ _ _ _ h; simp [untilNoMoreLoop] at h
  | succ fuel ih =>
    intro level uid c r h
    unfold untilNoMoreLoop at h
    simp only at h
    split at h
    · cases h
    · next found hfound =>
      obtain ⟨hl, hfi⟩ := discover_finds cfg level uid (clearActivities c) found hfound
      have hcl0 : (clearActivities c).log = c.log := rfl
      rw [hcl0] at hfi hl
      split at h
      · next hz =>
        obtain rfl := Except.ok.inj (Option.some.inj h)
        exact ⟨1, by omega, .nothing hfi ((noInstance_iff _).1 hz)⟩
      · next hz =>
        split at h
        · cases h
        · next b hb =>
          obtain ⟨hbl, hbi⟩ := ho.1 _ _ hb
          split at h
          · cases h
          · next n hn =>
            have hfit : FitsLog b.log b.instances := by
              rw [hbl, hbi, hl]; exact finds_fits hfi
            obtain ⟨next, h1, h2⟩ := createLog_ok (cfg := cfg) hfit
            rw [h2] at hn
            obtain rfl := Except.ok.inj hn
            split at h
            · cases h
            · next a ha =>
              have hal : a.log = next := ho.2 _ _ ha
              have hs := C46_round_shrinks _ _ _ _ hfit h1
              have hcl : b.log = c.log := by rw [hbl, hl]
              rw [hcl, hbi] at hs h1
              split at h
              · next heq =>
                obtain rfl := Except.ok.inj (Option.some.inj h)
                rw [hal] at heq ⊢
                exact ⟨1, by omega, .singles hfi (fun hn => hz ((noInstance_iff _).2 hn)) (hs.1.1 heq) h1⟩
              · next hne =>
                rw [hal] at hne
                obtain ⟨k, hk, hr⟩ := ih _ _ a r h
                rw [hal] at hr
                exact ⟨k + 1, by omega, .more hfi (fun h => hne (hs.1.2 h)) h1 hr⟩

/-- C46d: a result comes from a run of rounds: every round before the last one found an instance of more than one event
and replaced all instances it found; the last one found nothing or only single events. -/
theorem C46_result_is_run (cfg : RoundsConfig) (ho : Observing cfg) (level uid fuel : Nat) (c r : DiscoveryCtx)
    (h : untilNoMore cfg fuel level uid c = some (.ok r)) : ∃ k ≤ fuel, RoundRun cfg level uid c.log k r.log :=
  untilNoMoreLoop_run cfg ho fuel level uid c r h

/-- C46e: conversely, a run of `k` rounds is what the loop does, when the extra pipelines do not raise. -/
theorem C46_run_is_result (cfg : RoundsConfig) (ho : Observing cfg) (hr : NeverRaising cfg) (level uid k : Nat)
    (log final : Log NEvent) (h : RoundRun cfg level uid log k final) (fuel : Nat) (hf : k ≤ fuel) (c : DiscoveryCtx)
    (hc : c.log = log) : ∃ r, untilNoMore cfg fuel level uid c = some (.ok r) ∧ r.log = final := by
  unfold untilNoMore
  induction h generalizing fuel c with
  | @nothing level uid log acts insts hfi hz =>
    subst hc
    obtain ⟨fuel, rfl⟩ : ∃ m, fuel = m + 1 := ⟨fuel - 1, by omega⟩
    obtain ⟨f, h1, h2, h3, h4⟩ := finds_discover cfg level uid (clearActivities c) acts insts hfi
    unfold untilNoMoreLoop
    simp only [h1]
    rw [if_pos (by rw [h4]; exact (noInstance_iff _).2 hz)]
    exact ⟨_, rfl, rfl⟩
  | @singles level uid log acts insts next hfi hz hs hn =>
    subst hc
    obtain ⟨fuel, rfl⟩ : ∃ m, fuel = m + 1 := ⟨fuel - 1, by omega⟩
    obtain ⟨f, h1, h2, h3, h4⟩ := finds_discover cfg level uid (clearActivities c) acts insts hfi
    obtain ⟨b, hb⟩ := hr.1 f
    obtain ⟨hbl, hbi⟩ := ho.1 _ _ hb
    have hcl : b.log = c.log := by rw [hbl, h2]; rfl
    have hfit : FitsLog b.log b.instances := by rw [hcl, hbi, h4]; exact finds_fits hfi
    obtain ⟨next', h5, h6⟩ := createLog_ok (cfg := cfg) hfit
    rw [hcl, hbi, h4, hn] at h5
    obtain rfl := Except.ok.inj h5
    obtain ⟨a, ha⟩ := hr.2 { b with log := next }
    have hal : a.log = next := ho.2 _ _ ha
    unfold untilNoMoreLoop
    simp only [h1]
    rw [if_neg (by rw [h4]; exact fun h => hz ((noInstance_iff _).1 h))]
    simp only [hb, h6, ha, hal]
    rw [if_pos ((C46_round_shrinks _ _ _ _ (finds_fits hfi) hn).1.2 hs)]
    exact ⟨_, rfl, hal⟩
  | @more level uid log acts insts next k final hfi hs hn _ ih =>
    subst hc
    obtain ⟨fuel, rfl⟩ : ∃ m, fuel = m + 1 := ⟨fuel - 1, by omega⟩
    obtain ⟨f, h1, h2, h3, h4⟩ := finds_discover cfg level uid (clearActivities c) acts insts hfi
    obtain ⟨b, hb⟩ := hr.1 f
    obtain ⟨hbl, hbi⟩ := ho.1 _ _ hb
    have hcl : b.log = c.log := by rw [hbl, h2]; rfl
    have hfit : FitsLog b.log b.instances := by rw [hcl, hbi, h4]; exact finds_fits hfi
    obtain ⟨next', h5, h6⟩ := createLog_ok (cfg := cfg) hfit
    rw [hcl, hbi, h4, hn] at h5
    obtain rfl := Except.ok.inj h5
    obtain ⟨a, ha⟩ := hr.2 { b with log := next }
    have hal : a.log = next := ho.2 _ _ ha
    have hz : ¬ NoInstance insts := by
      intro hz
      apply hs
      intro is his i hi
      rw [hz is his] at hi
      simp at hi
    unfold untilNoMoreLoop
    simp only [h1]
    rw [if_neg (by rw [h4]; exact fun h => hz ((noInstance_iff _).1 h))]
    simp only [hb, h6, ha, hal]
    rw [if_neg (fun h => hs ((C46_round_shrinks _ _ _ _ (finds_fits hfi) hn).1.1 h))]
    obtain ⟨r, hr1, hr2⟩ := ih fuel (by omega) a hal
    rw [hal] at hr1
    exact ⟨r, by rw [h3]; exact hr1, hr2⟩

theorem rounds_of_run (cfg : RoundsConfig) {level uid k : Nat} {log final : Log NEvent}
    (h : RoundRun cfg level uid log k final) : ∀ start, Rounds start log → Rounds start final := by
  induction h with
  | nothing _ _ => intro _ h; exact h
  | singles hf _ _ hn => intro _ h; exact .round _ _ h (finds_fits hf) hn
  | more hf _ hn _ ih => intro s h; exact ih s (.round _ _ h (finds_fits hf) hn)

/-- C46f: after all rounds the log still consists of the same underlying events: for every trace, replacing activity
events by their underlying events gives the same events in the same order as before, and their number is the same. -/
theorem C46_underlying_events_kept (cfg : RoundsConfig) (ho : Observing cfg) (level uid fuel : Nat)
    (c r : DiscoveryCtx) (h : untilNoMore cfg fuel level uid c = some (.ok r)) :
    r.log.evs.map substituteOriginalEvents = c.log.evs.map substituteOriginalEvents ∧
      calculateUnderlyingCount r.log = calculateUnderlyingCount c.log ∧
      calculateEventsCount r.log ≤ calculateEventsCount c.log := by
  obtain ⟨k, hk, hr⟩ := C46_result_is_run cfg ho level uid fuel c r h
  have hrounds := rounds_of_run cfg hr _ .start
  refine ⟨C33_any_number_of_rounds _ _ hrounds, C33_count_preserved _ _ hrounds, ?_⟩
  clear hrounds h hk
  generalize c.log = start at hr
  generalize r.log = final at hr
  induction hr with
  | nothing _ _ => exact le_refl _
  | singles hf _ hs hn => exact le_of_eq ((C46_round_shrinks _ _ _ _ (finds_fits hf) hn).1.2 hs)
  | more hf hs hn _ ih => exact le_trans ih (le_of_lt ((C46_round_shrinks _ _ _ _ (finds_fits hf) hn).2 hs))

/-- C46g: the option to switch narrowing off has no effect. -/
theorem C46_narrowing_option_ignored (cfg : RoundsConfig) (narrow : Bool) (fuel level uid : Nat) (c : DiscoveryCtx) :
    untilNoMore { cfg with shouldNarrow := narrow } fuel level uid c = untilNoMore cfg fuel level uid c := by
  unfold untilNoMore
  generalize calculateEventsCount c.log = size
  induction fuel generalizing level uid size c with
  | zero => rfl
  | succ fuel ih =>
    unfold untilNoMoreLoop
    simp only [ih]
    rfl

theorem untilNoMoreLoop_left (cfg : RoundsConfig) :
    ∀ (fuel level uid size : Nat) (c r : DiscoveryCtx), untilNoMoreLoop cfg fuel level uid size c = some (.ok r) →
      LeftOver cfg r := by
  intro fuel
  induction fuel with
  | zero => intro _ _ _ _ _ h; simp [untilNoMoreLoop] at h
  | succ fuel ih =>
    intro level uid size c r h
    unfold untilNoMoreLoop at h
    simp only at h
    split at h
    · cases h
    · next found hfound =>
      obtain ⟨hl, hfi⟩ := discover_finds cfg level uid (clearActivities c) found hfound
      split at h
      · next hz =>
        obtain rfl := Except.ok.inj (Option.some.inj h)
        exact .inl ⟨rfl, rfl, rfl, rfl⟩
      · next hz =>
        split at h
        · cases h
        · next b hb =>
          split at h
          · cases h
          · next n hn =>
            split at h
            · cases h
            · next a ha =>
              split at h
              · obtain rfl := Except.ok.inj (Option.some.inj h)
                refine .inr ⟨level, uid, found, b, n.log, ?_, fun hn => hz ((noInstance_iff _).2 hn), hb, ?_⟩
                · rw [hl]; exact hfi
                · rw [← ha]
                  unfold createLogFromActivities at hn
                  simp only [bind, Except.bind] at hn
                  cases hx : createNewLog b.log b.instances cfg.hashesAsNames .insertAllEvents with
                  | error e => rw [hx] at hn; cases hn
                  | ok x => rw [hx] at hn; cases hn; rfl
              · exact ih _ _ _ a r h

/-- C46h: what the context of the result holds besides the log. Activities, repeat sets, instances and patterns are
cleared when the last round found nothing; otherwise they are those of the last round only, as the extra pipelines
leave them. -/
theorem C46_entries_of_last_round (cfg : RoundsConfig) (fuel level uid : Nat) (c r : DiscoveryCtx)
    (h : untilNoMore cfg fuel level uid c = some (.ok r)) : LeftOver cfg r :=
  untilNoMoreLoop_left cfg fuel level uid _ c r h

/-! ### Concrete cases -/

/-- Finds the two first events of every trace of at least four events as a repeat. -/
def exTwoFirst (t : List Int) : Except PyErr (List SubArray) := .ok (if 4 ≤ t.length then [⟨0, 2⟩] else [])

/-- Finds the first event of every trace as a repeat. -/
def exFirstEvent (_ : List Int) : Except PyErr (List SubArray) := .ok [⟨0, 1⟩]

def exEventName (e : NEvent) : String :=
  match e.payload.get? "concept:name" with
  | some (.str s) => s
  | _ => ""

def exRoundsCfg (repeats : List Int → Except PyErr (List SubArray)) : RoundsConfig :=
  { repeats := repeats, separator := fun _ => exEvent "|", ext := exEventName, filter := fun _ => true, merged := false,
    hashesAsNames := true, shouldNarrow := true, increaseLevel := true, before := .ok, after := .ok }

theorem exRoundsCfg_observing (repeats : List Int → Except PyErr (List SubArray)) :
    Observing (exRoundsCfg repeats) ∧ NeverRaising (exRoundsCfg repeats) :=
  ⟨⟨fun c c' h => by cases h; exact ⟨rfl, rfl⟩, fun c c' h => by cases h; rfl⟩, fun c => ⟨c, rfl⟩, fun c => ⟨c, rfl⟩⟩

def exRoundsLog : Log NEvent := Log.ofEvs [["a", "b", "a", "b", "c"].map exEvent]

/-- The names of the events of the log of the result. -/
def exResultNames (r : Option (Except PyErr DiscoveryCtx)) : List (List String) :=
  match r with
  | some (.ok c) => c.log.evs.map (·.map exEventName)
  | _ => []

/-- Whether there is a result. -/
def exIsResult (r : Option (Except PyErr DiscoveryCtx)) : Bool :=
  match r with
  | some (.ok _) => true
  | _ => false

/-- Two rounds: the first one replaces `a b a b`, the second one finds nothing. -/
example : exResultNames (untilNoMore (exRoundsCfg exTwoFirst) 6 0 0 { log := exRoundsLog }) = [["Activity_0", "c"]] ∧
    untilNoMore (exRoundsCfg exTwoFirst) 1 0 0 { log := exRoundsLog } = none := by
  constructor
  · decide +kernel
  · rfl

/-- Checks two rounds: both find instances, those of the first round are single events. -/
def exTwoRounds (cfg : RoundsConfig) (log : Log NEvent) : Bool :=
  match discoverFromRepeats cfg 0 0 { log := log } with
  | .error _ => false
  | .ok f =>
    decide ((f.instances.map List.length).sum ≠ 0) && f.instances.all (fun is => is.all (fun i => i.length == 1)) &&
    match createNewLog log f.instances cfg.hashesAsNames .insertAllEvents with
    | .error _ => false
    | .ok next =>
      match discoverFromRepeats cfg 1 1 { log := next } with
      | .error _ => false
      | .ok f' => decide ((f'.instances.map List.length).sum ≠ 0)

/-- C46h: the loop may stop although the last round found instances, and a further round would find some again: here
every round finds the first event of the trace. -/
theorem C46_stops_although_instances_found :
    ∃ (cfg : RoundsConfig) (log next : Log NEvent) (acts acts' : List ActTree) (insts insts' : List (List Instance)),
      Observing cfg ∧ Finds cfg 0 0 log acts insts ∧ ¬ NoInstance insts ∧ RoundRun cfg 0 0 log 1 next ∧
        Finds cfg 1 1 next acts' insts' ∧ ¬ NoInstance insts' := by
  have h : exTwoRounds (exRoundsCfg exFirstEvent) (Log.ofEvs [["a", "x", "a", "y"].map exEvent]) = true := by
    decide +kernel
  unfold exTwoRounds at h
  split at h
  · cases h
  · next f hf =>
    simp only [Bool.and_eq_true, decide_eq_true_eq, List.all_eq_true, beq_iff_eq] at h
    obtain ⟨⟨h1, h2⟩, h3⟩ := h
    split at h3
    · cases h3
    · next n hn =>
      split at h3
      · cases h3
      · next f' hf' =>
        simp only [decide_eq_true_eq] at h3
        have hz : ¬ NoInstance f.instances := fun h => h1 ((noInstance_iff _).2 h)
        have hF := (discover_finds _ _ _ _ _ hf).2
        exact ⟨exRoundsCfg exFirstEvent, _, n, _, _, _, _, (exRoundsCfg_observing _).1, hF, hz, .singles hF hz h2 hn,
          (discover_finds _ _ _ _ _ hf').2, fun h => h3 ((noInstance_iff _).2 h)⟩

example : ∃ r, untilNoMore (exRoundsCfg exTwoFirst) 6 0 0 { log := exRoundsLog } = some r :=
  C46_terminates _ (exRoundsCfg_observing _).1 0 0 _ 6 (by decide)

end Ficus
