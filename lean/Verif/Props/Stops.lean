import Verif.Proofs.Stops

/-! Property C98: what the repeated discovery of activities leaves when it finds no more. -/

namespace Ficus
open Spec

/-- C98a: let the discovery with maximal repeats and without a filter end. If the hashes of the log that the last round
searched do not collide, then only single classes are repeated in that log: every word that occurs twice in one of its
traces (in the merged trace, if so configured) consists of one class. -/
theorem C98_last_searched {lib : TreeLib} (hl : LawfulTrees lib) (cfg : RoundsConfig) (ho : Observing cfg)
    (hr : cfg.repeats = fun t => .ok (maximalRepeatsOf lib t)) (hf : cfg.filter = fun _ => true) (level uid fuel : Nat)
    (c r : DiscoveryCtx) (h : untilNoMore cfg fuel level uid c = some (.ok r)) :
    ∃ prev, LastSearched cfg c.log prev r.log ∧
      (NoCollisions (wordsOf cfg.ext (searchedLog cfg.merged cfg.separator prev)) →
        (cfg.merged = true → FreshSeparators cfg.ext cfg.separator prev) →
        ∀ w, RepeatIn (wordsOf cfg.ext (searchedLog cfg.merged cfg.separator prev)) w → w.length = 1) := by
  obtain ⟨k, _, hrun⟩ := C46_result_is_run cfg ho level uid fuel c r h
  obtain ⟨prev, hp⟩ := lastSearched_of_run hrun _ .start
  refine ⟨prev, hp, fun hn hs => ?_⟩
  obtain ⟨_, level', uid', acts, insts, hfi, hz⟩ := hp
  refine singles_short hl hr hf hfi ?_ hn hs
  rcases hz with ⟨hz, _⟩ | ⟨hz, _⟩
  · intro is his i hi
    rw [hz is his] at hi
    cases hi
  · exact hz

/-- C98b: with names read from the events and activities named after their classes (no unique names), the same holds for the
result itself, whose classes are then those of the log that was searched last. -/
theorem C98_result {lib : TreeLib} (hl : LawfulTrees lib) (cfg : RoundsConfig) (ho : Observing cfg)
    (hr : cfg.repeats = fun t => .ok (maximalRepeatsOf lib t)) (hf : cfg.filter = fun _ => true)
    (hrn : ReadsNames cfg.ext) (hnames : cfg.hashesAsNames = false) (level uid fuel : Nat)
    (c r : DiscoveryCtx) (h : untilNoMore cfg fuel level uid c = some (.ok r)) :
    ∃ prev, LastSearched cfg c.log prev r.log ∧
      (NoCollisions (wordsOf cfg.ext (searchedLog cfg.merged cfg.separator prev)) →
        (cfg.merged = true → FreshSeparators cfg.ext cfg.separator prev) →
        wordsOf cfg.ext r.log = wordsOf cfg.ext prev ∧
        ∀ w, RepeatIn (wordsOf cfg.ext (searchedLog cfg.merged cfg.separator r.log)) w → w.length = 1) := by
  obtain ⟨prev, hp, hw⟩ := C98_last_searched hl cfg ho hr hf level uid fuel c r h
  refine ⟨prev, hp, fun hn hs => ?_⟩
  have hcl : wordsOf cfg.ext r.log = wordsOf cfg.ext prev := by
    obtain ⟨_, level', uid', acts, insts, hfi, hz⟩ := hp
    rcases hz with ⟨_, he⟩ | ⟨hz, hc⟩
    · rw [he]
    · exact singles_names hl hr hf hfi hz hn hs hrn hnames hc
  refine ⟨hcl, ?_⟩
  rw [wordsOf_searched, hcl, ← wordsOf_searched]
  exact hw hn hs

/-! ### Concrete cases -/

/-- Maximal repeats found with the naive suffix trees, in the traces, with the names as classes. -/
def exStopCfg (merged : Bool) : RoundsConfig :=
  { repeats := fun t => .ok (maximalRepeatsOf slowTrees t),
    separator := fun i => if i = 0 then exEvent "#0" else exEvent "#1",
    ext := exEventName, filter := fun _ => true, merged := merged, hashesAsNames := false, shouldNarrow := true,
    increaseLevel := true, before := .ok, after := .ok }

theorem exStopCfg_observing (merged : Bool) : Observing (exStopCfg merged) :=
  ⟨fun c c' h => by cases h; exact ⟨rfl, rfl⟩, fun c c' h => by cases h; rfl⟩

theorem exEventName_reads : ReadsNames exEventName := by
  intro p u a s h
  simp only [exEventName, NEvent.payload, h]

def exStopLog : Log NEvent := Log.ofEvs [["a", "b", "x", "a", "b"].map exEvent, ["a", "y"].map exEvent]

/-- The first round replaces both occurrences of `a b` and the `a`, all by events named `a::b`; what is left is a class that
occurs twice, but no word of two classes. -/
example : exResultNames (untilNoMore (exStopCfg false) 8 0 0 { log := exStopLog }) =
    [["a::b", "x", "a::b"], ["a::b", "y"]] := by decide +kernel

/-- The hypotheses of C98 hold for it: there is a result, and the searched log has no collisions. -/
example : ∃ r prev, untilNoMore (exStopCfg false) 8 0 0 { log := exStopLog } = some (.ok r) ∧
    LastSearched (exStopCfg false) exStopLog prev r.log ∧
    (NoCollisions (wordsOf exEventName prev) →
      ∀ w, RepeatIn (wordsOf exEventName r.log) w → w.length = 1) := by
  have hres : exIsResult (untilNoMore (exStopCfg false) 8 0 0 { log := exStopLog }) = true := by decide +kernel
  unfold exIsResult at hres
  split at hres
  · next r hr =>
    obtain ⟨prev, h1, h2⟩ := C98_result slowTrees_lawful (exStopCfg false) (exStopCfg_observing false) rfl rfl
      exEventName_reads rfl 0 0 8 _ r hr
    exact ⟨r, prev, hr, h1, fun hn => (h2 hn (fun h => by cases h)).2⟩
  · cases hres

example : NoCollisions [["a::b", "x", "a::b"], ["a::b", "y"]] := noCollisions_of (by decide +kernel) (by decide +kernel)

/-- C98c: classes that occur twice may remain, even next to nothing that is repeated: in `a x a` the discovery stops after
one round that replaced both events named `a`. -/
theorem C98_single_classes_remain :
    ∃ r, untilNoMore (exStopCfg false) 8 0 0 { log := Log.ofEvs [["a", "x", "a"].map exEvent] } = some (.ok r) ∧
      wordsOf exEventName r.log = [["a", "x", "a"]] ∧ RepeatIn (wordsOf exEventName r.log) ["a"] := by
  have h : exResultNames (untilNoMore (exStopCfg false) 8 0 0 { log := Log.ofEvs [["a", "x", "a"].map exEvent] }) =
    [["a", "x", "a"]] := by decide +kernel
  unfold exResultNames at h
  split at h
  · next r hr =>
    rw [← wordsOf_evs] at h
    refine ⟨r, hr, h, ?_⟩
    rw [h]
    exact ⟨["a", "x", "a"], by simp, by simp, 0, 2, by simp, ⟨[], ["x", "a"], rfl, rfl⟩, ⟨["a", "x"], [], rfl, rfl⟩⟩
  · cases h

end Ficus
