import Verif.Props.Xes
import Verif.Proofs.XesExact
import Verif.Proofs.Nets

/-! Property C05, exactly: which logs come back from XES with the same content. -/

namespace Ficus
open Spec

/-- C05j, exactly: a log is written and read back with the same content if and only if it is outside of the excluded
situations. The only assumption is that its dictionaries are dictionaries. -/
theorem C05_round_trip_iff (P : Parsers) (log : Log Payload) (hp : ProperLog log) :
    (∃ r, xesRoundTrip P log = .ok r ∧ SameLog log r) ↔ SafeLog P log := by
  constructor
  · rintro ⟨r, hr, hs⟩
    unfold xesRoundTrip at hr
    cases hw : writeXes log with
    | error x => rw [hw] at hr; cases hr
    | ok el => rw [hw] at hr; exact xes_round_trip_inv P log r el hp hw hr hs
  · exact C05_round_trip_partial P log

/-- C05k, logs that were read: a log that was itself read from XES can be written and read again with the same content
if and only if it has no properties, none of its values is `False`, and numbers and dates are read as they are printed.
All other conditions hold for it. -/
theorem C05_read_log_iff (P : Parsers) (hP : TypedParsers P) (el : XElem) (log : Log Payload) (h : readXes P el = .ok log) :
    ProperLog log ∧
    ((∃ r, xesRoundTrip P log = .ok r ∧ SameLog log r) ↔
      log.properties = [] ∧ ∀ t ∈ log.traces, SafeValues P t.attributes ∧ ∀ e ∈ t.events, SafeValues P e) := by
  obtain ⟨hi, ht⟩ := readXes_inv hP h
  have hproper : ProperLog log := by
    refine ⟨hi.1, hi.2, ?_, hi.4, hi.6, hi.7, fun s d hsd => (hi.8 s d hsd).1,
      fun t hmem => ⟨(ht t hmem).1.wf, fun e he => ((ht t hmem).2 e he).wf⟩⟩
    intro n c hnc
    obtain ⟨p, u, rfl⟩ := hi.3 n c hnc
    simp [Dict.WF, Dict.keys]
  refine ⟨hproper, ?_⟩
  rw [C05_round_trip_iff P log hproper]
  constructor
  · intro hs
    exact ⟨hs.noProperties, fun t hmem => ⟨((ht t hmem).1.safe_iff).1 (hs.traces t hmem).1,
      fun e he => (((ht t hmem).2 e he).safe_iff).1 ((hs.traces t hmem).2 e he)⟩⟩
  · rintro ⟨h1, h2⟩
    refine ⟨hi.1, hi.2, ?_, hi.4, hi.5, h1, hi.7, hi.8, fun t hmem => ⟨((ht t hmem).1.safe_iff).2 (h2 t hmem).1,
      fun e he => (((ht t hmem).2 e he).safe_iff).2 ((h2 t hmem).2 e he)⟩⟩
    intro n c hnc
    obtain ⟨p, u, rfl⟩ := hi.3 n c hnc
    exact ⟨by simp [Dict.WF, Dict.keys], p, u, fun _ => rfl⟩

/-- C05l, from the second time on nothing changes: whatever a round trip made of a log, a further round trip gives it back
with the same content. -/
theorem C05_second_round_trip (P : Parsers) (hP : StableParsers P) (log r : Log Payload) (hp : ProperLog log)
    (h : xesRoundTrip P log = .ok r) : ∃ r', xesRoundTrip P r = .ok r' ∧ SameLog r r' := by
  unfold xesRoundTrip at h
  cases hw : writeXes log with
  | error x => rw [hw] at h; cases h
  | ok el =>
    rw [hw] at h
    replace h : readXes P el = .ok r := h
    have hi := (readXes_inv hP.typed h).1
    refine (C05_read_log_iff P hP.typed el r h).2.2 ?_
    obtain ⟨-, E, tels, ts, -, htw, hts, rfl⟩ := round_trip_result P log r el hp hw h
    refine ⟨rfl, ?_⟩
    have hg := fun s g hg => hi.globalScopes s g (Dict.mem_of_get? hg)
    simp only at hg ⊢
    clear h hw hi
    generalize log.traces = l at htw
    induction htw generalizing ts with
    | nil => cases hts; simp
    | cons hw _ ih =>
      cases hts with
      | cons hr hrs =>
        intro x hx
        rcases List.mem_cons.1 hx with rfl | hx
        · exact readTrace_stable hP hg hw hr
        · exact ih _ hrs x hx

/-! ### Concrete cases -/

open Classical in
/-- Parsers that read back whatever is printed. -/
noncomputable def exactParsers : Parsers where
  int s := if h : ∃ i : Int, toString i = s then .ok h.choose else .error .valueError
  float s := .ok (.float s)
  date s := .ok (.date s)

theorem exactParsers_stable : StableParsers exactParsers where
  typed := ⟨fun s v h => ⟨s, by cases h; rfl⟩, fun s v h => ⟨s, by cases h; rfl⟩⟩
  int i := by
    have h : ∃ j : Int, toString j = toString i := ⟨i, rfl⟩
    unfold exactParsers
    simp only
    rw [dif_pos h, intText_injective h.choose_spec]
  float s v h := by cases h; rfl
  date s v h := by cases h; rfl

/-- A log in which almost everything changes in the first round trip and nothing in the second one. -/
def lossyXes : Log Payload :=
  { attributes := [("xes.version", "1.0")]
    classifiers := [("c", []), ("d", ["x y"])]
    globals := [("event", [("a", .int 1), ("b", .str "none")])]
    traces := [{ attributes := [("f", .bool false)], events := [[("a", .bool true), ("x", .other "[]"), ("y", .float "0.5")], []] }] }

theorem lossyXes_proper : ProperLog lossyXes where
  attributes := by decide
  extensions := by decide
  extensionConfs := by intro n c h; cases h
  classifiers := by decide
  properties := by decide
  globals := by decide
  globalScopes := by
    intro s d h
    simp only [lossyXes, List.mem_singleton] at h
    cases h; decide
  traces := by
    intro t ht
    simp only [lossyXes, List.mem_singleton] at ht
    subst ht
    refine ⟨by decide, fun e he => ?_⟩
    simp only [List.mem_cons, List.not_mem_nil, or_false] at he
    rcases he with rfl | rfl <;> decide

/-- The first round trip of this log is no identity, and the second one is. -/
example : (¬ ∃ r, xesRoundTrip exactParsers lossyXes = .ok r ∧ SameLog lossyXes r) ∧
    ∃ r r', xesRoundTrip exactParsers lossyXes = .ok r ∧ xesRoundTrip exactParsers r = .ok r' ∧ SameLog r r' := by
  constructor
  · rw [C05_round_trip_iff _ _ lossyXes_proper]
    intro h
    have := (h.classifierKeys "c" [] (by simp [lossyXes])).1
    exact this rfl
  · obtain ⟨r', h1, h2⟩ := C05_second_round_trip _ exactParsers_stable lossyXes _ lossyXes_proper rfl
    exact ⟨_, r', rfl, h1, h2⟩

/-- A log with a name, as most files have one, cannot be read again after it was saved. -/
example : ∃ log, readXes exactParsers (.mk "log" [] [.mk "string" [("key", "concept:name"), ("value", "n")] [],
      .mk "trace" [] [.mk "event" [] [.mk "string" [("key", "concept:name"), ("value", "A")] []]]]) = .ok log ∧
    ¬ ∃ r, xesRoundTrip exactParsers log = .ok r ∧ SameLog log r := by
  refine ⟨_, rfl, ?_⟩
  rw [(C05_read_log_iff exactParsers exactParsers_stable.typed (.mk "log" [] [.mk "string" [("key", "concept:name"), ("value", "n")] [],
      .mk "trace" [] [.mk "event" [] [.mk "string" [("key", "concept:name"), ("value", "A")] []]]]) _ rfl).2]
  rintro ⟨h, -⟩
  cases h

end Ficus
