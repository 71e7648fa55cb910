import Verif.Proofs.Front

/-! Properties C76, C77 and C78: the messages that remote parts are converted to. -/

namespace Ficus
open Front Front.Spec

variable {F : Type}

/-- C76a: two pipelines are sent as the same messages exactly when they agree in everything that messages keep. -/
theorem C76_same_messages (f32 : F → Nat) (ps qs : List (FPart F)) (gs : List GPart) (h : messages f32 ps = .ok gs) :
    messages f32 qs = .ok gs ↔ qs.map (kept f32) = ps.map (kept f32) := by
  constructor
  · intro h'
    have h1 := decode_messages f32 ps gs h
    have h2 := decode_messages f32 qs gs h'
    rw [h1] at h2
    exact (Option.some.inj h2).symm
  · intro hk
    rw [← h]
    unfold messages
    rw [messages_kept f32 qs, messages_kept f32 ps, hk]

/-- C76b: the same for single parts. -/
theorem C76_same_message (f32 : F → Nat) (p q : FPart F) (g : GPart) (h : p.message f32 = .ok g) :
    q.message f32 = .ok g ↔ kept f32 q = kept f32 p := by
  constructor
  · intro h'
    have h1 := decode_message f32 p g h
    have h2 := decode_message f32 q g h'
    rw [h1] at h2
    exact (Option.some.inj h2).symm
  · intro hk
    rw [← h]
    unfold FPart.message
    rw [message_kept f32 q, message_kept f32 p, hk]

/-- C76c: the conversion, with its failures, depends on nothing else. -/
theorem C76_only_kept (f32 : F → Nat) (ps qs : List (FPart F)) (h : qs.map (kept f32) = ps.map (kept f32)) :
    messages f32 qs = messages f32 ps := by
  unfold messages
  rw [messages_kept f32 qs, messages_kept f32 ps, h]

/-- C76d (disagreement with the signature): the maximal length of arrays that `DiscoverActivitiesUntilNoMore2` is given
never reaches the backend, not even when it is no number that could be sent. -/
theorem C76_max_length_not_sent (f32 : F → Nat) (a : NoMoreArgs) (inner : List (FPart F)) (n : Int) :
    (FPart.noMore { a with maxLength := n } : FPart F).message f32 = (FPart.noMore a : FPart F).message f32 ∧
    (FPart.noMoreThen { a with maxLength := n } inner).message f32 = (FPart.noMoreThen a inner).message f32 :=
  ⟨rfl, rfl⟩

/-- C77: all configurations that are sent, also those of nested pipelines, have no key twice, for every key a value of
the one kind that belongs to the key, and only numbers of 32 bits. -/
theorem C77_messages_regular (f32 : F → Nat) (ps : List (FPart F)) (gs : List GPart) (h : messages f32 ps = .ok gs) :
    ∀ g ∈ gs, WellFormed g := messages_wellFormed f32 ps gs h

/-- A part that fails cannot be sent. -/
theorem failure_not_all {p : FPart F} {e : PyErr} (h : Front.Failure p e) : ¬ ∀ q, Within p q → Sendable q := by
  intro hs
  rcases h with ⟨_, q, hq, n, hn, hb⟩ | ⟨_, q, hq, rfl | ⟨l, rfl⟩⟩
  · exact hb ((hs q hq).1 n hn)
  · exact (hs _ hq).2.1 rfl
  · exact (hs _ hq).2.2 l rfl

/-- C78a: a pipeline can be converted exactly when every part in it, at any depth, can be sent: its numbers are at least 0
and below 2^32, it is a part, and it is not a `PrintEventlogInfoBeforeAfter`. -/
theorem C78_convertible (f32 : F → Nat) (ps : List (FPart F)) :
    (∃ gs, messages f32 ps = .ok gs) ↔ ∀ p ∈ ps, ∀ q, Within p q → Sendable q := by
  rcases messages_result f32 ps with ⟨g, hg, h⟩ | ⟨e, he, p, hp, hf⟩
  · exact ⟨fun _ => h, fun _ => ⟨g, hg⟩⟩
  · constructor
    · rintro ⟨gs, hgs⟩
      have : messages f32 ps = .error e := he
      rw [hgs] at this
      cases this
    · intro h
      exact absurd (h p hp) (failure_not_all hf)

/-- C78b: otherwise a `ValueError` tells of a number that does not fit, and a `TypeError` of an object that is not a part
or of a `PrintEventlogInfoBeforeAfter`. There are no other errors. -/
theorem C78_errors (f32 : F → Nat) (ps : List (FPart F)) (e : PyErr) (h : messages f32 ps = .error e) :
    (e = .valueError ∧ ∃ p ∈ ps, ∃ q, Within p q ∧ ∃ n ∈ ownNumbers q, ¬ (0 ≤ n ∧ n < 4294967296)) ∨
    (e = .typeError ∧ ∃ p ∈ ps, ∃ q, Within p q ∧ (q = .other ∨ ∃ l, q = .beforeAfter l)) := by
  rcases messages_result f32 ps with ⟨g, hg, _⟩ | ⟨e', he, p, hp, hf⟩
  · have : messages f32 ps = .ok g := hg
    rw [h] at this
    cases this
  · have : messages f32 ps = .error e' := he
    rw [h] at this
    cases this
    rcases hf with ⟨h1, q, h2, h3⟩ | ⟨h1, q, h2, h3⟩
    · exact Or.inl ⟨h1, p, hp, q, h2, h3⟩
    · exact Or.inr ⟨h1, p, hp, q, h2, h3⟩

/-- C78c: the first part that fails decides; parts after it do not matter. -/
theorem C78_first_failure (f32 : F → Nat) (ps qs : List (FPart F)) (p : FPart F) (gs : List GPart) (e : PyErr)
    (h : messages f32 ps = .ok gs) (hp : p.message f32 = .error e) : messages f32 (ps ++ p :: qs) = .error e := by
  unfold messages FPart.message at *
  induction ps generalizing gs with
  | nil => simp only [List.nil_append, parts, toGrpcPipeline, hp]; rfl
  | cons q ps ih =>
    simp only [parts, toGrpcPipeline, bind_ok, pure_ok] at h
    obtain ⟨g, hg, gs', hgs, rfl⟩ := h
    simp only [List.cons_append, parts, toGrpcPipeline, hg, ih gs' hgs]
    rfl

/-- A pipeline for examples, with nested pipelines. -/
def exampleParts : List (FPart Nat) :=
  [.bare .readXes, .byRegex "a.*", .show (.diversity true) 3,
   .noMoreThen ⟨some ".*", .maximalRepeats, .down, 0, .allTraces, .single, 20, .allLog, 1, 2, .none, false⟩
     [.eachLog .log 1 [.viewNet 5, .tandem true 20 none]],
   .kMeans 8 ⟨1, 1056964608, none, .subTraces, .l2⟩ 4 100, .fromPatterns .maximalTandem .mergedTrace 7 0]

example : ∃ gs, messages id exampleParts = .ok gs ∧ gs.length = 6 := by
  have h : ∀ r : Except PyErr (List GPart), (match r with | .ok gs => gs.length = 6 | .error _ => False) →
      ∃ gs, r = .ok gs ∧ gs.length = 6 := by
    intro r h
    cases r with
    | ok gs => exact ⟨gs, rfl, h⟩
    | error e => exact h.elim
  exact h _ rfl

/-- Another drawing class and another strategy for tandem arrays are sent as the same. -/
example : messages (F := Nat) id [.show (.diversity false) 3, .fromPatterns .maximalTandem .allTraces 7 0] =
    messages id [.show (.diversity true) 3, .fromPatterns .maximalTandem .mergedTrace 7 0] := rfl

example : messages (F := Nat) id [.bare .readXes, .eachLog .log 1 [.tandem true (-1) none], .other] = .error .valueError := rfl
example : messages (F := Nat) id [.bare .readXes, .eachLog .log 1 [.other], .discover (-1)] = .error .typeError := rfl

end Ficus
