import Verif.Proofs.Backend
import Verif.Props.Front

/-! Property C80: what the user asks for is what the backend reads from the messages. -/

namespace Ficus
open Front Front.Spec Backend Backend.Spec

variable {F : Type}

/-- C80a: the messages of a pipeline are read by the backend as exactly what the parts ask for, with all parameters, unless
there is a part, at any depth, that the backend cannot serve. -/
theorem C80_understood (f32 : F → Nat) (ps : List (FPart F)) (gs : List GPart) (h : messages f32 ps = .ok gs) :
    ((∀ p ∈ ps, ∀ q, Within p q → ¬ Refused q) → readAll gs = some (ps.map (asks f32))) ∧
    ((∃ p ∈ ps, ∃ q, Within p q ∧ Refused q) → readAll gs = none) := by
  rcases all_served f32 ps gs h with ⟨h1, h2⟩ | ⟨h1, h2⟩
  · exact ⟨fun _ => h2, fun ⟨p, hp, q, hq, hr⟩ => absurd hr (h1 p hp q hq)⟩
  · refine ⟨fun h3 => ?_, fun _ => h2⟩
    obtain ⟨p, hp, q, hq, hr⟩ := h1
    exact absurd hr (h3 p hp q hq)

/-- C80b (disagreement): tandem arrays cannot be used to discover activities until there are no more, since their length
is not sent, nor on several levels, since the backend does not pass the length on; and the number of underlying events is
not sent back. -/
theorem C80_refused (f32 : F → Nat) (p : FPart F) (g : GPart) (h : p.message f32 = .ok g)
    (hp : (∃ a, p = .noMore a ∧ (a.kind = .primitiveTandem ∨ a.kind = .maximalTandem)) ∨
      (∃ a l, p = .noMoreThen a l ∧ (a.kind = .primitiveTandem ∨ a.kind = .maximalTandem)) ∨
      (∃ a, p = .levels a ∧ (a.kind = .primitiveTandem ∨ a.kind = .maximalTandem) ∧ a.classes ≠ []) ∨
      (∃ u, p = .show .underlying u)) : read g = none := by
  have hr : Refused p := by
    rcases hp with ⟨a, rfl, h'⟩ | ⟨a, l, rfl, h'⟩ | ⟨a, rfl, h'⟩ | ⟨u, rfl⟩
    · exact h'
    · exact h'
    · exact h'
    · trivial
  rcases served f32 p g h with ⟨h1, _⟩ | ⟨_, h2⟩
  · exact absurd hr (h1 p .self)
  · exact h2

/-- Parts that ask for the same, have the same pipeline and are both served or both refused are read as the same. -/
theorem read_same (f32 : F → Nat) (p q : FPart F) (g g' : GPart) (hp : p.message f32 = .ok g) (hq : q.message f32 = .ok g')
    (hi : Front.Spec.inner p = Front.Spec.inner q) (hr : Refused p ↔ Refused q) (ha : asks f32 p = asks f32 q) :
    read g = read g' := by
  have key : ∀ {p q : FPart F}, Front.Spec.inner p = Front.Spec.inner q → (Refused p ↔ Refused q) →
      (∀ x, Within p x → ¬ Refused x) → ¬ ∃ x, Within q x ∧ Refused x := by
    rintro p q hi hr h ⟨x, hx, hx'⟩
    cases hx with
    | self => exact h p .self (hr.2 hx')
    | deeper a b => exact h x (.deeper (hi ▸ a) b) hx'
  rcases served f32 p g hp with ⟨h1, h2⟩ | ⟨h1, h2⟩ <;> rcases served f32 q g' hq with ⟨h3, h4⟩ | ⟨h3, h4⟩
  · rw [h2, h4, ha]
  · exact absurd h3 (key hi hr h1)
  · exact absurd h1 (key hi.symm hr.symm h3)
  · rw [h2, h4]

/-- C80c (disagreement with the signatures): some parameters have no effect, although they are sent: the adjusting mode
and the least number of unattached events of the discovery until there are no more, and the level for logs of
activities. -/
theorem C80_no_effect (f32 : F → Nat) (a : NoMoreArgs) (inner : List (FPart F)) (m : Adjusting) (n level level' : Int)
    (p q : FPart F) (g g' : GPart) (hp : p.message f32 = .ok g) (hq : q.message f32 = .ok g')
    (h : (p = .noMore a ∧ q = .noMore { a with adjusting := m, minUnattached := n }) ∨
      (p = .noMoreThen a inner ∧ q = .noMoreThen { a with adjusting := m, minUnattached := n } inner) ∨
      (p = .eachLog .log level inner ∧ q = .eachLog .log level' inner)) : read g = read g' := by
  rcases h with ⟨rfl, rfl⟩ | ⟨rfl, rfl⟩ | ⟨rfl, rfl⟩
  · exact read_same f32 _ _ g g' hp hq rfl Iff.rfl (by simp [asks, untilNoMore])
  · exact read_same f32 _ _ g g' hp hq rfl Iff.rfl (by simp [asks, untilNoMore])
  · exact read_same f32 _ _ g g' hp hq rfl Iff.rfl (by simp [asks])

/-- The result of reading the messages of a pipeline, if it can be sent. -/
def sentAndRead (f32 : F → Nat) (ps : List (FPart F)) : Option (List Command) :=
  match messages f32 ps with
  | .ok gs => readAll gs
  | .error _ => none

example : sentAndRead id exampleParts = some
    [.bare .readXes, .filterRegex "a.*", .send (some .diversity) ["colors_event_log"] 3,
     .untilNoMore (.maximal .allTraces) (some ".*") 0 .down 2 .none .single false
       (some [.eachLog .log none [.send none ["petri_net"] 5, .find (.tandem true 20) none]]),
     .send (some (.kMeans ⟨1, 1056964608, none, .subTraces, .l2⟩ 4 100)) ["labeled_traces_activities_dataset"] 8,
     .run [.find (.tandem false 7) none, .discover 0]] := rfl

example : sentAndRead (F := Nat) id [.bare .readXes, .noMore ⟨none, .maximalTandem, .down, 0, .allTraces, .single, 20,
    .allLog, 1, 2, .none, false⟩] = none := rfl

end Ficus
