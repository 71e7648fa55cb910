import Verif.Spec.RsLogIter
import Verif.Spec.RsEnds

/-! C175: the iterators over a log. -/

namespace Ficus.Rs
open Spec.Ends Spec.LogIter Rs.LogIter

variable {E R : Type}

theorem trace_drain (events : List E) (f : E → R) (i fuel : Nat) (h : events.length - i < fuel) :
    drain TraceIter.next fuel ⟨events, f, i⟩ = some ((events.drop i).map f) := by
  induction fuel generalizing i with
  | zero => omega
  | succ fuel ih =>
    unfold drain TraceIter.next
    dsimp only
    cases e : events[i]? with
    | none =>
      rw [List.drop_eq_nil_of_le (List.getElem?_eq_none_iff.mp e)]
      rfl
    | some a =>
      obtain ⟨hi, rfl⟩ := List.getElem?_eq_some_iff.mp e
      dsimp only
      have := ih (i + 1) (by omega)
      refine (congrArg (Option.map (f events[i] :: ·)) this).trans ?_
      rw [List.drop_eq_getElem_cons hi]
      rfl

theorem log_drain (log : List (List E)) (f : E → R) (i fuel : Nat) (h : log.length - i < fuel) :
    drain LogIterator.next fuel ⟨log, f, i⟩ = some ((log.drop i).map (fun t => TraceIter.new t f)) := by
  induction fuel generalizing i with
  | zero => omega
  | succ fuel ih =>
    unfold drain LogIterator.next
    dsimp only
    cases e : log[i]? with
    | none =>
      rw [List.drop_eq_nil_of_le (List.getElem?_eq_none_iff.mp e)]
      rfl
    | some a =>
      obtain ⟨hi, rfl⟩ := List.getElem?_eq_some_iff.mp e
      dsimp only
      have := ih (i + 1) (by omega)
      refine (congrArg (Option.map (TraceIter.new log[i] f :: ·)) this).trans ?_
      rw [List.drop_eq_getElem_cons hi]
      rfl

/-- **C175** (all events). Two loops over the iterators end and give what the function makes of every event, in the order of the log. -/
theorem C175_all (log : List (List E)) (f : E → R) : EndsWith (fun fuel => drainLog fuel log f) (log.map (List.map f)) := by
  refine ⟨log.length + log.flatten.length + 1, fun fuel hf => ?_⟩
  show drainLog fuel log f = _
  unfold drainLog LogIterator.new
  rw [log_drain log f 0 fuel (by omega), Option.bind_some, List.drop_zero]
  have hlen : ∀ t ∈ log, t.length < fuel := fun t ht => by
    have : t.length ≤ log.flatten.length := (List.sublist_flatten_of_mem ht).length_le
    omega
  clear hf
  induction log with
  | nil => rfl
  | cons t log ih =>
    have h1 := trace_drain t f 0 fuel (by have := hlen t List.mem_cons_self; omega)
    rw [List.drop_zero] at h1
    have h2 := ih (fun u hu => hlen u (List.mem_cons_of_mem _ hu))
    rw [List.map_cons, List.mapM_cons, h2]
    unfold TraceIter.new
    rw [h1]
    rfl

/-- The events of two traces. -/
example : drainLog 4 [[1, 2], [], [3]] (· + 1) = some [[2, 3], [], [4]] := by decide

/-- **C175** (any calls). After any calls of `next` and `step_back`, a loop over the rest gives the events from the position on, which goes one
on or back with each call and never leaves the trace; the next result is the event at the position, and none exactly at the end. -/
theorem C175_calls (events : List E) (f : E → R) (calls : List Call) :
    let it := ((TraceIter.new events f).run calls).2
    let i := position events.length 0 calls
    i ≤ events.length ∧ EndsWith (fun fuel => drain TraceIter.next fuel it) ((events.drop i).map f) ∧
      it.next.1 = events[i]?.map f ∧ (it.next.1 = none ↔ i = events.length) := by
  have hrun : ∀ (calls : List Call) (i : Nat), i ≤ events.length →
      ((⟨events, f, i⟩ : TraceIter E R).run calls).2 = ⟨events, f, position events.length i calls⟩ ∧
      position events.length i calls ≤ events.length := by
    intro calls
    induction calls with
    | nil => intro i hi; exact ⟨rfl, hi⟩
    | cons c calls ih =>
      intro i hi
      cases c with
      | next =>
        unfold TraceIter.run position
        have : (⟨events, f, i⟩ : TraceIter E R).next.2 = ⟨events, f, min events.length (i + 1)⟩ := by
          unfold TraceIter.next
          dsimp only
          cases e : events[i]? with
          | none =>
            have := List.getElem?_eq_none_iff.mp e
            rw [Nat.min_eq_left (by omega)]
            have : i = events.length := by omega
            rw [this]
          | some a =>
            obtain ⟨h, _⟩ := List.getElem?_eq_some_iff.mp e
            rw [Nat.min_eq_right (by omega)]
        dsimp only
        rw [this]
        exact ih _ (Nat.min_le_left _ _)
      | back =>
        unfold TraceIter.run position
        have : (⟨events, f, i⟩ : TraceIter E R).stepBack = ⟨events, f, i - 1⟩ := by
          unfold TraceIter.stepBack
          dsimp only
          split
          · rfl
          · have : i = 0 := by omega
            rw [this]
        rw [this]
        exact ih _ (by omega)
  obtain ⟨h1, h2⟩ := hrun calls 0 (Nat.zero_le _)
  intro it i
  have hit : it = ⟨events, f, i⟩ := h1
  have hi : i ≤ events.length := h2
  have hnext : it.next.1 = events[i]?.map f := by
    rw [hit]
    unfold TraceIter.next
    dsimp only
    cases events[i]? <;> rfl
  refine ⟨hi, ⟨events.length + 1, fun fuel hf => ?_⟩, hnext, ?_⟩
  · rw [hit]
    exact trace_drain events f i fuel (by omega)
  · rw [hnext, Option.map_eq_none_iff, List.getElem?_eq_none_iff]
    omega

/-- After the end a step back gives the last event once more. -/
example : ((TraceIter.new [1, 2] id).run [.back, .next, .next, .next, .back, .next]).1 = [some 1, some 2, none, some 2] := by decide

end Ficus.Rs
