import Verif.Proofs.Abstraction
import Verif.Props.Abstraction

/-! Property C65: filling the gaps between instances, `full_fill_activities`. -/

namespace Ficus
open Spec
variable {E : Type}

theorem filter_orderedInsert_start (p : Nat) (a : Instance) (l : List Instance) :
    (l.orderedInsert (fun a b => b.startPos ≤ a.startPos) a).filter (fun i => i.startPos = p) =
      (a :: l).filter (fun i => i.startPos = p) := by
  induction l with
  | nil => rfl
  | cons b l ih =>
    rw [List.orderedInsert_cons]
    split
    · rfl
    · rename_i h
      rw [List.filter_cons, ih]
      simp only [List.filter_cons, decide_eq_true_eq]
      have : a.startPos ≠ p ∨ b.startPos ≠ p := by omega
      rcases this with h' | h' <;> simp [h']

/-- Sorting by descending start keeps the order of the instances with the same start. -/
theorem filter_insertionSort_start (p : Nat) (l : List Instance) :
    (l.insertionSort (fun a b => b.startPos ≤ a.startPos)).filter (fun i => i.startPos = p) =
      l.filter (fun i => i.startPos = p) := by
  induction l with
  | nil => rfl
  | cons a l ih =>
    rw [List.insertionSort_cons, filter_orderedInsert_start, List.filter_cons, ih, List.filter_cons]

theorem sorted_insertionSort_start (l : List Instance) :
    (l.insertionSort (fun a b => b.startPos ≤ a.startPos)).Pairwise (fun a b => b.startPos ≤ a.startPos) := by
  have : Std.Total (fun a b : Instance => b.startPos ≤ a.startPos) := ⟨fun a b => le_total _ _⟩
  have : IsTrans Instance (fun a b : Instance => b.startPos ≤ a.startPos) := ⟨fun a b c h1 h2 => le_trans h2 h1⟩
  exact List.pairwise_insertionSort _ _

/-- C65 (part): for fitting instance lists the call succeeds, and for each trace the result consists of the given
instances followed by what the creator makes of the events of each maximal gap, ordered by descending start (with the
order kept among equal starts, so that the result is determined). What is missing for the full claim that the result
fills the gaps: the positions of the created instances are not moved to their gap, which is refuted below. -/
theorem C65_full_fill_partial (log : Log E) (insts : List (List Instance)) (creator : List E → List Instance)
    (h : FitsLog log insts) :
    ∃ res, fullFillActivities log insts creator = .ok res ∧ res.length = log.traces.length ∧
      ∀ (k : Nat) (t : Trace E) (is is' : List Instance) (vs : List Visit), log.traces[k]? = some t →
        insts[k]? = some is → res[k]? = some is' → Decomposition t.events.length is vs →
        is'.Pairwise (fun a b => b.startPos ≤ a.startPos) ∧
        ∀ p, is'.filter (fun i => i.startPos = p) =
          (is ++ vs.flatMap (perVisit (fun s e => creator ((t.events.drop s).take (e - s))) (fun _ => []))).filter
            (fun i => i.startPos = p) := by
  have hrun : fullFillActivities log insts creator = .ok (List.zipWith (fun is (t : Trace E) =>
      (is ++ (visitsFrom t.events.length 0 is).flatMap
        (perVisit (fun s e => creator ((t.events.drop s).take (e - s))) (fun _ => []))).insertionSort
          (fun a b => b.startPos ≤ a.startPos)) insts log.traces) := by
    unfold fullFillActivities
    refine zip_mapM_ok _ _ _ _ _ h (fun is t hw => ?_)
    simp only
    rw [processTrace_append t.events.length is
      (fun s e acc => .ok (acc ++ creator (slice t.events s (e - s)))) (fun _ acc => .ok acc)
      (perVisit (fun s e => creator ((t.events.drop s).take (e - s))) (fun _ => []))
      (fun s e _ acc => rfl) (fun i acc => by simp [perVisit])]
    rfl
  refine ⟨_, hrun, by simp [List.Forall₂.length_eq h], ?_⟩
  intro k t is is' vs ht hi hr hd
  have hw : WellPlaced t.events.length (is.map span) := by
    have := List.forall₂_iff_get.1 h
    obtain ⟨hk, rfl⟩ := List.getElem?_eq_some_iff.1 ht
    obtain ⟨hk', rfl⟩ := List.getElem?_eq_some_iff.1 hi
    exact this.2 k hk' hk
  rw [List.getElem?_zipWith, hi, ht] at hr
  simp only [Option.some.injEq] at hr
  subst hr
  rw [visitsFrom_of_decomposition _ _ hw vs hd]
  exact ⟨sorted_insertionSort_start _, fun p => filter_insertionSort_start p _⟩

/-- A creator that makes one instance, well placed, of any non-empty list of events. -/
def wholeGap (node : ActTree) (es : List Unit) : List Instance :=
  if es.length = 0 then [] else [{ node := node, startPos := 0, length := es.length }]

/-- C65 refuted: even with a creator whose instances are always well placed in the events it gets, the result can have
two instances at the same positions, and leave a gap open. -/
theorem C65_gaps_are_not_filled (node : ActTree) :
    ∃ (log : Log Unit) (insts res : List (List Instance)), FitsLog log insts ∧
      (∀ es, WellPlaced es.length ((wholeGap node es).map span)) ∧
      fullFillActivities log insts (wholeGap node) = .ok res ∧
      res.map (fun is => is.map span) = [[(0, 1), (0, 1)]] ∧ log.evs = [[(), ()]] := by
  refine ⟨Log.ofEvs [[(), ()]], [[{ node := node, startPos := 0, length := 1 }]],
    [[{ node := node, startPos := 0, length := 1 }, { node := node, startPos := 0, length := 1 }]], ?_, ?_, ?_, ?_, ?_⟩
  · unfold FitsLog
    refine List.Forall₂.cons ?_ List.Forall₂.nil
    refine ⟨?_, by simp⟩
    intro p hp
    simp only [List.map_cons, List.map_nil, List.mem_singleton, span] at hp
    subst hp
    decide
  · intro es
    unfold wholeGap
    split
    · exact ⟨by simp, by simp⟩
    · refine ⟨?_, by simp⟩
      intro p hp
      simp only [List.map_cons, List.map_nil, List.mem_singleton, span] at hp
      subst hp
      simp only; omega
  · rfl
  · rfl
  · rfl

/-- A trace of four events with an instance at 1 and 2, and a creator that makes an instance of the whole gap: both
created instances begin at 0, and the order is descending. -/
example (node : ActTree) :
    (fullFillActivities (Log.ofEvs [[(), (), (), ()]]) [[{ node := node, startPos := 1, length := 2 }]]
      (wholeGap node)).toOption.map (fun r => r.map (fun is => is.map span)) = some [[(1, 2), (0, 1), (0, 1)]] := rfl

end Ficus
