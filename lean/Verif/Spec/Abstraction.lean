import Verif.Model.Abstraction
import Verif.Spec.Extract

/-! Specification vocabulary: decompositions of a trace into instances and gaps, and the leaves of nested events. -/

namespace Ficus.Spec

/-- A step of the processing of a trace: a gap from `s` up to (excluding) `e`, or an instance. -/
inductive Visit
  | gap (s e : Nat)
  | act (i : Instance)

/-- The positions a visit stands for. -/
def Visit.positions : Visit → List Nat
  | .gap s e => List.range' s (e - s)
  | .act i => List.range' i.startPos i.length

/-- The instance of a visit, if any. -/
def Visit.inst? : Visit → Option Instance
  | .gap _ _ => none
  | .act i => some i

/-- A function of visits given by its two cases. -/
def perVisit {X : Type} (onGap : Nat → Nat → X) (onAct : Instance → X) : Visit → X
  | .gap s e => onGap s e
  | .act i => onAct i

/-- The visits are a decomposition of the positions `0, ..., n - 1` into the given instances, in their order, and the
maximal gaps between them: every position occurs exactly once and in order. -/
structure Decomposition (n : Nat) (insts : List Instance) (vs : List Visit) : Prop where
  tiles : vs.flatMap Visit.positions = List.range n
  instances : vs.filterMap Visit.inst? = insts
  gaps : ∀ s e, Visit.gap s e ∈ vs → s < e ∧ (∀ i, s ≤ i → i < e → ¬ Covered (insts.map span) i) ∧
    (s = 0 ∨ Covered (insts.map span) (s - 1)) ∧ (e = n ∨ Covered (insts.map span) e)

mutual
/-- The original events inside a nested event, from left to right. -/
def leaves : NEvent → List NEvent
  | .leaf p a => [.leaf p a]
  | .comp _ u _ => leavesL u
/-- The original events inside a list of nested events. -/
def leavesL : List NEvent → List NEvent
  | [] => []
  | e :: es => leaves e ++ leavesL es
end

/-- The events at the given positions. -/
def pick {E : Type} (t : List E) (ps : List Nat) : List E := ps.filterMap (fun i => t[i]?)

/-- Instance lists that fit the traces of a log: one list per trace, each well placed. -/
def FitsLog {E : Type} (log : Log E) (insts : List (List Instance)) : Prop :=
  List.Forall₂ (fun is (t : Trace E) => WellPlaced t.events.length (is.map span)) insts log.traces

/-- `log'` results from `log` by any number of rounds of abstraction that insert all events, each with its own fitting
instance lists and naming choice. -/
inductive Rounds (log : Log NEvent) : Log NEvent → Prop
  | start : Rounds log log
  | round {mid next : Log NEvent} (insts : List (List Instance)) (names : Bool) : Rounds log mid → FitsLog mid insts →
      createNewLog mid insts names .insertAllEvents = .ok next → Rounds log next

/-- What a visit becomes in the new trace: an instance becomes one event, named after its activity, that holds the
events of the instance and the activities under them followed by its own; a gap becomes nothing, one event named
`UndefinedActivity`, or its own events. -/
def image (uniqueNames : Bool) (strategy : Strategy) (t : List NEvent) : Visit → List NEvent
  | .gap s e =>
    match strategy with
    | .insertAsSingleEvent => [.leaf [("concept:name", .str "UndefinedActivity")] none]
    | .insertAllEvents => (t.drop s).take (e - s)
    | _ => []
  | .act i =>
    [.comp [("concept:name", .str (if uniqueNames then i.node.act.uniqueName else i.node.act.name))]
      ((t.drop i.startPos).take i.length)
      (some (((t.drop i.startPos).take i.length).flatMap NEvent.underlyingActivities ++ [i.node]))]

/-- The positions that are in none of the intervals. -/
def uncovered (n : Nat) (l : List (Nat × Nat)) : List Nat :=
  (List.range n).filter (fun i => !l.any (fun p => decide (p.1 ≤ i) && decide (i < p.1 + p.2)))

/-- The instance `i`, found in a part of a trace that begins at `start`, seen from the whole trace. -/
def relocated (start : Nat) (i : Instance) : Instance :=
  { node := i.node, startPos := start + i.startPos, length := i.length }

/-- A sub-array as an interval. -/
def subSpan (s : SubArray) : Nat × Nat := (s.firstPos, s.length)

end Ficus.Spec
