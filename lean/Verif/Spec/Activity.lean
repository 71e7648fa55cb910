import Verif.Model.Activity

/-! Specification vocabulary for repeat sets and activity forests: what the nodes, roots and parent-child pairs of a
forest are. -/

namespace Ficus.Spec

/-- The given sub-arrays together with the number of their trace, in the order of the log. -/
def indexedSubArrays (subs : List (List SubArray)) : List RepeatSet :=
  subs.zipIdx.flatMap (fun p => p.1.map (fun s => { firstPos := s.firstPos, length := s.length, traceIndex := p.2 }))

/-- The words of a log: the class names of its traces. -/
def wordsOf {E : Type} (ext : E → String) (log : Log E) : List (List String) :=
  log.traces.map (fun t => t.events.map ext)

/-- The word covered by a sub-array of a trace. -/
def coveredBy (words : List (List String)) (r : RepeatSet) : List String :=
  (((words[r.traceIndex]?).getD []).drop r.firstPos).take r.length

/-- Two words have the same set of letters. -/
def SameSet {α : Type} (u v : List α) : Prop := ∀ x, x ∈ u ↔ x ∈ v

mutual
/-- All activities of a tree. -/
def acts : ActTree → List Activity
  | .node a cs => a :: actsL cs
/-- All activities of a forest. -/
def actsL : List ActTree → List Activity
  | [] => []
  | t :: ts => acts t ++ actsL ts
end

mutual
/-- All parent-child pairs of a tree. -/
def links : ActTree → List (Activity × Activity)
  | .node a cs => cs.map (fun c => (a, c.act)) ++ linksL cs
/-- All parent-child pairs of a forest. -/
def linksL : List ActTree → List (Activity × Activity)
  | [] => []
  | t :: ts => links t ++ linksL ts
end

/-- The roots of a forest. -/
def roots (f : List ActTree) : List Activity := f.map ActTree.act

/-- The event set of `a` is strictly contained in that of `b`. -/
def StrictlyBelow (a b : Activity) : Prop := (∀ e ∈ a.events, e ∈ b.events) ∧ ∃ e ∈ b.events, e ∉ a.events


/-- The hash under which `create_repeat_sets` files a word (event_log_patterns.py:153-154). -/
def setHash (w : List String) : Int := collHashAll (fun h : Int => h) (sortedSet (w.map stringHash))

/-- That hash distinguishes the event sets of the given sub-arrays. -/
def FaithfulSetHash (words : List (List String)) (rs : List RepeatSet) : Prop :=
  ∀ x ∈ rs, ∀ y ∈ rs, setHash (coveredBy words x) = setHash (coveredBy words y) →
    SameSet (coveredBy words x) (coveredBy words y)

end Ficus.Spec
