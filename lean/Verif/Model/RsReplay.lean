import Verif.Model.RsNet
import Mathlib.Data.Rat.Defs

/-! Model of the replay of logs on Petri nets and of the annotations of nets in the backend,
/repo/src/rust/ficus_backend/src/features/discovery/petri_net/{replay,annotations,marking}.rs (the files named below). -/

namespace Ficus.Rs

/-- What keeps a function from returning: a panic, or that the fuel of the model does not suffice. -/
inductive Stop
  | panic
  | endless
  deriving DecidableEq, Repr

/-- `ReplayState`, replay.rs:7-11. -/
structure RState where
  marking : Dict Nat Nat
  fired : List Nat
  deriving DecidableEq, Repr

/-- `ReplayState::new`, replay.rs:27-36. -/
def RState.new (initial : List (Nat × Nat)) : RState := ⟨initial.foldl (fun d p => d.set p.1 p.2) [], []⟩

/-- The test of a transition, replay.rs:43-49. -/
def canFire (m : Dict Nat Nat) (t : Trans) : Bool := t.incoming.all (fun a => m.contains a.place)

/-- One arc of the first loop, replay.rs:53-62: the index panics for a place without tokens, and so does the difference for
none. -/
def consumeArc (m : Dict Nat Nat) (a : Arc) : Except Stop (Dict Nat Nat) :=
  match m.get? a.place with
  | none => .error .panic
  | some 0 => .error .panic
  | some (c + 1) => .ok (if c = 0 then m.del a.place else m.set a.place c)

/-- One arc of the second loop, replay.rs:64-71. -/
def produceArc (m : Dict Nat Nat) (a : Arc) : Dict Nat Nat :=
  match m.get? a.place with
  | some c => m.set a.place (c + 1)
  | none => m.set a.place 1

/-- The state after a transition, replay.rs:51-77. -/
def fireTransition (s : RState) (t : Trans) : Except Stop RState :=
  (t.incoming.foldlM consumeArc s.marking).map (fun m => ⟨t.outgoing.foldl produceArc m, s.fired ++ [t.id]⟩)

/-- `find_transitions_to_fire`, replay.rs:84-99. The map of the net is not changed during the replay, so that both loops see the
transitions in the same order. -/
def candidates (it : Iter) (net : Net) (symbol : String) : List Trans :=
  (it.order "transitions" 0 net.transitions).filter (fun t => decide (t.name = symbol)) ++
    (it.order "transitions" 0 net.transitions).filter (fun t => t.silent)

/-- `handle_transition`, replay.rs:38-82. -/
def handleTransition (it : Iter) (net : Net) (s : RState) (symbol : String) : Except Stop (List (Bool × RState)) :=
  ((candidates it net symbol).filter (canFire s.marking)).mapM (fun t => (fireTransition s t).map (fun s' => (!t.silent, s')))

/-- The loop for one trace, replay.rs:114-137. The head of the list is the end of the deque, where states are pushed and popped. -/
def replayLoop (it : Iter) (net : Net) (trace : List String) : Nat → List (Nat × RState) → Except Stop (Option RState)
  | 0, _ => .error .endless
  | _ + 1, [] => .ok none
  | fuel + 1, (i, s) :: stack =>
    match (trace)[i]? with
    | none => .ok (some s)
    | some symbol =>
      match handleTransition it net s symbol with
      | .error e => .error e
      | .ok new => replayLoop it net trace fuel ((new.map (fun n => (i + (if n.1 then 1 else 0), n.2))).reverse ++ stack)

/-- The replay of one trace, replay.rs:105-137. -/
def replayTrace (it : Iter) (net : Net) (initial : List (Nat × Nat)) (fuel : Nat) (trace : List String) :
    Except Stop (Option RState) := replayLoop it net trace fuel [(0, .new initial)]

variable {E : Type} [HasName E]

/-- `replay_petri_net`, replay.rs:102-141. Without an initial marking it gives nothing at the first trace. -/
def replayNet (it : Iter) (net : Net) (fuel : Nat) (log : List (List E)) : Except Stop (Option (List (Option RState))) :=
  match net.initial with
  | none => .ok (if log.isEmpty then some [] else none)
  | some initial => (log.mapM (fun t => replayTrace it net initial fuel (t.map name))).map some

/-- The arcs of the transition with the identifier, annotations.rs:24-32. `transition` panics for an unknown one. -/
def arcsOf (net : Net) (id : Nat) : Except Stop (List Nat) :=
  match net.transitions.find? (fun t => decide (t.id = id)) with
  | none => .error .panic
  | some t => .ok ((t.incoming ++ t.outgoing).map Arc.id)

/-- `handle_arc`, annotations.rs:40-42. -/
def handleArc (d : Dict Nat Nat) (arc : Nat) : Dict Nat Nat := d.set arc ((d.get? arc).getD 0 + 1)

/-- The loop over the states, annotations.rs:18-37. -/
def annotateLoop (net : Net) (terminate : Bool) : List (Option RState) → Dict Nat Nat → Except Stop (Option (Dict Nat Nat))
  | [], d => .ok (some d)
  | none :: states, d => if terminate then .ok none else annotateLoop net terminate states d
  | some s :: states, d =>
    match s.fired.mapM (arcsOf net) with
    | .error e => .error e
    | .ok arcs => annotateLoop net terminate states (arcs.flatten.foldl handleArc d)

/-- `annotate_with_counts`, annotations.rs:7-38. -/
def annotateCounts (it : Iter) (net : Net) (fuel : Nat) (terminate : Bool) (log : List (List E)) :
    Except Stop (Option (Dict Nat Nat)) :=
  match replayNet it net fuel log with
  | .error e => .error e
  | .ok none => .ok none
  | .ok (some states) => annotateLoop net terminate states []

/-- `annotate_with_frequencies`, annotations.rs:44-58. Floating point numbers are rational here. -/
def annotateFrequencies (it : Iter) (net : Net) (fuel : Nat) (terminate : Bool) (log : List (List E)) :
    Except Stop (Option (Dict Nat ℚ)) :=
  (annotateCounts it net fuel terminate log).map (fun r => r.map (fun d =>
    d.map (fun p => (p.1, (p.2 : ℚ) / ((d.map Prod.snd).sum : Nat)))))

/-- `annotate_with_trace_frequency`, annotations.rs:60-72. -/
def annotateTraceFrequencies (it : Iter) (net : Net) (fuel : Nat) (terminate : Bool) (log : List (List E)) :
    Except Stop (Option (Dict Nat ℚ)) :=
  (annotateCounts it net fuel terminate log).map (fun r => r.map (fun d => d.map (fun p => (p.1, (p.2 : ℚ) / (log.length : ℚ)))))

end Ficus.Rs
