import Verif.Model.RsReplay

/-! Model of the part `EnsureInitialMarking` of the backend, /repo/src/rust/ficus_backend/src/features/discovery/petri_net/marking.rs. -/

namespace Ficus.Rs
variable {E : Type} [HasName E]

/-- One insertion into a set of transitions if there is such a transition, marking.rs:56-58 and 60-62. The map of the net is not changed
by the loop, so that all searches see the transitions in the same order. -/
def insertFound (it : Iter) (net : Net) (ids : List Nat) (c : String) : List Nat :=
  match findTransition it 0 net c with
  | some t => insertBy (fun a b => decide (a = b)) ids t.id
  | none => ids

/-- The loop over the traces, marking.rs:44-63; `none` if a trace is empty (50, 53). -/
def markEnds (it : Iter) (net : Net) : List (List String) → List Nat × List Nat → Option (List Nat × List Nat)
  | [], acc => some acc
  | t :: log, acc =>
    match t.head?, t.getLast? with
    | some a, some b => markEnds it net log (insertFound it net acc.1 a, insertFound it net acc.2 b)
    | _, _ => none

/-- `ensure_initial_marking`, marking.rs:43-77, called by the part in pipelines/discovery_parts.rs:148-156. -/
def ensureMarking (it : Iter) (log : List (List E)) (s : Building) : Option Building :=
  (markEnds it s.net (log.map (fun t => t.map name)) ([], [])).bind (fun ids =>
    let a := addPlace s "Start" none
    let b := addPlace a.1 "End" none
    ((it.order "start_transitions" 0 ids.1).foldlM (fun s t => connectIn s a.2 t) b.1).bind (fun s2 =>
      ((it.order "end_transitions" 0 ids.2).foldlM (fun s t => connectOut s t b.2) s2).map (fun s3 =>
        { s3 with net := { s3.net with initial := some [(a.2, 1)] } })))

end Ficus.Rs
