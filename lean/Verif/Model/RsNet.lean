import Verif.Model.RsAlpha

/-! Model of the Petri nets of the backend and of the nets that the alpha algorithms make,
/repo/src/rust/ficus_backend/src/features/discovery/petri_net and alpha/alpha.rs (all paths of this file are below
src/rust/ficus_backend/src/features/discovery). -/

namespace Ficus.Rs

/-- `Arc`, petri_net/arc.rs:4-9. The data of arcs is never set here; the number of tokens is always 1 (18). -/
structure Arc where
  id : Nat
  place : Nat
  deriving DecidableEq, Repr

/-- `Transition`, petri_net/transition.rs:5-16. The data is the name, alpha.rs:190. -/
structure Trans where
  id : Nat
  name : String
  silent : Bool
  incoming : List Arc
  outgoing : List Arc
  deriving DecidableEq, Repr

/-- `Place`, petri_net/place.rs:6-11; of the user data only the alpha set is kept (alpha.rs:196). -/
structure Place where
  id : Nat
  name : String
  set : Option ASet
  deriving DecidableEq, Repr

/-- `PetriNet`, petri_net/petri_net.rs:25-35, with the markings as pairs of place and number of tokens (marking.rs:7-42). The maps
by identifiers are lists of their values: identifiers come from a counter of the process, so that a new one is never there
already. `places_to_transitions` is left out. -/
structure Net where
  places : List Place
  transitions : List Trans
  initial : Option (List (Nat × Nat))
  final : Option (List (Nat × Nat))
  deriving DecidableEq, Repr

/-- A net that is built, with the state of the counter `next_id`, petri_net/ids.rs:3-7. That other threads draw numbers as well is
left out. -/
structure Building where
  net : Net
  next : Nat
  deriving DecidableEq, Repr

/-- `PetriNet::empty`, petri_net.rs:41-49. -/
def emptyNet : Net := { places := [], transitions := [], initial := none, final := none }

/-- `add_transition`, petri_net.rs:69-73, of `Transition::empty`, transition.rs:42-51. -/
def addTransition (s : Building) (name : String) (silent : Bool) : Building × Nat :=
  ({ net := { s.net with transitions := s.net.transitions ++ [⟨s.next, name, silent, [], []⟩] }, next := s.next + 1 }, s.next)

/-- `add_place`, petri_net.rs:51-55, of `Place::with_name`, place.rs:22-28. -/
def addPlace (s : Building) (name : String) (set : Option ASet) : Building × Nat :=
  ({ net := { s.net with places := s.net.places ++ [⟨s.next, name, set⟩] }, next := s.next + 1 }, s.next)

/-- `add_incoming_arc`, transition.rs:53-55, for the transition with the identifier. -/
def Trans.arcFrom (arc place t : Nat) (x : Trans) : Trans :=
  if x.id = t then { x with incoming := x.incoming ++ [⟨arc, place⟩] } else x

/-- `add_outgoing_arc`, transition.rs:57-59, for the transition with the identifier. -/
def Trans.arcTo (arc place t : Nat) (x : Trans) : Trans :=
  if x.id = t then { x with outgoing := x.outgoing ++ [⟨arc, place⟩] } else x

/-- `connect_place_to_transition`, petri_net.rs:75-87; `none` if there is no such transition. -/
def connectIn (s : Building) (place t : Nat) : Option Building :=
  if s.net.transitions.any (fun x => decide (x.id = t)) then
    some { net := { s.net with transitions := s.net.transitions.map (Trans.arcFrom s.next place t) }, next := s.next + 1 }
  else none

/-- `connect_transition_to_place`, petri_net.rs:95-107. -/
def connectOut (s : Building) (t place : Nat) : Option Building :=
  if s.net.transitions.any (fun x => decide (x.id = t)) then
    some { net := { s.net with transitions := s.net.transitions.map (Trans.arcTo s.next place t) }, next := s.next + 1 }
  else none

/-- The text of one side, utils/sets/two_sets.rs:118-130: what is written after the last element is taken back. -/
def sideText (l : List String) : String := "{" ++ ",".intercalate l ++ "}"

/-- `to_string` of a set, two_sets.rs:110-141. -/
def ASet.text (x : ASet) : String := "(" ++ sideText x.left ++ ", " ++ sideText x.right ++ ")"

/-- The transitions of the classes and `event_classes_to_transition_ids`, alpha.rs:188-192. -/
def addClassTransitions (s : Building) (classes : List String) : Building × Dict String Nat :=
  classes.foldl (fun (acc : Building × Dict String Nat) c =>
    let r := addTransition acc.1 c false
    (r.1, acc.2.set c r.2)) (s, [])

/-- The loops that connect a place with the transitions of classes, alpha.rs:203-205 and 208-211: `none` is the panic of the index
if a class has no transition. -/
def connectInAll (ids : Dict String Nat) (place : Nat) (s : Building) (classes : List String) : Option Building :=
  classes.foldlM (fun s c => (ids.get? c).bind (fun t => connectIn s place t)) s

/-- The loops that connect the transitions of classes with a place, alpha.rs:199-201 and 213-216. -/
def connectOutAll (ids : Dict String Nat) (place : Nat) (s : Building) (classes : List String) : Option Building :=
  classes.foldlM (fun s c => (ids.get? c).bind (fun t => connectOut s t place)) s

/-- The body of the loop over the sets, alpha.rs:194-206. -/
def addSetPlace (ids : Dict String Nat) (s : Building) (x : ASet) : Option Building :=
  let r := addPlace s x.text (some x)
  (connectOutAll ids r.2 r.1 x.left).bind (fun s2 => connectInAll ids r.2 s2 x.right)

/-- The start and end places and the markings, alpha.rs:208-219. -/
def addEnds (it : Iter) (ids : Dict String Nat) (info : Info) (s : Building) : Option Building :=
  let r := addPlace s "StartPlace" none
  (connectInAll ids r.2 r.1 (it.order "start_event_classes" 0 info.starts)).bind (fun s2 =>
    let e := addPlace s2 "EndPlace" none
    (connectOutAll ids e.2 e.1 (it.order "end_event_classes" 0 info.ends)).map (fun s3 =>
      { s3 with net := { s3.net with initial := some [(r.2, 1)], final := some [(e.2, 1)] } }))

/-- `create_petri_net`, alpha.rs:186-222. -/
def createNet (it : Iter) (next : Nat) (info : Info) (sets : List ASet) : Option Building :=
  let r := addClassTransitions { net := emptyNet, next := next } (info.allClasses it 2)
  (sets.foldlM (addSetPlace r.2) r.1).bind (addEnds it r.2 info)

variable {E : Type} [HasName E]

/-- The part `DiscoverPetriNetAlpha`, pipelines/discovery_parts.rs:19-30, with alpha.rs:22-24 and 137-142. -/
def discoverAlpha (it : Iter) (hash : List String → Nat) (fuel next : Nat) (log : List (List E)) : Option Building :=
  let info := createInfo it log
  (alphaSets it hash fuel info (alphaRelations info)).bind (createNet it next info)

/-- The alpha set of a class that comes directly after itself, alpha.rs:45-60. -/
def loopSet (info : Info) (c : String) : ASet :=
  { right := sortedSet ((((info.followed.get? c).getD []).keys).filter (fun d => decide (d ≠ c))),
    left := sortedSet ((((info.precedes.get? c).getD []).keys).filter (fun d => decide (d ≠ c))) }

/-- `find_place_id_by_name`, petri_net.rs:133-141; `n` is the number of the visit. -/
def findPlace (it : Iter) (n : Nat) (net : Net) (name : String) : Option Nat :=
  ((it.order "places" n net.places).find? (fun p => decide (p.name = name))).map Place.id

/-- The body of the loop over the classes, alpha.rs:44-75. -/
def addLoop (it : Iter) (info : Info) (s : Building) (c : String × Nat) : Option Building :=
  let x := loopSet info c.1
  let r := addTransition s c.1 false
  let q := match findPlace it c.2 r.1.net x.text with
    | some id => (r.1, id)
    | none => addPlace r.1 x.text none
  (connectOut q.1 r.2 q.2).bind (fun s2 => connectIn s2 q.2 r.2)

/-- `add_one_length_loops`, alpha.rs:41-76. -/
def addLoops (it : Iter) (log : List (List E)) (loops : List String) (s : Building) : Option Building :=
  (it.order "one_length_loop_transitions" 0 loops).zipIdx.foldlM (addLoop it (createInfo it log)) s

/-- The part `DiscoverPetriNetAlphaPlus`, discovery_parts.rs:45-68, with alpha.rs:26-39. -/
def discoverAlphaPlus (it : Iter) (hash : List String → Nat) (fuel next : Nat) (log : List (List E)) : Option Building :=
  (oneLoops (log.map (fun t => t.map name))).bind (fun loops =>
    let info := createInfo it log (some loops)
    (triangles (log.map (fun t => t.map name))).bind (fun tri =>
      (alphaSets it hash fuel info (alphaPlusRelations info tri)).bind (fun sets =>
        (createNet it next info sets).bind (addLoops it log loops))))

/-- The pairs of a transition and a place for which the first condition of `add_alpha_plus_plus_transitions` holds, alpha.rs:83-107:
`arcs` gives the arcs of the transition that are looked at. -/
def plusPlusPairs (net : Net) (arcs : Trans → List Arc) (t : Trans) : List (Nat × Nat) :=
  net.places.flatMap (fun p => match p.set with
    | none => []
    | some x => (arcs t).filterMap (fun a =>
      if a.place ≠ p.id then
        match (net.places.find? (fun q => decide (q.id = a.place))).bind Place.set with
        | some y => if x.fullSubset y then some (t.id, a.place) else none
        | none => none
      else none))

/-- `find_transition_by_name`, petri_net.rs:143-151. -/
def findTransition (it : Iter) (n : Nat) (net : Net) (name : String) : Option Trans :=
  (it.order "transitions" n net.transitions).find? (fun t => decide (t.name = name))

/-- `add_alpha_plus_plus_transitions`, alpha.rs:78-120. `ready` says whether some place was given an alpha set before in the process,
without which `Lazy::get` gives nothing (79). -/
def addPlusPlus (it : Iter) (ready : Bool) (loops : List String) (s : Building) : Option Building :=
  if !(ready || s.net.places.any (fun p => p.set.isSome)) then none
  else
    let ts := (it.order "one_length_loop_transitions" 1 loops).zipIdx.filterMap (fun c => findTransition it c.2 s.net c.1)
    let outs := (ts.flatMap (plusPlusPairs s.net Trans.outgoing)).foldl (insertBy (fun a b => decide (a = b))) []
    let ins := (ts.flatMap (plusPlusPairs s.net Trans.incoming)).foldl (insertBy (fun a b => decide (a = b))) []
    ((it.order "transitions_connections" 0 outs).foldlM (fun s c => connectOut s c.1 c.2) s).bind (fun s2 =>
      (it.order "places_connections" 0 ins).foldlM (fun s c => connectIn s c.2 c.1) s2)

/-- The part `DiscoverPetriNetAlphaPlusPlus`, discovery_parts.rs:70-74, with alpha.rs:26-39. -/
def discoverAlphaPlusPlus (it : Iter) (hash : List String → Nat) (ready : Bool) (fuel next : Nat) (log : List (List E)) :
    Option Building :=
  (oneLoops (log.map (fun t => t.map name))).bind (fun loops =>
    (discoverAlphaPlus it hash fuel next log).bind (addPlusPlus it ready loops))

end Ficus.Rs
