import Verif.Model.RsNet
import Mathlib.Data.List.Sort

/-! Model of the serialisation of Petri nets of the backend, petri_net/pnml_serialization.rs (below
/repo/src/rust/ficus_backend/src/features/discovery) with utils/xml_utils.rs. What `quick_xml` makes of the events (escaping and
indentation) is external, and so is the file. -/

namespace Ficus.Rs

/-- The events given to the writer, xml_utils.rs:57-90 and pnml_serialization.rs:108-111. -/
inductive XmlEvent
  | start (tag : String) (attrs : List (String × String))
  | text (content : String)
  | stop (tag : String)
  deriving DecidableEq, Repr

/-- A `StartEndElementCookie` and what is written before it is dropped, xml_utils.rs:52-90. -/
def element (tag : String) (attrs : List (String × String)) (content : List XmlEvent) : List XmlEvent :=
  .start tag attrs :: (content ++ [.stop tag])

/-- `create_place_id`, pnml_serialization.rs:244-249. -/
def Place.key (names : Bool) (p : Place) : String := if names then p.name else toString p.id

/-- `create_transition_id`, pnml_serialization.rs:251-259. -/
def Trans.key (names : Bool) (t : Trans) : String := if names then t.name else toString t.id

/-- `create_arc_name`, pnml_serialization.rs:261-263. -/
def arcName (source target : String) : String := "[{" ++ source ++ "}--{" ++ target ++ "}]"

/-- `write_places`, pnml_serialization.rs:67-87. -/
def writePlaces (it : Iter) (net : Net) (names : Bool) : List XmlEvent :=
  ((it.order "pnml_places" 0 net.places).insertionSort (fun p q => p.name ≤ q.name)).flatMap
    (fun p => element "place" [("id", p.key names)] [])

/-- `created_ordered_transitions_list`, pnml_serialization.rs:126-136; `n` is the number of the call. -/
def orderedTransitions (it : Iter) (n : Nat) (net : Net) : List Trans :=
  (it.order "pnml_transitions" n net.transitions).insertionSort (fun t u => t.name ≤ u.name)

/-- `write_transitions`, pnml_serialization.rs:89-124. The data of a transition is its name. -/
def writeTransitions (it : Iter) (net : Net) (names : Bool) : List XmlEvent :=
  (orderedTransitions it 0 net).flatMap (fun t => element "transition" [("id", t.key names)]
    (element "name" [] (element "text" [] [.text t.name])))

/-- `place` of the net, petri_net.rs:109-111, `none` is the panic if there is no such place. -/
def Net.place (net : Net) (id : Nat) : Option Place := net.places.find? (fun p => decide (p.id = id))

/-- `patch_arcs_list`, pnml_serialization.rs:188-208, with what is taken of an arc after it: its identifier and the key of its place. -/
def patchArcs (net : Net) (names : Bool) (create : String → String) (arcs : List Arc) : Option (List (String × String)) := do
  let keyed ← arcs.mapM (fun a => do
    let place ← net.place a.place
    return (if names then create (place.key names) else toString a.id, place.key names))
  return keyed.insertionSort (fun x y => x.1 ≤ y.1)

/-- `write_incoming_arcs`, pnml_serialization.rs:154-186. -/
def writeIncoming (net : Net) (names : Bool) (t : Trans) : Option (List XmlEvent) := do
  let arcs ← patchArcs net names (fun p => arcName p (t.key names)) t.incoming
  return arcs.flatMap (fun x => element "arc" [("id", x.1), ("source", x.2), ("target", t.key names)] [])

/-- `write_outgoing_arcs`, pnml_serialization.rs:210-242. -/
def writeOutgoing (net : Net) (names : Bool) (t : Trans) : Option (List XmlEvent) := do
  let arcs ← patchArcs net names (fun p => arcName (t.key names) p) t.outgoing
  return arcs.flatMap (fun x => element "arc" [("id", x.1), ("target", x.2), ("source", t.key names)] [])

/-- `write_arcs`, pnml_serialization.rs:138-152. -/
def writeArcs (it : Iter) (net : Net) (names : Bool) : Option (List XmlEvent) := do
  let parts ← (orderedTransitions it 1 net).mapM (fun t => do
    return (← writeIncoming net names t) ++ (← writeOutgoing net names t))
  return parts.flatten

/-- `serialize_to_pnml`, pnml_serialization.rs:41-65. -/
def writePnml (it : Iter) (net : Net) (names : Bool) : Option (List XmlEvent) := do
  let arcs ← writeArcs it net names
  return element "pnml" [] (element "net" [] (writePlaces it net names ++ writeTransitions it net names ++ arcs))

end Ficus.Rs
