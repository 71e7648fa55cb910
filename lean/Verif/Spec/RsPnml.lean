import Verif.Model.RsPnml
import Verif.Spec.RsNet

/-! Specification of the documents that Petri nets are written to. -/

namespace Ficus.Spec
open Ficus Ficus.Rs

/-- A document: elements inside of elements, and texts. -/
inductive Xml
  | elem (tag : String) (attrs : List (String × String)) (content : List Xml)
  | text (content : String)

mutual
/-- The events of a document: the start of an element, those of its content, and its end. -/
def Xml.events : Xml → List XmlEvent
  | .elem tag attrs content => .start tag attrs :: (Xml.eventsAll content ++ [.stop tag])
  | .text content => [.text content]
def Xml.eventsAll : List Xml → List XmlEvent
  | [] => []
  | x :: xs => x.events ++ Xml.eventsAll xs
end

/-- What stands for a place, by its name or by its identifier. -/
def placeKey (names : Bool) (net : Net) (id : Nat) : String :=
  if names then ((net.places.find? (fun p => p.id = id)).map Place.name).getD "" else toString id

/-- What stands for a transition. -/
def transKey (names : Bool) (t : Trans) : String := if names then t.name else toString t.id

def placeXml (names : Bool) (p : Place) : Xml := .elem "place" [("id", if names then p.name else toString p.id)] []

def transXml (names : Bool) (t : Trans) : Xml :=
  .elem "transition" [("id", transKey names t)] [.elem "name" [] [.elem "text" [] [.text t.name]]]

/-- An arc from a place to a transition. -/
def inXml (names : Bool) (net : Net) (t : Trans) (a : Arc) : Xml :=
  .elem "arc" [("id", if names then "[{" ++ placeKey names net a.place ++ "}--{" ++ transKey names t ++ "}]" else toString a.id),
    ("source", placeKey names net a.place), ("target", transKey names t)] []

/-- An arc from a transition to a place. -/
def outXml (names : Bool) (net : Net) (t : Trans) (a : Arc) : Xml :=
  .elem "arc" [("id", if names then "[{" ++ transKey names t ++ "}--{" ++ placeKey names net a.place ++ "}]" else toString a.id),
    ("target", placeKey names net a.place), ("source", transKey names t)] []

/-- The arcs of a transition as they stand in a document: identifier, source and target. -/
def arcKeys (names : Bool) (net : Net) (t : Trans) : List (String × String × String) :=
  t.incoming.map (fun a => (if names then "[{" ++ placeKey names net a.place ++ "}--{" ++ transKey names t ++ "}]" else toString a.id,
    placeKey names net a.place, transKey names t)) ++
  t.outgoing.map (fun a => (if names then "[{" ++ transKey names t ++ "}--{" ++ placeKey names net a.place ++ "}]" else toString a.id,
    transKey names t, placeKey names net a.place))

/-- Every arc begins or ends at a place of the net. -/
def ArcsClosed (net : Net) : Prop := ∀ t ∈ net.transitions, ∀ a ∈ t.incoming ++ t.outgoing, ∃ p ∈ net.places, p.id = a.place

/-- The value of an attribute. -/
def attr (name : String) (attrs : List (String × String)) : String := ((attrs.find? (fun a => a.1 = name)).map Prod.snd).getD ""

/-- The value of an attribute of all elements with a tag. -/
def attrsOf (tag name : String) (doc : List XmlEvent) : List String :=
  doc.filterMap (fun e => match e with | .start t attrs => if t = tag then some (attr name attrs) else none | _ => none)

/-- The texts in a document. -/
def textsOf (doc : List XmlEvent) : List String := doc.filterMap (fun e => match e with | .text x => some x | _ => none)

/-- What a reader of a document finds: the places, -/
def readPlaces (doc : List XmlEvent) : List String := attrsOf "place" "id" doc

/-- the transitions with their labels -/
def readTransitions (doc : List XmlEvent) : List (String × String) := (attrsOf "transition" "id" doc).zip (textsOf doc)

/-- and the arcs: identifier, source and target. -/
def readArcs (doc : List XmlEvent) : List (String × String × String) :=
  (attrsOf "arc" "id" doc).zip ((attrsOf "arc" "source" doc).zip (attrsOf "arc" "target" doc))

/-- All identifiers of a document. -/
def idsOf (doc : List XmlEvent) : List String := attrsOf "place" "id" doc ++ attrsOf "transition" "id" doc ++ attrsOf "arc" "id" doc

/-- The arcs of a net: identifier, whether it leads to the transition, place and transition. -/
def arcsOf (net : Net) : List (Nat × Bool × Nat × Nat) :=
  net.transitions.flatMap (fun t => t.incoming.map (fun a => (a.id, true, a.place, t.id)) ++ t.outgoing.map (fun a => (a.id, false, a.place, t.id)))

/-- The arcs of a net by names: whether it leads to the transition, the name of the place and the name of the transition. -/
def namedArcs (net : Net) : List (Bool × String × String) :=
  net.transitions.flatMap (fun t => t.incoming.map (fun a => (true, placeKey true net a.place, t.name)) ++
    t.outgoing.map (fun a => (false, placeKey true net a.place, t.name)))

/-- The nets are the same but for identifiers: as many places of each name, as many transitions of each name, and as many arcs of
each direction between each name of a place and each name of a transition. -/
structure SameByNames (m n : Net) : Prop where
  places : (m.places.map Place.name).Perm (n.places.map Place.name)
  transitions : (m.transitions.map Trans.name).Perm (n.transitions.map Trans.name)
  arcs : (namedArcs m).Perm (namedArcs n)

end Ficus.Spec
