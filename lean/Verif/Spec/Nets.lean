import Verif.Model.Nets

/-! Specification vocabulary for drawn graphs. -/

namespace Ficus.Spec

/-- The names of the declared nodes, in order. -/
def nodeNames (l : List DotStmt) : List String :=
  l.filterMap (fun s => match s with | .node n _ _ => some n | .edge _ _ _ => none)

/-- The edges: tail, head and label, in order. -/
def edges (l : List DotStmt) : List (String × String × Option String) :=
  l.filterMap (fun s => match s with | .node _ _ _ => none | .edge t h lab => some (t, h, lab))

/-- Every edge connects declared nodes. -/
def Closed (l : List DotStmt) : Prop := ∀ e ∈ edges l, e.1 ∈ nodeNames l ∧ e.2.1 ∈ nodeNames l

/-- Everything a message says about a net, as nested tuples. -/
def arcTuple (a : GArc) : Int × Int × Int := (a.id, a.placeId, a.tokens)

/-- The same for the object. -/
def arcTuple' (a : Arc) : Int × Int × Int := (a.id, a.placeId, a.tokens)

/-- The last element that has the identifier. -/
def lastWith {A K : Type} [DecidableEq K] (key : A → K) (l : List A) (id : K) : Option A :=
  l.reverse.find? (fun a => key a = id)

/-- The arcs of all transitions refer to places of the net. -/
def ArcsInside (g : GNet) : Prop :=
  ∀ t ∈ g.transitions, ∀ a ∈ t.incoming ++ t.outgoing, a.placeId ∈ g.places.map (·.id)

/-- No identifier is used twice among the places and transitions. -/
def UniqueIds (g : GNet) : Prop := (g.places.map (·.id) ++ g.transitions.map (·.id)).Nodup

mutual
/-- The nodes of a tree. -/
def treeNodes : NameTree → List NameTree
  | .node n cs => .node n cs :: forestNodes cs
/-- The nodes of a forest. -/
def forestNodes : List NameTree → List NameTree
  | [] => []
  | t :: ts => treeNodes t ++ forestNodes ts
end

/-- The pairs of the names of a child and its parent in a forest. -/
def parentPairs (f : List NameTree) : List (String × String) :=
  (forestNodes f).flatMap (fun p => p.children.map (fun c => (c.name, p.name)))

/-- Nodes with the same name have children with the same names. -/
def Consistent (f : List NameTree) : Prop :=
  ∀ u ∈ forestNodes f, ∀ v ∈ forestNodes f, u.name = v.name →
    ∀ c ∈ u.children, c.name ∈ v.children.map NameTree.name

/-- The label that an annotation has for an arc; empty if there is no annotation or none for this arc. -/
def arcText (annotation : Option (Dict Int String)) (id : Int) : String := (annotation.bind (fun d => Dict.get? d id)).getD ""

end Ficus.Spec
