import Verif.Model.Py

/-! Model of the graphs and Petri nets that arrive from the backend, grpc_pipelines/context_values.py:155-215 and 247-255,
and of their drawing, legacy/discovery/petri_net.py and legacy/discovery/graph.py, with the callbacks of
grpc_pipelines/discovery_parts.py:124-131, 149-157 and 205-216; and of the drawing of activity and event class trees,
legacy/analysis/patterns/patterns_graphs.py:207-237. -/

namespace Ficus

/-! ### Messages -/

/-- `GrpcPetriNetPlace`, protos/pm_models.proto:53-56. Simplification: the bounds of `int64` are left out. -/
structure GPlace where
  id : Int
  name : String
  deriving DecidableEq

/-- `GrpcPetriNetArc`, pm_models.proto:65-69. -/
structure GArc where
  id : Int
  placeId : Int
  tokens : Int
  deriving DecidableEq

/-- `GrpcPetriNetTransition`, pm_models.proto:58-63. -/
structure GTransition where
  id : Int
  incoming : List GArc
  outgoing : List GArc
  data : String
  deriving DecidableEq

/-- `GrpcPetriNetSinglePlaceMarking`, pm_models.proto:75-78. -/
structure GSingle where
  placeId : Int
  tokens : Int
  deriving DecidableEq

/-- `GrpcPetriNet`, pm_models.proto:46-51. The two markings are message fields and may be unset. -/
structure GNet where
  places : List GPlace
  transitions : List GTransition
  initial : Option (List GSingle)
  final : Option (List GSingle)
  deriving DecidableEq

/-- Reading an unset message field gives the default message (python protobuf), never `None`. -/
def readField (m : Option (List GSingle)) : List GSingle := m.getD []

/-! ### Objects -/

/-- `Place`, petri_net.py:18-21. -/
structure Place where
  id : Int
  name : String
  deriving DecidableEq

/-- `Arc`, petri_net.py:32-36. -/
structure Arc where
  id : Int
  placeId : Int
  tokens : Int
  deriving DecidableEq

/-- `Transition`, petri_net.py:24-29. -/
structure Transition where
  id : Int
  incoming : List Arc
  outgoing : List Arc
  data : Option String
  deriving DecidableEq

/-- `SinglePlaceMarking`, petri_net.py:44-47. -/
structure SingleMarking where
  placeId : Int
  tokens : Int
  deriving DecidableEq

/-- `PetriNet`, petri_net.py:10-15. -/
structure Net where
  places : Dict Int Place
  transitions : Dict Int Transition
  initial : Option (List SingleMarking)
  final : Option (List SingleMarking)
  deriving DecidableEq

/-- `from_grpc_petri_net_place`, context_values.py:171-172. -/
def fromGrpcPlace (p : GPlace) : Place := { id := p.id, name := p.name }

/-- `from_grpc_arc`, context_values.py:187-188. -/
def fromGrpcArc (a : GArc) : Arc := { id := a.id, placeId := a.placeId, tokens := a.tokens }

/-- `from_grpc_transition`, context_values.py:175-184. -/
def fromGrpcTransition (t : GTransition) : Transition :=
  { id := t.id, incoming := t.incoming.map fromGrpcArc, outgoing := t.outgoing.map fromGrpcArc, data := some t.data }

/-- `from_grpc_single_marking`, context_values.py:198-199. -/
def fromGrpcSingle (m : GSingle) : SingleMarking := { placeId := m.placeId, tokens := m.tokens }

/-- `try_from_grpc_marking`, context_values.py:191-195. -/
def tryFromGrpcMarking (m : Option (List GSingle)) : Option (List SingleMarking) :=
  match m with
  | none => none
  | some ms => some (ms.map fromGrpcSingle)

/-- `from_grpc_petri_net`, context_values.py:155-168. -/
def fromGrpcNet (g : GNet) : Net :=
  { places := g.places.foldl (fun d p => d.set (fromGrpcPlace p).id (fromGrpcPlace p)) []
    transitions := g.transitions.foldl (fun d t => d.set (fromGrpcTransition t).id (fromGrpcTransition t)) []
    initial := tryFromGrpcMarking (some (readField g.initial))
    final := tryFromGrpcMarking (some (readField g.final)) }

/-- `from_grpc_count_annotation`, context_values.py:202-207: pairs of `entityId` and `count`. -/
def fromCountAnnotation (l : List (Int × Int)) : Dict Int String :=
  l.foldl (fun d a => d.set a.1 (toString a.2)) []

/-- `from_grpc_frequency_annotation`, context_values.py:210-215; `showFloat` stands for `str` of a float. -/
def fromFrequencyAnnotation {F : Type} (showFloat : F → String) (l : List (Int × F)) : Dict Int String :=
  l.foldl (fun d a => d.set a.1 (showFloat a.2)) []

/-! ### Graphs of the library `graphviz` -/

/-- The statements of a `graphviz.Digraph`, an external library, in the order of their addition. A label `none` is a
label that is not given. Of the further attributes only the shape is kept. -/
inductive DotStmt
  | node (name : String) (label shape : Option String)
  | edge (tail head : String) (label : Option String)
  deriving DecidableEq

/-- The node that the library takes from an end of an edge: what follows a colon is a port of the node. -/
def endNode (s : String) : String := String.ofList (s.toList.takeWhile (fun c => decide (c ≠ ':')))

/-- `g.edge(tail, head, label)` of the library. -/
def dotEdge (tail head : String) (label : Option String) : DotStmt := .edge (endNode tail) (endNode head) label

/-! ### Drawing -/

/-- `initial_marking_places` and `final_marking_places`, petri_net.py:89-97. -/
def markedPlaces (m : Option (List SingleMarking)) : List Int :=
  match m with
  | none => []
  | some ms => ms.map (·.placeId)

/-- The node of a place, petri_net.py:99-106. -/
def drawPlace (showNames : Bool) (initial final : List Int) (p : Place) : DotStmt :=
  if p.id ∈ initial then .node (toString p.id) (some "<&#9679;>") (some "circle")
  else if p.id ∈ final then .node (toString p.id) (some "<&#9679;>") (some "doublecircle")
  else .node (toString p.id) (some (if showNames then p.name else "")) (some "circle")

/-- The label of an arc, petri_net.py:113 and 117. -/
def arcLabel (annotation : Option (Dict Int String)) (a : Arc) : String :=
  match annotation with
  | none => ""
  | some d => if d.contains a.id then (d.get? a.id).getD "" else ""

/-- The edges of a transition, petri_net.py:111-118. -/
def drawArcs (annotation : Option (Dict Int String)) (t : Transition) : List DotStmt :=
  t.incoming.map (fun a => dotEdge (toString a.placeId) (toString t.id) (some (arcLabel annotation a))) ++
  t.outgoing.map (fun a => dotEdge (toString t.id) (toString a.placeId) (some (arcLabel annotation a)))

/-- `draw_func` of `draw_petri_net`, petri_net.py:88-118. -/
def drawNet (net : Net) (showNames : Bool) (annotation : Option (Dict Int String)) : List DotStmt :=
  (net.places.map (fun kv => drawPlace showNames (markedPlaces net.initial) (markedPlaces net.final) kv.2)) ++
  (net.transitions.map (fun kv => DotStmt.node (toString kv.2.id) kv.2.data (some "box"))) ++
  (net.transitions.map (fun kv => drawArcs annotation kv.2)).flatten

/-- `ViewPetriNet2.execute_callback`, discovery_parts.py:149-157, and `AnnotatePetriNet2.execute_callback`, 205-216: what
is drawn for the net of the message. -/
def viewNet (g : GNet) (showNames : Bool) (annotation : Option (Dict Int String)) : List DotStmt :=
  drawNet (fromGrpcNet g) showNames annotation

/-- `GrpcGraph`, protos/pipelines_and_context.proto:144-158: nodes (identifier and data) and edges (from, to and data).
Also `Graph`, graph.py:8-22, to which `from_grpc_graph` (context_values.py:247-255) copies node by node and edge by
edge. -/
structure NGraph where
  nodes : List (Nat × String)
  edges : List (Nat × Nat × String)
  deriving DecidableEq

/-- `from_grpc_graph`, context_values.py:247-255. -/
def fromGrpcGraph (g : NGraph) : NGraph :=
  { nodes := g.nodes.foldl (fun acc n => acc ++ [(n.1, n.2)]) []
    edges := g.edges.foldl (fun acc e => acc ++ [(e.1, e.2.1, e.2.2)]) [] }

/-- `draw_func` of `draw_graph`, graph.py:30-35. -/
def drawGraph (g : NGraph) : List DotStmt :=
  g.nodes.map (fun n => DotStmt.node (toString n.1) (some n.2) (some "circle")) ++
  g.edges.map (fun e => dotEdge (toString e.1) (toString e.2.1) (some e.2.2))

/-- `ViewGraphLikeFormalismPart2.execute_callback`, discovery_parts.py:124-131. -/
def viewGraph (g : NGraph) : List DotStmt := drawGraph (fromGrpcGraph g)

/-! ### Trees of activities and event classes -/

/-- `GraphNode`, common_models.py:4-7, with the name that `node_name_creator` gives to it. -/
inductive NameTree
  | node (name : String) (children : List NameTree)

/-- The name of a node. -/
def NameTree.name : NameTree → String
  | .node n _ => n

/-- The children of a node. -/
def NameTree.children : NameTree → List NameTree
  | .node _ cs => cs

/-- The variables of `build_graph`, patterns_graphs.py:212-213: `added_names` and the statements of the graph. -/
structure BuildState where
  added : List String
  stmts : List DotStmt
  deriving DecidableEq

/-- The edge to the parent, patterns_graphs.py:218-219 and 225-226. -/
def edgeToParent (name : String) (parent : Option String) : List DotStmt :=
  match parent with
  | none => []
  | some p => [dotEdge name p none]

mutual
/-- `add_node`, patterns_graphs.py:215-230. -/
def addNode (parent : Option String) : NameTree → BuildState → BuildState
  | .node name cs, st =>
    if name ∈ st.added then { st with stmts := st.stmts ++ edgeToParent name parent }
    else addNodes (some name) cs
      { added := st.added ++ [name], stmts := st.stmts ++ edgeToParent name parent ++ [.node name none none] }
/-- The loops over children, patterns_graphs.py:229-230, and over the top level nodes, 233-234. -/
def addNodes (parent : Option String) : List NameTree → BuildState → BuildState
  | [], st => st
  | t :: ts, st => addNodes parent ts (addNode parent t st)
end

/-- `build_graph`, patterns_graphs.py:207-237, without the attributes that `set_attributes_to_func` sets. -/
def buildGraph (nodes : List NameTree) (addRoot : Bool) : List DotStmt :=
  (addNodes (if addRoot then some "root" else none) nodes { added := [], stmts := [] }).stmts

end Ficus
