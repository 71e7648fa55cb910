import Verif.Model.Classes
import Verif.Model.Nets

/-! Model of the graph of event classes: patterns_graph_parts.py:113-159 with `build_graph` and
`default_node_name_creator` of patterns_graphs.py. -/

namespace Ficus
variable {E : Type}

mutual
/-- A node of the class tree as `build_graph` sees it: `default_node_name_creator`, patterns_graphs.py:184-185, gives
its name. -/
def classNameTree : ClassNode → NameTree
  | .node n cs => .node n (classNameTrees cs)
/-- `classNameTree` for a list of nodes. -/
def classNameTrees : List ClassNode → List NameTree
  | [] => []
  | t :: ts => classNameTree t :: classNameTrees ts
end

/-- The graph that `BuildEventClassTree`, patterns_graph_parts.py:113-119, followed by `BuildEventClassGraph`, 144-159 (or
`DrawEventClassTree`, 122-141, that draws the same graph), gives, without the attributes that
`graph_attributes_setter` sets. -/
def classGraph [HasName E] (setOrder : List String → List String) (log : Log E) (extractors : List (String → String))
    (addRoot : Bool) : List DotStmt :=
  buildGraph (classNameTrees (buildClassTree setOrder log extractors)) addRoot

end Ficus
