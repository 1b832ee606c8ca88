import Verif.Model.DotAg
import Verif.Spec.Templates

/-!
# Specification of the diagrams of dependencies
-/

namespace Verif.Spec.DotAg
open Verif.Str Verif.Graph Verif.DotAg
open Verif.Spec.Templates (Beside)

/-- The edge is to be seen: all but induced ones between different nodes. -/
def Seen (g : Graph) (x y : Nat × Nat) (t : EdgeType) : Prop :=
  ∃ i j, (i, j, t) ∈ g.edges ∧ g.nodes[i]? = some x ∧ g.nodes[j]? = some y ∧ (t = .induced → x.1 = y.1)

/-- The diagram shows the graph: there is a vertex for every attribute of every node, with its name, beside the name and the type of the node, no two
attributes have the same vertex, none is there twice, and the edges are those of the graph. -/
structure Shows (N : Names) (g : Graph) (d : Drawing) (v : Nat × Nat → CStr) : Prop where
  apart : ∀ x ∈ g.nodes, ∀ y ∈ g.nodes, v x = v y → x = y
  vertices : ∀ type name s, (∃ c ∈ d.clusters, c.type = type ∧ c.name = name ∧ s ∈ c.vertices) ↔
    ∃ x ∈ g.nodes, type = (N.type x.1).map (·.orig) ∧ name = (N.name x.1).orig ∧ s = ⟨v x, (N.attr x.2).orig, .absent⟩
  once : ((d.clusters.flatMap (·.vertices)).map (·.id)).Nodup
  edges : ∀ e, e ∈ d.edges ↔ ∃ x y t, Seen g x y t ∧ e = ⟨v x, v y, decide (t = .induced)⟩

/-- A graph as the scheduler makes it: no node twice, and edges between nodes. -/
structure Sound (g : Graph) : Prop where
  nodup : g.nodes.Nodup
  edges : ∀ i j t, (i, j, t) ∈ g.edges → i < g.nodes.length ∧ j < g.nodes.length

/-- Names that the diagram can tell apart: those of different nodes and children, and those of different attributes of one of them, differ in more than
letter case, and no name of a node or child has two underscores in a row or one at its end. -/
structure Legible (N : Names) (g : Graph) : Prop where
  nodes : ∀ x ∈ g.nodes, ∀ y ∈ g.nodes, (N.name x.1).lwr = (N.name y.1).lwr → x.1 = y.1
  attrs : ∀ x ∈ g.nodes, ∀ y ∈ g.nodes, x.1 = y.1 → (N.attr x.2).lwr = (N.attr y.2).lwr → x.2 = y.2
  underscores : ∀ x ∈ g.nodes, ¬ Beside 95 95 ((N.name x.1).lwr ++ [95])

end Verif.Spec.DotAg
