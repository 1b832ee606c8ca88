import Verif.Spec.Induce

/-!
# Specification of attribute dependencies in trees

The trees of a grammar, and which attribute of which node of a tree is used to compute which other.
-/

namespace Verif.Spec.AttrTree
open Verif.Induce Verif.Spec.Induce

/-- A tree: NULL, or a node with a subtree for each child, by the address of the child. -/
inductive Tree where
  | null
  | node (n : INode) (kids : Nat → Tree)

/-- A child of type `t` may be this tree: NULL, a node of that type, or a node of a member of that nodeset. -/
def OfType (S : Spec) (t : Nat) : Tree → Prop
  | .null => True
  | .node m _ => m.addr = t ∨ ∃ s ∈ S.sets, s.addr = t ∧ m ∈ s.members

/-- The trees of a grammar. -/
def Fits (S : Spec) : Tree → Prop
  | .null => True
  | .node n kids => n ∈ S.nodes ∧ ∀ c ∈ n.children, OfType S c.type (kids c.addr) ∧ Fits S (kids c.addr)

/-- An attribute of a node in a tree: the way to the node, by children, and the address of the attribute. -/
abbrev Vertex := List Nat × Nat

/-- What a reference in the node `n` stands for in a tree.  A reference to an attribute of a child is to the attribute of that
name of the node that the child is. -/
inductive Means (n : INode) (kids : Nat → Tree) (r : Ref) : Vertex → Prop where
  | own : r.child = none → Means n kids r ([], r.attr.addr)
  | child {c m k b} : r.child = some c → kids c = .node m k → b ∈ m.attrs → b.name = r.attr.name →
      Means n kids r ([c], b.addr)

/-- The first attribute is used to compute the second, by an equation of one of the nodes of the tree. -/
inductive Uses : Tree → Vertex → Vertex → Prop where
  | here {n kids e d u v} : e ∈ n.eqs → d ∈ e.args → (d.attr.inh ∨ d.attr.syn) → Means n kids d u →
      Means n kids e.rule v → Uses (.node n kids) u v
  | deeper {n kids c u v} : c ∈ n.children → Uses (kids c.addr) u v →
      Uses (.node n kids) (c.addr :: u.1, u.2) (c.addr :: v.1, v.2)

/-- To compute some attribute of the tree its own value is needed. -/
def Tree.Circular (T : Tree) : Prop := ∃ v, Relation.TransGen (Uses T) v v

end Verif.Spec.AttrTree
