import Verif.Model.Induce
import Verif.Spec.Graph

/-!
# Specification of the dependencies between attributes

What depends on what, over all productions of a grammar: independent of graphs, lists and rounds.
-/

namespace Verif.Spec.Induce
open Verif.Induce Verif.Graph Verif.Spec.Graph

/-- The productions of a grammar: a node type with its children, and a nodeset being one of its members. -/
inductive Production where
  | node (n : INode)
  | member (s : NSet) (m : INode)

/-- The production is one of the grammar. -/
def Production.In (S : Spec) : Production → Prop
  | .node n => n ∈ S.nodes
  | .member s m => s ∈ S.sets ∧ m ∈ s.members

/-- `a` is the address of an attribute that is computed by equations, of the type `t`. -/
def AttrOf (S : Spec) (t a : Nat) : Prop :=
  (∃ n ∈ S.nodes, n.addr = t ∧ ∃ x ∈ n.attrs, (x.inh ∨ x.syn) ∧ x.addr = a) ∨
  (∃ s ∈ S.sets, s.addr = t ∧ ∃ x ∈ s.attrs, (x.inh ∨ x.syn) ∧ x.addr = a)

/-- `o` occurs in the production, with type `t`. -/
def Production.Sym : Production → Nat → Nat → Prop
  | .node n, o, t => (o = n.addr ∧ t = n.addr) ∨ ∃ c ∈ n.children, c.addr = o ∧ c.type = t
  | .member s m, o, t => (o = s.addr ∧ t = s.addr) ∨ (o = m.addr ∧ t = m.addr)

/-- `o` occurs in the production with type `t`, and the production is about its attribute `a`.  Of the member of a nodeset
these are the attributes that the nodeset has as well. -/
def Production.Has (S : Spec) : Production → Nat → Nat → Nat → Prop
  | .node n, o, t, a => (Production.node n).Sym o t ∧ AttrOf S t a
  | .member s m, o, t, a => (o = s.addr ∧ t = s.addr ∧ ∃ x ∈ s.attrs, (x.inh ∨ x.syn) ∧ x.addr = a) ∨
      (o = m.addr ∧ t = m.addr ∧ ∃ x ∈ s.attrs, (x.inh ∨ x.syn) ∧ ∃ y ∈ m.attrs, y.name = x.name ∧ y.addr = a)

/-- The place a reference in node `n` stands for. -/
def place (n : INode) (r : Ref) : Place := (r.child.getD n.addr, r.attr.addr)

/-- What a production says directly: an equation uses its arguments; a nodeset hands its inherited attributes to the member,
and gets its synthesized attributes from the member. -/
inductive Direct : Production → Place → Place → Prop where
  | eqn {n e d} : e ∈ n.eqs → d ∈ e.args → (d.attr.inh ∨ d.attr.syn) → Direct (.node n) (place n d) (place n e.rule)
  | down {s m a b} : a ∈ s.attrs → a.inh = true → b ∈ m.attrs → b.name = a.name →
      Direct (.member s m) (s.addr, a.addr) (m.addr, b.addr)
  | up {s m a b} : a ∈ s.attrs → a.syn = true → b ∈ m.attrs → b.name = a.name →
      Direct (.member s m) (m.addr, b.addr) (s.addr, a.addr)

/-- What depends on what in a production, when it may be used in any tree: what is said directly, through other attributes,
and what holds in any production between two attributes of a type holds wherever the type occurs. -/
inductive Dep (S : Spec) : Production → Place → Place → Prop where
  | direct {p x y} : p.In S → Direct p x y → Dep S p x y
  | trans {p x y z} : Dep S p x y → Dep S p y z → Dep S p x z
  | induced {p q o o' t a b} : Dep S p (o, a) (o, b) → p.Sym o t → q.In S → q.Has S o' t a → q.Has S o' t b →
      Dep S q (o', a) (o', b)

/-- Some attribute depends on itself. -/
def Circular (S : Spec) : Prop := ∃ p x, Dep S p x x

/-- The graph has an edge between these places. -/
def EdgeP (g : Graph) (x y : Place) : Prop :=
  ∃ i j, g.nodes[i]? = some x ∧ g.nodes[j]? = some y ∧ Edge g i j

/-- `g` is the graph of a production in the table of graphs. -/
def GraphIn (T : List (Nat × List Graph)) : Production → Graph → Prop
  | .node n, g => (n.addr, [g]) ∈ T
  | .member s m, g => ∃ gs, (s.addr, gs) ∈ T ∧ (m, g) ∈ s.members.reverse.zip gs

/-- The dependencies written in the equations of a node. -/
def deps (n : INode) : List PEdge :=
  n.eqs.flatMap fun e => (e.args.filter fun d => d.attr.inh || d.attr.syn).map fun d => (place n d, place n e.rule)

/-- The reference is to an attribute of the node, or of the type of one of its children. -/
def Resolved (S : Spec) (n : INode) (r : Ref) : Prop :=
  match r.child with
  | none => r.attr ∈ n.attrs
  | some c => ∃ ch ∈ n.children, ch.addr = c ∧
      ((∃ m ∈ S.nodes, m.addr = ch.type ∧ r.attr ∈ m.attrs) ∨ (∃ s ∈ S.sets, s.addr = ch.type ∧ r.attr ∈ s.attrs))

/-- Rules are for synthesized attributes of the node and inherited attributes of children. -/
def RuleKind (r : Ref) : Prop :=
  match r.child with
  | none => r.attr.syn = true
  | some _ => r.attr.inh = true

/-- What the earlier checks establish about a specification. -/
structure Checked (S : Spec) : Prop where
  /-- Different AST nodes have different addresses. -/
  distinct : (S.nodes.map (·.addr) ++ S.sets.map (·.addr) ++ (S.nodes.flatMap (·.children)).map (·.addr)).Nodup
  /-- So have the attributes of a type. -/
  nodeAttrs : ∀ n ∈ S.nodes, (n.attrs.map (·.addr)).Nodup
  setAttrs : ∀ s ∈ S.sets, (s.attrs.map (·.addr)).Nodup
  /-- The attributes of a type have different names. -/
  names : ∀ n ∈ S.nodes, (n.attrs.map (·.name)).Nodup
  setNames : ∀ s ∈ S.sets, (s.attrs.map (·.name)).Nodup
  /-- Children have declared types. -/
  types : ∀ n ∈ S.nodes, ∀ c ∈ n.children, c.type ∈ S.nodes.map (·.addr) ++ S.sets.map (·.addr)
  /-- Members of nodesets are nodes. -/
  members : ∀ s ∈ S.sets, ∀ m ∈ s.members, m ∈ S.nodes
  /-- They have the attributes of the nodeset, of the same kind, as own attributes. -/
  equivalent : ∀ s ∈ S.sets, ∀ m ∈ s.members, ∀ a ∈ s.attrs, (a.inh ∨ a.syn) →
    ∃ b ∈ m.attrs, b.name = a.name ∧ b.inh = a.inh ∧ b.syn = a.syn
  own : ∀ s ∈ S.sets, ∀ m ∈ s.members, ∀ a ∈ s.attrs, ∀ b ∈ m.attrs, a.addr ≠ b.addr
  /-- References are resolved, and rules are for attributes of the right kind. -/
  rules : ∀ n ∈ S.nodes, ∀ e ∈ n.eqs, Resolved S n e.rule ∧ RuleKind e.rule
  args : ∀ n ∈ S.nodes, ∀ e ∈ n.eqs, ∀ d ∈ e.args, (d.attr.inh ∨ d.attr.syn) → Resolved S n d

/-- And what they do not check: no equation uses an attribute twice or for itself. -/
structure SpecOk (S : Spec) : Prop extends Checked S where
  /-- No dependency is written twice, and none is of an attribute on itself. -/
  once : ∀ n ∈ S.nodes, (deps n).Nodup
  noSelf : ∀ n ∈ S.nodes, ∀ e ∈ deps n, e.1 ≠ e.2

end Verif.Spec.Induce
