import Verif.Spec.AttrTree
import Verif.Model.Schedule

/-!
# Specification of the evaluation of a tree

What executing the visit sequences on a tree does: an equation can be evaluated only when everything it uses has been computed.
-/

namespace Verif.Spec.Evaluate
open Verif.Induce Verif.Spec.Induce Verif.Spec.AttrTree Verif.Schedule Verif.Visits

/-- The attributes of a tree that have been computed. -/
abbrev Values := Vertex → Prop

/-- The part for the subtree `c`. -/
def part (c : Nat) (K : Values) : Values := fun v => K (c :: v.1, v.2)

/-- The part for the subtree `c` is replaced. -/
def replace (c : Nat) (B K : Values) : Values := fun v =>
  match v.1 with
  | [] => K v
  | d :: path => if d = c then B (path, v.2) else K v

/-- The equation of `n` for the place `x` is one of its equations. -/
def For (n : INode) (x : Place) (q : Eqn) : Prop := q ∈ n.eqs ∧ place n q.rule = x

mutual
/-- The visit `k` of the root of a tree is executed. -/
inductive Visited (P : Plan) : Tree → Nat → Values → Values → Prop where
  | node {n kids k seqs seq K K'} : P.seqs n.addr = some seqs → seqs[k]? = some seq → Done P n kids seq K K' →
      Visited P (.node n kids) k K K'
/-- The elements of a sequence are executed at a node.  The node has an equation for the attribute, what the equation uses has
been computed, and the attribute has not.  Nothing is done for a missing child, and for a child that is of a type without this
visit. -/
inductive Done (P : Plan) : INode → (Nat → Tree) → List Act → Values → Values → Prop where
  | nil {n kids K} : Done P n kids [] K K
  | eval {n kids x rest K K'} : (∃ q, For n x q) →
      (∀ q, For n x q → ∀ d ∈ q.args, (d.attr.inh ∨ d.attr.syn) → ∀ u, Means n kids d u → K u) →
      (∀ q, For n x q → ∀ v, Means n kids q.rule v → ¬ K v) →
      Done P n kids rest (fun v => K v ∨ ∃ q, For n x q ∧ Means n kids q.rule v) K' →
      Done P n kids (.eval x :: rest) K K'
  | missing {n kids c k alts rest K K'} : kids c = .null → Done P n kids rest K K' →
      Done P n kids (.visit c k alts :: rest) K K'
  | skip {n kids c k alts rest K K' m ks} : kids c = .node m ks → alts.lookup m.addr = some none →
      Done P n kids rest K K' → Done P n kids (.visit c k alts :: rest) K K'
  | visit {n kids c k alts rest K K' m ks j B} : kids c = .node m ks → alts.lookup m.addr = some (some j) →
      Visited P (.node m ks) j (part c K) B → Done P n kids rest (replace c B K) K' →
      Done P n kids (.visit c k alts :: rest) K K'
end

/-- All visits from `k` on are executed one after the other, `r` of them. -/
inductive AllVisited (P : Plan) (T : Tree) : Nat → Nat → Values → Values → Prop where
  | done {k K} : AllVisited P T k 0 K K
  | more {k r K K' K''} : Visited P T k K K' → AllVisited P T (k + 1) r K' K'' → AllVisited P T k (r + 1) K K''

/-- The attributes of a tree that are to be computed. -/
inductive InTree : Tree → Vertex → Prop where
  | root {n kids x} : x ∈ n.attrs → (x.inh ∨ x.syn) → InTree (.node n kids) ([], x.addr)
  | deeper {n kids c v} : c ∈ n.children → InTree (kids c.addr) v → InTree (.node n kids) (c.addr :: v.1, v.2)

/-- The inherited attributes of the root, which are given. -/
def given : Tree → Values
  | .null, _ => False
  | .node n _, v => v.1 = [] ∧ ∃ x ∈ n.attrs, x.inh = true ∧ x.addr = v.2

/-- The number of visits of a tree. -/
def numVisits (P : Plan) : Tree → Nat
  | .null => 0
  | .node n _ => ((P.visits n.addr).getD []).length

/-- All visits of the root are executed, starting with its inherited attributes, and in the end all attributes of the tree
have been computed. -/
def Evaluates (P : Plan) (T : Tree) : Prop :=
  ∃ K, AllVisited P T 0 (numVisits P T) (given T) K ∧ ∀ v, InTree T v → K v

/-- What the earlier checks establish about attributes and equations (besides `Checked`). -/
structure Equipped (S : Spec) : Prop where
  /-- Different attributes have different addresses. -/
  addrs : ((attributes S).map (·.addr)).Nodup
  /-- No attribute is inherited and synthesized. -/
  kinds : ∀ a ∈ attributes S, ¬ (a.inh = true ∧ a.syn = true)
  /-- There are equations for the synthesized attributes of a node, and for the inherited attributes of its children. -/
  own : ∀ n ∈ S.nodes, ∀ a ∈ n.attrs, a.syn = true → ∃ q, For n (n.addr, a.addr) q
  child : ∀ n ∈ S.nodes, ∀ c ∈ n.children,
    (∀ m ∈ S.nodes, m.addr = c.type → ∀ a ∈ m.attrs, a.inh = true → ∃ q, For n (c.addr, a.addr) q) ∧
    (∀ s ∈ S.sets, s.addr = c.type → ∀ a ∈ s.attrs, a.inh = true → ∃ q, For n (c.addr, a.addr) q)

/-- The attribute `b` of the member `m` is the attribute `a` of the nodeset `s`. -/
def Same (s : NSet) (m : INode) (a b : Nat) : Prop :=
  ∃ x ∈ s.attrs, ∃ y ∈ m.attrs, x.addr = a ∧ y.addr = b ∧ x.name = y.name

/-- The visits of the members of nodesets fit those of the nodeset: they are not more; what comes into a visit of a member has
come into this or an earlier visit of the nodeset; and what goes out of a visit of the nodeset has gone out of this or an
earlier visit of the member. -/
def Agree (S : Spec) (P : Plan) : Prop :=
  ∀ s ∈ S.sets, ∀ m ∈ s.members, ∀ (vs ws : List AVisit), P.visits s.addr = some vs → P.visits m.addr = some ws →
    ws.length ≤ vs.length ∧
    (∀ (k : Nat) (w : AVisit), ws[k]? = some w → ∀ b ∈ w.inputs, ∃ (j : Nat) (v : AVisit), j ≤ k ∧ vs[j]? = some v ∧ ∃ a ∈ v.inputs, Same s m a b) ∧
    (∀ (k : Nat) (v : AVisit), vs[k]? = some v → ∀ a ∈ v.outputs, ∃ (j : Nat) (w : AVisit), j ≤ k ∧ ws[j]? = some w ∧ ∃ b ∈ w.outputs, Same s m a b)

/-- No sequence evaluates an inherited attribute of its node. -/
def NoInherited (S : Spec) (P : Plan) : Prop :=
  ∀ n ∈ S.nodes, ∀ seqs, P.seqs n.addr = some seqs → ∀ seq ∈ seqs, ∀ a ∈ n.attrs, a.inh = true →
    .eval (n.addr, a.addr) ∉ seq

/-- The nodesets that are types of children have members. -/
def Filled (S : Spec) : Prop := ∀ n ∈ S.nodes, ∀ c ∈ n.children, ∀ s ∈ S.sets, s.addr = c.type → s.members ≠ []

/-- No inherited attribute depends on a synthesized attribute of the same node or child. -/
def OneVisit (S : Spec) : Prop :=
  ∀ p o, ∀ x ∈ attributes S, ∀ y ∈ attributes S, x.syn = true → y.inh = true → ¬ Dep S p (o, x.addr) (o, y.addr)

/-- Inherited attributes are computed from inherited attributes only. -/
def TopDown (S : Spec) : Prop := ∀ n ∈ S.nodes, ∀ q ∈ n.eqs, q.rule.attr.inh = true → ∀ d ∈ q.args, d.attr.syn = false

/-- The nodesets have the inherited attributes of their members. -/
def Covers (S : Spec) : Prop :=
  ∀ s ∈ S.sets, ∀ m ∈ s.members, ∀ b ∈ m.attrs, b.inh = true → ∃ a ∈ s.attrs, a.inh = true ∧ a.name = b.name

end Verif.Spec.Evaluate
