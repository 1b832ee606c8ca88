import Verif.Model.CheckExist
import Verif.Spec.Ids

/-!
# Specification of the check of references

What the names of a specification have to stand for, in terms of what the specification declares.
-/

namespace Verif.Spec.CheckExist
open Verif.Str Verif.Ids Verif.Grammar Verif.CheckExist Verif.Spec.Str Verif.Spec.Ids

/-- The name stands for something of this kind. -/
def Denotes (p : Prog) (n : Id) (k : Kind) : Prop :=
  ∃ x ∈ declared p.ids, SameName x.1.orig n.orig ∧ x.2.kind = k

/-- The words that cannot be unique ids. -/
def uidWords : List CStr := ["TRAV", "TRV", "CCN", "PASS", "CPY", "CHK", "DEL", "EVAL"].map fun s => s.toUTF8.toList

/-- The words that cannot be prefixes of enums. -/
def prefixWords : List CStr := ["NT", "NS", "TRAV", "PASS", "CCN"].map fun s => s.toUTF8.toList

/-- The name is one of the words, in any letter case. -/
def Reserved (words : List CStr) (n : Id) : Prop := ∃ w ∈ words, n.orig.map upperB = w

/-- No two names in the list are the same. -/
def Distinct (l : List Id) : Prop := l.Pairwise fun a b => ¬ SameName a.orig b.orig

/-- The type of an attribute or of traversal data: if it is a name, the name of a node, nodeset or enum. -/
def AttrOk (p : Prog) (a : Attr) : Prop :=
  a.type = .linkOrEnum → ∀ r ∈ a.ref, Denotes p r .node ∨ Denotes p r .nodeset ∨ Denotes p r .enum

/-- The type of a child is a node or nodeset. -/
def ChildOk (p : Prog) (c : Child) : Prop := ∀ r ∈ c.ref, Denotes p r .node ∨ Denotes p r .nodeset

/-- The names in literals are nodes, the others are nodesets. -/
def ExprOk (p : Prog) : Expr → Prop
  | .lit names => ∀ n ∈ names, Denotes p n .node
  | .ref n => Denotes p n .nodeset
  | .op _ l r => ExprOk p l ∧ ExprOk p r

/-- The check passes: all references are right and there are no clashes. -/
structure Sound (p : Prog) : Prop where
  /-- actions exist -/
  actions : ∀ x ∈ p.phases, ∀ a ∈ x.actions, ∃ k, Denotes p a k
  /-- at most one phase is the first -/
  start : (p.phases.filter (·.isStart)).length ≤ 1
  /-- unique ids are not reserved -/
  phaseUids : ∀ x ∈ p.phases, ∀ u ∈ x.uid, ¬ Reserved uidWords u
  travUids : ∀ x ∈ p.traversals, ∀ u ∈ x.uid, ¬ Reserved uidWords u
  passUids : ∀ x ∈ p.passes, ∀ u ∈ x.uid, ¬ Reserved uidWords u
  /-- the nodes of traversals -/
  travNodes : ∀ x ∈ p.traversals, ∀ e ∈ x.nodes, ExprOk p e
  /-- the data of traversals -/
  travData : ∀ x ∈ p.traversals, Distinct (x.data.map (·.name)) ∧ ∀ a ∈ x.data, AttrOk p a
  /-- at most one node is the root -/
  root : (p.nodes.filter (·.isRoot)).length ≤ 1
  /-- no node has the name `node` -/
  nodeNames : ∀ x ∈ p.nodes, ¬ SameName x.name.orig "node".toUTF8.toList
  /-- attributes and children of nodes -/
  fields : ∀ x ∈ p.nodes, Distinct (x.attrs.map (·.name) ++ x.children.map (·.name)) ∧
    (∀ a ∈ x.attrs, AttrOk p a) ∧ ∀ c ∈ x.children, ChildOk p c
  /-- attributes of nodesets -/
  setAttrs : ∀ x ∈ p.sets, Distinct (x.attrs.map (·.name)) ∧ ∀ a ∈ x.attrs, AttrOk p a
  /-- the members of nodesets -/
  setExprs : ∀ x ∈ p.sets, ∀ e ∈ x.expr, ExprOk p e
  /-- the prefixes of enums -/
  prefixes : Distinct (p.enums.map (·.uid)) ∧ ∀ x ∈ p.enums, ¬ Reserved prefixWords x.uid

/-- The attribute `a'` is `a` with its type filled in: a link if the type is the name of a node or nodeset. -/
def AttrFilled (p : Prog) (a a' : Attr) : Prop :=
  a'.name = a.name ∧ a'.ref = a.ref ∧
  (a.type ≠ .linkOrEnum → a'.type = a.type) ∧
  (a.type = .linkOrEnum → ∀ r ∈ a.ref,
    (Denotes p r .node ∨ Denotes p r .nodeset → a'.type = .link) ∧ (Denotes p r .enum → a'.type = .linkOrEnum))

/-- The child `c'` is `c` with its type filled in. -/
def ChildFilled (p : Prog) (c c' : Child) : Prop :=
  c'.name = c.name ∧ c'.ref = c.ref ∧
  ∀ r ∈ c.ref, (Denotes p r .node → c'.type = .inode) ∧ (Denotes p r .nodeset → c'.type = .inodeset)

/-- Two lists of the same length whose elements are related. -/
inductive AllPairs {α : Type} (R : α → α → Prop) : List α → List α → Prop where
  | nil : AllPairs R [] []
  | cons {a b : α} {l m : List α} : R a b → AllPairs R l m → AllPairs R (a :: l) (b :: m)

/-- The program with all types filled in and nothing else changed. -/
structure Filled (p q : Prog) : Prop where
  phases : q.phases = p.phases
  passes : q.passes = p.passes
  enums : q.enums = p.enums
  traversals : AllPairs (fun t t' => t'.name = t.name ∧ t'.uid = t.uid ∧ t'.nodes = t.nodes ∧
    AllPairs (AttrFilled p) t.data t'.data) p.traversals q.traversals
  nodes : AllPairs (fun n n' => n'.name = n.name ∧ n'.isRoot = n.isRoot ∧
    AllPairs (AttrFilled p) n.attrs n'.attrs ∧ AllPairs (ChildFilled p) n.children n'.children) p.nodes q.nodes
  sets : AllPairs (fun n n' => n'.name = n.name ∧ n'.expr = n.expr ∧
    AllPairs (AttrFilled p) n.attrs n'.attrs) p.sets q.sets

/-- The names in an expression. -/
def exprIds : Expr → List Id
  | .lit names => names
  | .ref n => [n]
  | .op _ l r => exprIds l ++ exprIds r

/-- All names in the program besides the declared ones. -/
def uses (p : Prog) : List Id :=
  p.phases.flatMap (fun x => x.uid.toList ++ x.actions) ++
  (p.traversals.flatMap (fun x => x.uid.toList ++ (x.nodes.toList.flatMap exprIds ++
    x.data.flatMap (fun a => a.name :: a.ref.toList))) ++
  (p.passes.flatMap (fun x => x.uid.toList) ++
  (p.nodes.flatMap (fun x => x.attrs.flatMap (fun a => a.name :: a.ref.toList) ++
    x.children.flatMap (fun c => c.name :: c.ref.toList)) ++
  (p.sets.flatMap (fun x => x.attrs.flatMap (fun a => a.name :: a.ref.toList) ++ x.expr.toList.flatMap exprIds) ++
  p.enums.map (·.uid)))))

/-- What the parser guarantees: types that are names are there
(`cocogen/frontend/scanAndParse/dsl-parser.y:768-826`, `957-987`, `1176-1193`). -/
structure Parsed (p : Prog) : Prop where
  data : ∀ t ∈ p.traversals, ∀ a ∈ t.data, a.type = .linkOrEnum → a.ref.isSome
  attrs : ∀ n ∈ p.nodes, ∀ a ∈ n.attrs, a.type = .linkOrEnum → a.ref.isSome
  setAttrs : ∀ n ∈ p.sets, ∀ a ∈ n.attrs, a.type = .linkOrEnum → a.ref.isSome
  children : ∀ n ∈ p.nodes, ∀ c ∈ n.children, c.ref.isSome

end Verif.Spec.CheckExist
