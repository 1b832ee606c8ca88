import Verif.Model.Induce
import Verif.Model.Parse
import Verif.Spec.Str
import Verif.Spec.Graph

/-!
# Specification of what the phase `semantic` hands to the scheduler

A description that was parsed, and a specification as the scheduler reads it, are compared: directly, without the tables and the
passes in between.
-/

namespace Verif.Spec.Semantic
open Verif.Str Verif.Induce
open Verif.Spec.Str (lowerB SameName)
open Verif.Spec.Graph (Path)

/-- Two lists of the same length whose elements are related. -/
inductive Pairs {α β : Type} (R : α → β → Prop) : List α → List β → Prop where
  | nil : Pairs R [] []
  | cons {a : α} {b : β} {l : List α} {m : List β} : R a b → Pairs R l m → Pairs R (a :: l) (b :: m)

/-! ### The meaning of a description -/

/-- The set of names that an expression denotes. -/
inductive Means (A : Parse.Ast) : Parse.SetE → (CStr → Prop) → Prop where
  | lit (names : List Parse.Name) : Means A (.lit names) (fun n => ∃ i ∈ names, SameName i.orig n)
  | ref {n : Parse.Name} {s : Parse.NodeSet} {D : CStr → Prop} : s ∈ A.nodesets → SameName s.name.orig n.orig → Means A s.expr D →
      Means A (.ref n) D
  | union {l r : Parse.SetE} {D E : CStr → Prop} : Means A l D → Means A r E → Means A (.op .iunion l r) (fun n => D n ∨ E n)
  | inter {l r : Parse.SetE} {D E : CStr → Prop} : Means A l D → Means A r E → Means A (.op .intersect l r) (fun n => D n ∧ E n)
  | diff {l r : Parse.SetE} {D E : CStr → Prop} : Means A l D → Means A r E → Means A (.op .difference l r) (fun n => D n ∧ ¬ E n)

/-- The node at position `k` is a member of the nodeset at position `i`. -/
def Member (A : Parse.Ast) (i k : Nat) : Prop :=
  ∃ s n D, A.nodesets[i]? = some s ∧ A.nodes[k]? = some n ∧ Means A s.expr D ∧ D n.name.orig

/-- The nodesets that are named in an expression. -/
def named : Parse.SetE → List Parse.Name
  | .lit _ => []
  | .ref n => [n]
  | .op _ l r => named l ++ named r

/-- The expression of the nodeset at position `i` names the one at position `j`. -/
def Names (A : Parse.Ast) (i j : Nat) : Prop :=
  ∃ s t, A.nodesets[i]? = some s ∧ A.nodesets[j]? = some t ∧ ∃ n ∈ named s.expr, SameName t.name.orig n.orig

/-- The attributes of the node at position `k`: its own, and those of the nodesets it is a member of. -/
inductive NodeAttr (A : Parse.Ast) (k : Nat) (a : Parse.Attr) : Prop where
  | own {n : Parse.Node} : A.nodes[k]? = some n → a ∈ n.attrs → NodeAttr A k a
  | member {i : Nat} {s : Parse.NodeSet} : A.nodesets[i]? = some s → a ∈ s.attrs → Member A i k → NodeAttr A k a

/-- The attributes of the nodeset at position `j`: its own, and those of the nodesets whose expressions name it, or name one that
names it, and so on. -/
inductive SetAttr (A : Parse.Ast) (j : Nat) (a : Parse.Attr) : Prop where
  | own {s : Parse.NodeSet} : A.nodesets[j]? = some s → a ∈ s.attrs → SetAttr A j a
  | named {i : Nat} {s : Parse.NodeSet} : A.nodesets[i]? = some s → a ∈ s.attrs → Path (Names A) i j → SetAttr A j a

/-! ### What the scheduler reads is what the description says -/

/-- An attribute of the description and one that the scheduler reads: the same name in lower case, the same kind. -/
def AttrAs (a : Parse.Attr) (x : Attr) : Prop :=
  x.name = a.name.orig.map lowerB ∧ x.inh = a.inherited ∧ x.syn = a.synthesized

/-- The attributes of a type are those that `P` says. -/
def AttrsAs (P : Parse.Attr → Prop) (l : List Attr) : Prop :=
  (∀ a, P a → ∃ x ∈ l, AttrAs a x) ∧ ∀ x ∈ l, ∃ a, P a ∧ AttrAs a x

/-- `t` is the node or nodeset with this name. -/
def TypeAs (A : Parse.Ast) (S : Spec) (name : Parse.Name) (t : Nat) : Prop :=
  (∃ (k : Nat) (n : Parse.Node) (x : INode), A.nodes[k]? = some n ∧ SameName n.name.orig name.orig ∧ S.nodes[k]? = some x ∧ x.addr = t) ∨
  ∃ (k : Nat) (s : Parse.NodeSet) (x : NSet), A.nodesets[k]? = some s ∧ SameName s.name.orig name.orig ∧ S.sets[k]? = some x ∧ x.addr = t

/-- A reference in an equation of the node `n`, which is `x` for the scheduler. -/
def RefAs (n : Parse.Node) (x : INode) (r : Parse.Ref) (y : Ref) : Prop :=
  y.attr.name = r.attr.orig.map lowerB ∧
  match r.node with
  | none => y.child = none
  | some c => ∃ (j : Nat) (ch : Parse.Child) (xc : Child), n.children[j]? = some ch ∧ x.children[j]? = some xc ∧
      SameName ch.name.orig c.orig ∧ y.child = some xc.addr

/-- The node at position `k`. -/
structure NodeAs (A : Parse.Ast) (S : Spec) (k : Nat) (n : Parse.Node) (x : INode) : Prop where
  children : Pairs (fun c y => TypeAs A S c.type y.type) n.children x.children
  eqs : Pairs (fun e y => RefAs n x e.rule y.rule ∧ Pairs (RefAs n x) e.args y.args) n.equations x.eqs
  attrs : AttrsAs (NodeAttr A k) x.attrs

/-- The nodeset at position `k`. -/
structure SetAs (A : Parse.Ast) (S : Spec) (k : Nat) (x : NSet) : Prop where
  members : ∀ m, m ∈ x.members ↔ ∃ j, S.nodes[j]? = some m ∧ Member A k j
  once : x.members.Nodup
  attrs : AttrsAs (SetAttr A k) x.attrs

/-- The specification is what the description says. -/
structure Describes (A : Parse.Ast) (S : Spec) : Prop where
  nodes : S.nodes.length = A.nodes.length
  sets : S.sets.length = A.nodesets.length
  node : ∀ (k : Nat) (n : Parse.Node) (x : INode), A.nodes[k]? = some n → S.nodes[k]? = some x → NodeAs A S k n x
  set : ∀ (k : Nat) (x : NSet), S.sets[k]? = some x → SetAs A S k x

/-! ### What is checked -/

/-- The name of a node, nodeset or enum. -/
def TypeName (A : Parse.Ast) (r : Parse.Name) : Prop :=
  (∃ n ∈ A.nodes, SameName n.name.orig r.orig) ∨ (∃ s ∈ A.nodesets, SameName s.name.orig r.orig) ∨
    ∃ e ∈ A.enums, SameName e.name.orig r.orig

/-- Nodesets above the node hand no attributes on. -/
def NodeAlone (A : Parse.Ast) (k : Nat) : Prop := ∀ (i : Nat) s, A.nodesets[i]? = some s → Member A i k → s.attrs = []

/-- Nodesets above the nodeset hand no attributes on. -/
def SetAlone (A : Parse.Ast) (j : Nat) : Prop := ∀ (i : Nat) s, A.nodesets[i]? = some s → Path (Names A) i j → s.attrs = []

/-- An intersection or difference is in the expression. -/
def Narrows : Parse.SetE → Prop
  | .lit _ => False
  | .ref _ => False
  | .op .iunion l r => Narrows l ∨ Narrows r
  | .op .intersect _ _ => True
  | .op .difference _ _ => True

/-- An attribute that is computed has neither the constructor keyword nor lifetimes. -/
def Plain (a : Parse.Attr) : Prop := a.inherited = true ∨ a.synthesized = true → a.ctor = false ∧ a.lifetimes = []

/-- What is checked of attributes. -/
structure Rules (A : Parse.Ast) : Prop where
  /-- types that are names -/
  nodeTypes : ∀ n ∈ A.nodes, ∀ a ∈ n.attrs, a.type = .link_or_enum → ∀ r ∈ a.ref, TypeName A r
  setTypes : ∀ s ∈ A.nodesets, ∀ a ∈ s.attrs, a.type = .link_or_enum → ∀ r ∈ a.ref, TypeName A r
  /-- no child has the name of an attribute -/
  apart : ∀ (k : Nat) n a, A.nodes[k]? = some n → NodeAttr A k a → ∀ c ∈ n.children, ¬ SameName a.name.orig c.name.orig
  /-- an attribute of a nodeset that is declared once more, in a member -/
  again : ∀ (i k : Nat) s n a b, A.nodesets[i]? = some s → A.nodes[k]? = some n → Member A i k → a ∈ s.attrs → b ∈ n.attrs →
    SameName b.name.orig a.name.orig → b.ctor = true ∧ (a.inherited = false ∧ a.synthesized = false) ∧
      b.inherited = false ∧ b.synthesized = false
  /-- an attribute of a nodeset is not declared once more in a nodeset that it names -/
  once : ∀ (i j : Nat) s t a b, A.nodesets[i]? = some s → A.nodesets[j]? = some t → Path (Names A) i j → a ∈ s.attrs → b ∈ t.attrs →
    ¬ SameName b.name.orig a.name.orig
  /-- the first attribute of a nodeset that receives none -/
  setFirst : ∀ (j : Nat) s a l, A.nodesets[j]? = some s → s.attrs = a :: l → SetAlone A j → a.ctor = false ∧ Plain a
  /-- the first attribute of a node that receives none -/
  nodeFirst : ∀ (k : Nat) n a l, A.nodes[k]? = some n → n.attrs = a :: l → NodeAlone A k →
    (n.root = true → a.inherited = false) ∧ Plain a
  /-- a nodeset with attributes, its own or received, is a union -/
  unions : ∀ (j : Nat) s a, A.nodesets[j]? = some s → SetAttr A j a → ¬ Narrows s.expr

/-! ### Conditions -/

/-- Types that are names are there; the parser sees to it (`cocogen/frontend/scanAndParse/dsl-parser.y:768-826`, `957-987`). -/
structure TypesNamed (A : Parse.Ast) : Prop where
  nodes : ∀ n ∈ A.nodes, ∀ a ∈ n.attrs, a.type = .link_or_enum → a.ref.isSome
  sets : ∀ s ∈ A.nodesets, ∀ a ∈ s.attrs, a.type = .link_or_enum → a.ref.isSome
  data : ∀ t ∈ A.traversals, ∀ a ∈ t.data, a.type = .link_or_enum → a.ref.isSome

/-- Nodesets name nodesets that were declared before them (the parser prepends), or that are literals. -/
def Earlier (A : Parse.Ast) : Prop :=
  ∀ (i : Nat) (s : Parse.NodeSet), A.nodesets[i]? = some s → ∀ n ∈ named s.expr, ∀ (j : Nat) (t : Parse.NodeSet),
    A.nodesets[j]? = some t → SameName t.name.orig n.orig → i < j ∨ ∃ l, t.expr = .lit l

/-- No attribute is declared as inherited and synthesized. -/
def OneKind (A : Parse.Ast) : Prop :=
  (∀ n ∈ A.nodes, ∀ a ∈ n.attrs, ¬ (a.inherited = true ∧ a.synthesized = true)) ∧
  ∀ s ∈ A.nodesets, ∀ a ∈ s.attrs, ¬ (a.inherited = true ∧ a.synthesized = true)

/-- What a reference in an equation names: the child, and the attribute. -/
def key (r : Parse.Ref) : Option CStr × CStr := (r.node.map fun c => c.orig.map lowerB, r.attr.orig.map lowerB)

/-- There are no two equations for the same attribute, and no equation uses an attribute twice or for itself. -/
def Tidy (A : Parse.Ast) : Prop :=
  ∀ n ∈ A.nodes, (n.equations.map fun e => key e.rule).Nodup ∧ ∀ e ∈ n.equations, ((e.rule :: e.args).map key).Nodup

/-- Nodesets that are types of children have members. -/
def Peopled (A : Parse.Ast) : Prop :=
  ∀ n ∈ A.nodes, ∀ c ∈ n.children, ∀ (i : Nat) (s : Parse.NodeSet), A.nodesets[i]? = some s → SameName s.name.orig c.type.orig →
    ∃ k, Member A i k

/-- Different things have different addresses. -/
def Apart {α : Type} (addr : α → Nat) : Prop := ∀ x y, addr x = addr y → x = y

end Verif.Spec.Semantic
