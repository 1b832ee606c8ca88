import Verif.Spec.Semantic
import Verif.Spec.NodeGen

/-!
# Specification of the generated nodes of a description

Conditions on a description, and what its generated nodes have to be.
-/

namespace Verif.Spec.Described
open Verif.Str Verif.Ids
open Verif.Spec.Str (lowerB upperB SameName)
open Verif.Spec.Semantic (NodeAttr SetAttr Member)
open Verif.Spec.NodeGen (cWords travWords)

/-- Computed by equations. -/
def Computed (a : Parse.Attr) : Prop := a.inherited = true ∨ a.synthesized = true

/-- What is computed is not in the constructor. -/
structure Classic (A : Parse.Ast) : Prop where
  nodes : ∀ n ∈ A.nodes, ∀ a ∈ n.attrs, a.ctor = true → ¬ Computed a
  sets : ∀ s ∈ A.nodesets, ∀ a ∈ s.attrs, a.ctor = true → ¬ Computed a

/-- The name of a field: without underscore, and no word of C in lower case. -/
def FieldName (n : Parse.Name) : Prop := (95 : UInt8) ∉ n.orig ∧ n.orig.map lowerB ∉ cWords

/-- Names for which the names in `ast.h` cannot coincide. -/
structure Simple (A : Parse.Ast) : Prop where
  nodes : ∀ n ∈ A.nodes, n.name.orig ≠ [] ∧ (95 : UInt8) ∉ n.name.orig ∧ ¬ SameName n.name.orig "children".toUTF8.toList
  sets : ∀ s ∈ A.nodesets, (95 : UInt8) ∉ s.name.orig ∧ ¬ SameName s.name.orig "node".toUTF8.toList
  children : ∀ n ∈ A.nodes, ∀ c ∈ n.children, FieldName c.name
  attrs : ∀ n ∈ A.nodes, ∀ a ∈ n.attrs, FieldName a.name
  sattrs : ∀ s ∈ A.nodesets, ∀ a ∈ s.attrs, FieldName a.name

/-- The fields in the constructor of the node at position `k` have names that work as parameters. -/
structure Callable (A : Parse.Ast) (k : Nat) (n : Parse.Node) : Prop where
  child : ∀ c ∈ n.children, c.ctor = true → c.name.orig.map lowerB ≠ "node".toUTF8.toList
  attr : ∀ a, NodeAttr A k a → a.ctor = true → a.name.orig ≠ "node".toUTF8.toList
  user : ∀ a, NodeAttr A k a → a.ctor = true → a.type = .user → a.name.orig = a.name.orig.map lowerB
  enum : ∀ a, NodeAttr A k a → a.ctor = true → a.type = .link_or_enum → ∀ r ∈ a.ref,
    (∃ e ∈ A.enums, SameName e.name.orig r.orig) → ∃ e ∈ A.enums, e.name.orig = r.orig

/-- Names of children that give functions of their own. -/
def Walkable (A : Parse.Ast) : Prop := ∀ n ∈ A.nodes, ∀ c ∈ n.children, Ascii c.name.orig ∧ NoNul c.name.orig ∧
  c.name.orig.length + 1 < 2 ^ 63 ∧ c.name.orig ∉ travWords

/-- The generated type for a type of the description that is no name. -/
def cType : Parse.AT → NodeGen.AT
  | .user => .user
  | .link_or_enum => .linkOrEnum
  | .int => .int
  | .string => .string
  | .bool => .bool
  | .int8 => .int8
  | .int16 => .int16
  | .int32 => .int32
  | .int64 => .int64
  | .float => .float
  | .double => .double
  | .uint8 => .uint8
  | .uint16 => .uint16
  | .uint32 => .uint32
  | .uint64 => .uint64

/-- The type: a pointer to a node for the name of a node or nodeset, the enum for the name of an enum, otherwise what is written. -/
structure TypeAs (A : Parse.Ast) (a : Parse.Attr) (x : NodeGen.Attr) : Prop where
  link : a.type = .link_or_enum → ∀ r ∈ a.ref, (∃ n ∈ A.nodes, SameName n.name.orig r.orig) ∨ (∃ s ∈ A.nodesets, SameName s.name.orig r.orig) →
    x.type = .link
  enum : a.type = .link_or_enum → ∀ r ∈ a.ref, (∃ e ∈ A.enums, SameName e.name.orig r.orig) →
    x.type = .linkOrEnum ∧ ∃ i, x.ref = some i ∧ i.orig = r.orig
  basic : a.type ≠ .link_or_enum → x.type = cType a.type
  user : a.type = .user → ∀ r ∈ a.ref, ∃ i, x.ref = some i ∧ i.orig = r.orig

/-- A generated attribute is that of the description. -/
structure AttrAs (A : Parse.Ast) (a : Parse.Attr) (x : NodeGen.Attr) : Prop where
  name : x.name.orig = a.name.orig
  ctor : x.ctor = a.ctor
  inh : x.inh = a.inherited
  syn : x.syn = a.synthesized
  type : TypeAs A a x

/-- The field of a node of the type `n` that an attribute is in: one that is computed has a mark beside it. -/
def Field (n : Parse.Node) (a : Parse.Attr) (p : NodeGen.Path) : Prop :=
  (Computed a → p = .valued (n.name.orig.map lowerB) (a.name.orig.map lowerB)) ∧
    (¬ Computed a → p = .plain (n.name.orig.map lowerB) (a.name.orig.map lowerB))

/-- The name of the macro for a field of a node or nodeset. -/
def access (owner field : Parse.Name) : List UInt8 := owner.orig.map upperB ++ 95 :: field.orig.map upperB

/-- An object of the type. -/
def ObjectOf (n : Parse.Node) (o : NodeGen.Obj) : Prop := o.nt = n.name.orig.map upperB ∧ o.node = n.name.orig.map lowerB

end Verif.Spec.Described
