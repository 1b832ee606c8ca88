import Verif.Model.NodeGen
import Verif.Spec.Ids

/-!
# Specification of generated node types

What a constructed node contains, in terms of the specification and the arguments only.
-/

namespace Verif.Spec.NodeGen
open Verif.Str Verif.Ids Verif.NodeGen Verif.Spec.Str Verif.Spec.Ids

/-- The name in lower case. -/
def low (i : Id) : List UInt8 := i.orig.map lowerB

/-- The name in upper case. -/
def up (i : Id) : List UInt8 := i.orig.map upperB

/-- No two names in the list are the same up to letter case. -/
def Distinct (l : List Id) : Prop := l.Pairwise fun a b => ¬ SameName a.orig b.orig

/-- Computed by equations. -/
def Computed (a : Attr) : Prop := a.inh = true ∨ a.syn = true

/-- What the earlier phases guarantee for an attribute: a named type is the name of an enum or a C type, and computed
attributes are not in the constructor. -/
structure AttrOk (p : Prog) (a : Attr) : Prop where
  wf : WfId a.name
  enum : a.type = .linkOrEnum → ∃ r, a.ref = some r ∧ WfId r ∧ ∃ e ∈ p.enums, SameName e.orig r.orig
  user : a.type = .user → ∃ r, a.ref = some r
  ctor : a.ctor = true → ¬ Computed a

/-- What the earlier phases guarantee: identifiers carry their folded forms; names of nodes and nodesets, of the fields
of a node and of the attributes of a nodeset are different up to letter case; the members of nodesets are nodes, listed
once, and have the attributes of the nodeset. -/
structure WfProg (p : Prog) : Prop where
  nodeIds : ∀ n ∈ p.nodes, WfId n.name
  childIds : ∀ n ∈ p.nodes, ∀ c ∈ n.children, WfId c.name
  setIds : ∀ s ∈ p.sets, WfId s.name
  memberIds : ∀ s ∈ p.sets, ∀ m ∈ s.members, WfId m
  enumIds : ∀ e ∈ p.enums, WfId e
  names : Distinct (p.nodes.map (·.name) ++ p.sets.map (·.name))
  fields : ∀ n ∈ p.nodes, Distinct (n.children.map (·.name) ++ n.attrs.map (·.name))
  setAttrs : ∀ s ∈ p.sets, Distinct (s.attrs.map (·.name))
  attrs : ∀ n ∈ p.nodes, ∀ a ∈ n.attrs, AttrOk p a
  sattrs : ∀ s ∈ p.sets, ∀ a ∈ s.attrs, AttrOk p a
  members : ∀ s ∈ p.sets, Distinct s.members
  has : ∀ s ∈ p.sets, ∀ m ∈ s.members, ∃ n ∈ p.nodes, SameName n.name.orig m.orig ∧
    ∀ a ∈ s.attrs, ∃ b ∈ n.attrs, SameName b.name.orig a.name.orig ∧ (Computed a ↔ Computed b)

/-- The value that stands for "nothing" in each type. -/
def emptyOf : AT → Val
  | .link | .string => .null
  | .bool => .cfalse
  | .float | .double => .fzero
  | _ => .zero

/-- The number of arguments of the constructor. -/
def arity (n : Node) : Nat := n.children.countP (·.ctor) + n.attrs.countP (·.ctor)

/-- The object is a node made by the constructor from the arguments: children in the constructor come first, then
attributes in the constructor, each in the order of the specification; other children are NULL, other attributes have the
value that stands for nothing, computed ones are marked as not computed. -/
structure Constructed (n : Node) (args : List Val) (o : Obj) : Prop where
  type : o.nt = up n.name ∧ o.node = low n.name
  childGiven : ∀ i c, n.children[i]? = some c → c.ctor = true →
    o.child (low c.name) = args[(n.children.take i).countP (·.ctor)]?
  childNull : ∀ c ∈ n.children, c.ctor = false → o.child (low c.name) = some .null
  attrGiven : ∀ i a, n.attrs[i]? = some a → a.ctor = true →
    o.plain (low a.name) = args[n.children.countP (·.ctor) + (n.attrs.take i).countP (·.ctor)]?
  attrEmpty : ∀ a ∈ n.attrs, a.ctor = false → ¬ Computed a → o.plain (low a.name) = some (emptyOf a.type)
  attrUnset : ∀ a ∈ n.attrs, Computed a → o.isSet (95 :: low a.name) = some false
  num : o.num = n.children.length
  array : o.array = if n.children = [] then none else some (low n.name ++ "_children".toUTF8.toList)

/-- The fields in the constructor have names that work as parameters: `node` is the local variable; a parameter of a type
written by the user is spelled in lower case; an enum is spelled as in its declaration. -/
structure CtorOk (p : Prog) (n : Node) : Prop where
  child : ∀ c ∈ n.children, c.ctor = true → low c.name ≠ "node".toUTF8.toList
  attr : ∀ a ∈ n.attrs, a.ctor = true → a.name.orig ≠ "node".toUTF8.toList
  user : ∀ a ∈ n.attrs, a.ctor = true → a.type = .user → a.name.orig = low a.name
  enum : ∀ a ∈ n.attrs, a.ctor = true → a.type = .linkOrEnum → ∀ r ∈ a.ref, ∃ e ∈ p.enums, e.orig = r.orig

/-- The object is a node in which nothing is filled in. -/
structure Fresh (n : Node) (o : Obj) : Prop where
  type : o.nt = up n.name ∧ o.node = low n.name
  child : ∀ c ∈ n.children, o.child (low c.name) = some .null
  attr : ∀ a ∈ n.attrs, ¬ Computed a → o.plain (low a.name) = some (emptyOf a.type)
  unset : ∀ a ∈ n.attrs, Computed a → o.isSet (95 :: low a.name) = some false
  num : o.num = n.children.length
  array : o.array = if n.children = [] then none else some (low n.name ++ "_children".toUTF8.toList)

/-- The words of C that are no names, with those of `stdbool.h`. -/
def cWords : List (List UInt8) :=
  ["auto", "break", "case", "char", "const", "continue", "default", "do", "double", "else", "enum", "extern", "float",
    "for", "goto", "if", "inline", "int", "long", "register", "restrict", "return", "short", "signed", "sizeof",
    "static", "struct", "switch", "typedef", "union", "unsigned", "void", "volatile", "while",
    "bool", "true", "false"].map
    fun s => s.toUTF8.toList

/-- A name without underscore. -/
def NoUnderscore (i : Id) : Prop := (95 : UInt8) ∉ i.orig

/-- Names for which the generated names cannot coincide. -/
structure Plain (p : Prog) : Prop where
  nodes : ∀ n ∈ p.nodes, n.name.orig ≠ [] ∧ NoUnderscore n.name ∧
    ¬ SameName n.name.orig "children".toUTF8.toList ∧ ¬ SameName n.name.orig "node".toUTF8.toList
  sets : ∀ s ∈ p.sets, NoUnderscore s.name ∧ ¬ SameName s.name.orig "node".toUTF8.toList
  children : ∀ n ∈ p.nodes, ∀ c ∈ n.children, NoUnderscore c.name ∧ low c.name ∉ cWords
  attrs : ∀ n ∈ p.nodes, ∀ a ∈ n.attrs, NoUnderscore a.name ∧ low a.name ∉ cWords
  sattrs : ∀ s ∈ p.sets, ∀ a ∈ s.attrs, NoUnderscore a.name

/-- The names of functions with the prefix `TRAV` that a child must not have. -/
def travWords : List (List UInt8) :=
  ["opt", "start", "do", "push", "pop", "children", "nop", "error", "dataNOP", "getCurrent"].map fun s => s.toUTF8.toList

/-- Names of children that give functions of their own: 7-bit characters without NUL, of a length that fits in memory, and
not one of the functions that exist already. -/
def TravNames (p : Prog) : Prop := ∀ n ∈ p.nodes, ∀ c ∈ n.children, Ascii c.name.orig ∧ NoNul c.name.orig ∧
  c.name.orig.length + 1 < 2 ^ 63 ∧ c.name.orig ∉ travWords

/-- The object is a node of this type. -/
def NodeOf (n : Node) (o : Obj) : Prop := o.nt = up n.name ∧ o.node = low n.name

/-- The objects are the same except for the value of one child. -/
def OnlyChild (x : List UInt8) (v : Val) (o o' : Obj) : Prop :=
  o'.nt = o.nt ∧ o'.node = o.node ∧ o'.plain = o.plain ∧ o'.isSet = o.isSet ∧ o'.num = o.num ∧ o'.array = o.array ∧
    o'.child x = some v ∧ ∀ y, y ≠ x → o'.child y = o.child y

end Verif.Spec.NodeGen
