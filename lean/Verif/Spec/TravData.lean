import Verif.Model.TravData
import Verif.Spec.Described
import Verif.Spec.Compiled

/-!
# Specification of the data of traversals (`docs/source/dsl_syntax.rst`, `docs/source/codegen.rst`)
-/

namespace Verif.Spec.TravData
open Verif.Str Verif.Ids
open Verif.Spec.Str (lowerB upperB SameName)
open Verif.Spec.Semantic (Pairs NodeAttr SetAttr)
open Verif.Spec.NodeGen (cWords)
open Verif.Trav (Val)

/-- The type names a node or nodeset. -/
def Link (A : Parse.Ast) (d : Parse.TravData) : Prop :=
  d.type = .link_or_enum ∧ ∃ r ∈ d.ref, (∃ n ∈ A.nodes, SameName n.name.orig r.orig) ∨ ∃ s ∈ A.nodesets, SameName s.name.orig r.orig

/-- The type names the enumeration. -/
def Enum (A : Parse.Ast) (d : Parse.TravData) (e : Parse.Enum) : Prop :=
  d.type = .link_or_enum ∧ ∃ r ∈ d.ref, e ∈ A.enums ∧ SameName e.name.orig r.orig

/-- The type of a field: a pointer to a node for the name of a node or nodeset, the enumeration as it is declared, the type of the user as
it is written, otherwise the C type. -/
inductive TypeAs (A : Parse.Ast) (d : Parse.TravData) : NodeGen.CTy → Prop where
  | link : Link A d → TypeAs A d .nodePtr
  | enum (e : Parse.Enum) : Enum A d e → TypeAs A d (.enum e.name.orig)
  | user (r : Parse.Name) : d.type = .user → d.ref = some r → TypeAs A d (.named r.orig)
  | basic : d.type ≠ .user → d.type ≠ .link_or_enum → TypeAs A d (.basic (Described.cType d.type))

/-- A field is that of the description. -/
def FieldAs (A : Parse.Ast) (d : Parse.TravData) (f : TravData.Field) : Prop := TypeAs A d f.1 ∧ f.2 = d.name.orig

/-- The tag of the structure of a traversal: `data_` and the unique id in lower case. -/
def tag (t : Parse.Traversal) : CStr := "data_".toUTF8.toList ++ t.uid.orig.map lowerB

/-- The traversals with data. -/
def withData (A : Parse.Ast) : List Parse.Traversal := A.traversals.filter fun t => decide (t.data ≠ [])

/-- The value that stands for nothing. -/
inductive Empty (A : Parse.Ast) (d : Parse.TravData) : Val → Prop where
  | link : Link A d → Empty A d (.ptr none)
  | string : d.type = .string → Empty A d (.ptr none)
  | other : ¬ Link A d → d.type ≠ .string → Empty A d (.word 0)

/-- The name of the macro: `DATA_<UID>_GET`. -/
def getter (t : Parse.Traversal) : CStr := "DATA_".toUTF8.toList ++ t.uid.orig.map upperB ++ "_GET".toUTF8.toList

/-- The functions that the user writes for a traversal with data (`docs/source/codegen.rst`). -/
def initName (t : Parse.Traversal) : CStr := t.uid.orig.map upperB ++ "init".toUTF8.toList
/-- See `initName`. -/
def finiName (t : Parse.Traversal) : CStr := t.uid.orig.map upperB ++ "fini".toUTF8.toList

/-- What happens at the start of each traversal, for the core of traversals (`Verif.Trav`): nothing, or data with the values `vals` and the
function `p` of the user.  There is one that does nothing at 0, and three for the traversals of the library at the end. -/
def initsOf (A : Parse.Ast) (vals : Parse.Traversal → List Val) (p : Parse.Traversal → Trav.Prog) : List Trav.DataInit :=
  .nop :: A.traversals.map (fun t => if t.data = [] then .nop else .data (vals t) (p t)) ++ [.nop, .nop, .nop]

/-- What happens at the end of each traversal: nothing, or the function `p` of the user, and the release of the data. -/
def freesOf (A : Parse.Ast) (p : Parse.Traversal → Trav.Prog) : List Trav.DataFree :=
  .nop :: A.traversals.map (fun t => if t.data = [] then .nop else .data (p t)) ++ [.nop, .nop, .nop]

/-- A type of the user has a name; the parser sees to it (`cocogen/frontend/scanAndParse/dsl-parser.y:1176-1193`). -/
def UserNamed (A : Parse.Ast) : Prop := ∀ t ∈ A.traversals, ∀ d ∈ t.data, d.type = .user → d.ref.isSome

/-- The name of the macro for a field of a node or nodeset. -/
def access (owner field : Parse.Name) : CStr := owner.orig.map upperB ++ 95 :: field.orig.map upperB

/-- The names of a description are such that there is no name twice and none that C does not take. -/
structure Clear (A : Parse.Ast) : Prop where
  /-- no enumeration is called like the union or a structure -/
  union : ∀ e ∈ A.enums, e.name.orig ≠ "TRAV_DATA".toUTF8.toList
  tags : ∀ e ∈ A.enums, ∀ t ∈ withData A, e.name.orig ≠ tag t
  /-- no word of C is the name of a field or, in lower case, of a traversal -/
  fields : ∀ t ∈ withData A, ∀ d ∈ t.data, d.name.orig ∉ cWords
  names : ∀ t ∈ withData A, t.name.orig.map lowerB ∉ cWords
  /-- no macro of a node or nodeset is the macro of a traversal -/
  children : ∀ n ∈ A.nodes, ∀ c ∈ n.children, ∀ t ∈ withData A, access n.name c.name ≠ getter t
  attrs : ∀ (k : Nat) (n : Parse.Node), A.nodes[k]? = some n → ∀ a, NodeAttr A k a → ∀ t ∈ withData A, access n.name a.name ≠ getter t
  sattrs : ∀ (k : Nat) (s : Parse.NodeSet), A.nodesets[k]? = some s → ∀ a, SetAttr A k a → ∀ t ∈ withData A, access s.name a.name ≠ getter t

end Verif.Spec.TravData
