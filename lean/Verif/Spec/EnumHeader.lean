import Verif.Model.EnumHeader
import Verif.Spec.Compiled
import Verif.Spec.Text

/-!
# Specification of the enumerations of a generated compiler (`docs/source/dsl_syntax.rst`, `docs/source/codegen.rst`)
-/

namespace Verif.Spec.EnumHeader
open Verif.Str
open Verif.Spec.Str (lowerB upperB SameName)
open Verif.Spec.Compiled (Null)

/-- `_NULL` -/
def null : CStr := [95, 78, 85, 76, 76]

/-- The entry for a value: the prefix, a bar, and the value. -/
def entry (e : Parse.Enum) (v : Parse.Name) : CStr := e.pre.orig.map upperB ++ 95 :: v.orig.map lowerB

/-- The first entry. -/
def first (e : Parse.Enum) : CStr := e.pre.orig.map upperB ++ null

/-- The C enumeration: the name as it is, the added value, and the values in their order. -/
def enumeration (e : Parse.Enum) : CStr × List CStr := (e.name.orig, first e :: e.vals.map (entry e))

/-- The C compiler accepts the enumerations of a file: no tag and no entry twice. -/
structure Accepted (H : List (CStr × List CStr)) : Prop where
  tags : (H.map (·.1)).Nodup
  entries : (H.flatMap (·.2)).Nodup

/-- The entry stands for the number. -/
def Stands (H : List (CStr × List CStr)) (x : CStr) (k : Nat) : Prop := ∃ h ∈ H, h.2[k]? = some x

/-- `nodesettype`, `ccn_nodetype`, `ccn_traversal_type`, `ccn_pass_type` -/
def ownTags : List CStr :=
  [[110, 111, 100, 101, 115, 101, 116, 116, 121, 112, 101], [99, 99, 110, 95, 110, 111, 100, 101, 116, 121, 112, 101],
    [99, 99, 110, 95, 116, 114, 97, 118, 101, 114, 115, 97, 108, 95, 116, 121, 112, 101],
    [99, 99, 110, 95, 112, 97, 115, 115, 95, 116, 121, 112, 101]]

/-- The names of a description are such that there is no name twice in the header. -/
structure Clear (A : Parse.Ast) : Prop where
  /-- no node, nodeset, pass or unique id is called `null` -/
  node : ∀ n ∈ A.nodes, ¬ Null n.name
  nodeset : ∀ s ∈ A.nodesets, ¬ Null s.name
  uid : ∀ t ∈ A.traversals, ¬ Null t.uid
  pass : ∀ p ∈ A.passes, ¬ Null p.name
  /-- the values of an enumeration are different, up to letter case -/
  values : ∀ e ∈ A.enums, e.vals.Pairwise fun v w => ¬ SameName v.orig w.orig
  /-- no enumeration is called like one of the generator -/
  tags : ∀ e ∈ A.enums, e.name.orig ∉ ownTags
  /-- no prefix, with `_NULL`, is `NT_` and the name of a node, … -/
  nodes : ∀ e ∈ A.enums, ∀ n ∈ A.nodes, ¬ SameName (e.pre.orig ++ null) ([78, 84, 95] ++ n.name.orig)
  nodesets : ∀ e ∈ A.enums, ∀ n ∈ A.nodesets, ¬ SameName (e.pre.orig ++ null) ([78, 83, 95] ++ n.name.orig)
  uids : ∀ e ∈ A.enums, ∀ t ∈ A.traversals, ¬ SameName (e.pre.orig ++ null) ([84, 82, 65, 86, 95] ++ t.uid.orig)
  passes : ∀ e ∈ A.enums, ∀ p ∈ A.passes, ¬ SameName (e.pre.orig ++ null) ([80, 65, 83, 83, 95] ++ p.name.orig)

/-- Values start with a letter; the scanner sees to it (`cocogen/frontend/scanAndParse/dsl-lexer.l:166`). -/
def Lettered (A : Parse.Ast) : Prop := ∀ e ∈ A.enums, ∀ v ∈ e.vals, ∃ c cs, v.orig = c :: cs ∧ Spec.Text.isLetter c = true

end Verif.Spec.EnumHeader
