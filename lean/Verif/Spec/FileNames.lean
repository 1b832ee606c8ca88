import Verif.Model.Parse
import Verif.Spec.TableText

/-!
# Specification of the names of a description that is read from a file
-/

namespace Verif.Spec.FileNames
open Verif.Str
open Verif.Spec.TableText (Ident)
open Verif.Parse (Name)

/-- An identifier of C, and no word of C. -/
def Good (n : Name) : Prop := Ident n.orig ∧ n.orig ∉ Templates.keywords

/-- An identifier, or the sign `->`. -/
def Value (n : Name) : Prop := Ident n.orig ∨ n.orig = b!"->"

/-- The names of an attribute. -/
structure AttrNames (a : Parse.Attr) : Prop where
  name : Good a.name
  type : ∀ n ∈ a.ref, Good n

/-- The names of a description, but for those in set expressions, equations and lifetimes, which refer to others. -/
structure Spelled (A : Parse.Ast) : Prop where
  phases : ∀ p ∈ A.phases, Good p.name ∧ (∀ n ∈ p.uid, Good n) ∧ ∀ n ∈ p.gate, Good n
  passes : ∀ p ∈ A.passes, Good p.name ∧ (∀ n ∈ p.uid, Good n) ∧ ∀ n ∈ p.func, Good n
  traversals : ∀ x ∈ A.traversals, Good x.name ∧ Good x.uid ∧ ∀ d ∈ x.data, Good d.name ∧ ∀ n ∈ d.ref, Good n
  nodes : ∀ x ∈ A.nodes, Good x.name ∧ (∀ c ∈ x.children, Good c.name ∧ Good c.type) ∧ ∀ a ∈ x.attrs, AttrNames a
  nodesets : ∀ x ∈ A.nodesets, Good x.name ∧ ∀ a ∈ x.attrs, AttrNames a
  enums : ∀ e ∈ A.enums, Good e.name ∧ Good e.pre ∧ ∀ v ∈ e.vals, Value v

end Verif.Spec.FileNames
