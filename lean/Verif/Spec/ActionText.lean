import Verif.Model.GenFiles
import Verif.Spec.Declared
import Verif.Spec.TableText

/-!
# Specification of the text of `actions.h`

A reader for prototypes and `typedef` of C (ISO/IEC 9899:1999, 6.7, 6.7.5.3, 6.7.7) on the words of `Spec/Templates.lean`, and what `vtables.c`
needs of the header.
-/

namespace Verif.Spec.ActionText
open Verif.Str
open Verif.Spec.Str (lowerB)
open Verif.Spec.Targets (Target handler)
open Verif.Spec.Templates (Tok lex splice keywords declarator head params)

/-! ### The reader -/

/-- A prototype: the words of its type before the name, its name, and the words between the parentheses. -/
structure Proto where
  type : List Tok
  name : CStr
  params : List Tok
  deriving DecidableEq, Repr

/-- External declarations. -/
inductive Ext where
  | directive (w : CStr)
  | typedef (tag name : CStr)
  | proto (p : Proto)
  deriving DecidableEq, Repr

/-- What is behind the word `typedef`: `struct tag name;` -/
def typedefOf : List Tok → Option (Ext × List Tok)
  | .id s :: .id tag :: .id name :: .sym 59 :: rest =>
    if s = b!"struct" then if keywords.contains tag || keywords.contains name then none else some (.typedef tag name, rest) else none
  | _ => none

/-- A prototype. -/
def protoOf (toks : List Tok) : Option (Ext × List Tok) := do
  let (h, rest) ← head toks
  let (type, name) ← declarator h
  let (ps, rest) ← params rest
  match rest with
  | .sym 59 :: rest => some (.proto ⟨type, name, ps⟩, rest)
  | _ => none

/-- An external declaration, and what follows it. -/
def external : List Tok → Option (Ext × List Tok)
  | .dir w :: rest => some (.directive w, rest)
  | .id k :: rest => if k = b!"typedef" then typedefOf rest else protoOf (.id k :: rest)
  | _ => none

/-- The external declarations.  The number bounds how many there are. -/
def unit : Nat → List Tok → Option (List Ext)
  | _, [] => some []
  | 0, _ :: _ => none
  | n + 1, toks => do
    let (x, rest) ← external toks
    let l ← unit n rest
    some (x :: l)

/-- The external declarations of a text. -/
def read (text : CStr) : Option (List Ext) :=
  unit (lex (.code true) (splice text)).length (lex (.code true) (splice text))

/-! ### What they mean -/

/-- The prototypes. -/
def protos (u : List Ext) : List Proto := u.filterMap fun x => match x with | .proto p => some p | _ => none

/-- A pointer to a node: `struct ccn_node *`, or by a name for the type. -/
def NodePtr (u : List Ext) (l : List Tok) : Prop :=
  l = [.id b!"struct", .id b!"ccn_node", .sym 42] ∨ ∃ n, Ext.typedef b!"ccn_node" n ∈ u ∧ l = [.id n, .sym 42]

/-- A function from nodes to nodes, as those that `ccn_trav_ft` and `ccn_pass_ft` stand for (`copra/ccn/ccn_types.h`); the parameter may have a
name. -/
structure NodeFn (u : List Ext) (p : Proto) : Prop where
  type : NodePtr u p.type
  param : NodePtr u p.params ∨ ∃ l w, NodePtr u l ∧ p.params = l ++ [.id w]

/-- The function is declared, for nodes. -/
def Declares (u : List Ext) (f : CStr) : Prop := ∃ p ∈ protos u, p.name = f ∧ NodeFn u p

/-- What is to be declared: the functions of the user for traversals, those of passes by their names, and those of the system. -/
def Needed (A : Parse.Ast) (f : CStr) : Prop :=
  (∃ x ∈ A.traversals, ∃ n ∈ A.nodes, Target x A n ∧ f = handler x n) ∨ (∃ p ∈ A.passes, f = Declared.passName p) ∨
    ∃ s ∈ [b!"CPY", b!"DEL", b!"CHK"], ∃ n ∈ A.nodes, f = s ++ n.name.orig.map lowerB

/-- The header: all of its functions are for nodes, they are those that are needed, and they are behind the name for the type. -/
structure Header (A : Parse.Ast) (u : List Ext) : Prop where
  shape : ∃ ps : List Proto, u = .directive b!"pragma once" :: .typedef b!"ccn_node" b!"ccn_node" :: ps.map .proto
  types : ∀ p ∈ protos u, NodeFn u p
  names : ∀ f, (∃ p ∈ protos u, p.name = f) ↔ Needed A f

/-- No name stands for a type and a function (6.7, constraint 3). -/
def Apart (u : List Ext) : Prop := ∀ tag n, Ext.typedef tag n ∈ u → ∀ p ∈ protos u, p.name ≠ n

/-- The functions of the library that are in tables for nodes (`copra/ccn/dynamic_core.h`). -/
def library : List CStr := [b!"TRAVerror", b!"TRAVchildren", b!"TRAVnop", b!"PASSerror"]

/-- The functions in the arrays for nodes are declared in the header, or are those of the library. -/
def Covers (u : List Ext) (V : List TableText.Ext) : Prop :=
  ∀ r, TableText.Ext.array r ∈ V → r.type = TableText.const b!"ccn_trav_ft" ∨ r.type = TableText.const b!"ccn_pass_ft" →
    ∀ i ∈ r.inits, ∃ f, i = .addr f ∧ (f ∈ library ∨ Declares u f)

end Verif.Spec.ActionText
