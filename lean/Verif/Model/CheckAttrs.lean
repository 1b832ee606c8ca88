import Verif.Model.Propagate

/-!
# Model of the checks of attributes (`cocogen/frontend/check_attributes.c`)

The functions return the number of reported errors.
-/

namespace Verif.CheckAttrs
open Verif.Propagate

/-- The declarations: nodes with the flag `is_root`, nodesets with the flag `illegal_setexpr_attr`, both with their
attributes (`cocogen/main.ccn:679-695`, `697-711`). -/
structure Decls where
  nodes : List (Bool × List Attr)
  sets : List (Bool × List Attr)

/-- The error about inherited attributes of the root (`cocogen/frontend/check_attributes.c:59-66`). -/
def rootErrors (inNodeset isRoot : Bool) (a : Attr) : Nat :=
  match a.inh && !inNodeset && isRoot with
  | true => 1
  | false => 0

/-- The errors about the constructor keyword (`cocogen/frontend/check_attributes.c:74-86`). -/
def ctorErrors (inNodeset : Bool) (a : Attr) : Nat :=
  match a.ctor with
  | false => 0
  | true =>
    match inNodeset with
    | true => 1
    | false =>
      match a.inh || a.syn with
      | true => 1
      | false => 0

/-- The error about lifetimes (`cocogen/frontend/check_attributes.c:88-95`). -/
def lifetimeErrors (a : Attr) : Nat :=
  match a.lifetimes with
  | [] => 0
  | _ :: _ =>
    match a.inh || a.syn with
    | true => 1
    | false => 0

/-- `CHAattribute` (`cocogen/frontend/check_attributes.c:55-98`).  It does not go on to the next attribute. -/
def CHAattribute (inNodeset isRoot : Bool) (a : Attr) : Nat :=
  match a.propagated with
  | true => rootErrors inNodeset isRoot a
  | false => rootErrors inNodeset isRoot a + ctorErrors inNodeset a + lifetimeErrors a

/-- `TRAViattributes`: the traversal of the first attribute, if there is one
(`cocogen/frontend/check_attributes.c:33`, `46`). -/
def TRAViattributes (inNodeset isRoot : Bool) : List Attr → Nat
  | [] => 0
  | a :: _ => CHAattribute inNodeset isRoot a

/-- `CHAinode` (`cocogen/frontend/check_attributes.c:42-50`). -/
def CHAinode : List (Bool × List Attr) → Nat
  | [] => 0
  | (isRoot, attrs) :: rest => TRAViattributes false isRoot attrs + CHAinode rest

/-- The error about set expressions (`cocogen/frontend/check_attributes.c:24-31`). -/
def exprErrors (illegal : Bool) (attrs : List Attr) : Nat :=
  match illegal && !attrs.isEmpty with
  | true => 1
  | false => 0

/-- `CHAinodeset` (`cocogen/frontend/check_attributes.c:22-37`). -/
def CHAinodeset : List (Bool × List Attr) → Nat
  | [] => 0
  | (illegal, attrs) :: rest => exprErrors illegal attrs + TRAViattributes true false attrs + CHAinodeset rest

/-- The traversal: the nodes come before the nodesets (`cocogen/main.ccn:606-615`). -/
def CHAstart (d : Decls) : Nat := CHAinode d.nodes + CHAinodeset d.sets

end Verif.CheckAttrs
