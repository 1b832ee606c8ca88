import Verif.Model.CheckAttrs
import Verif.Spec.Propagate
import Verif.Spec.ChildTable

/-!
# Specification of the checks of attributes, and of nodesets with their members
-/

namespace Verif.Spec.CheckAttrs
open Verif.Propagate Verif.CheckAttrs

/-- An attribute that may be where it is; `root` tells whether it is in a root node, `set` whether it is in a nodeset.  An
attribute that was received from a nodeset is judged where it was declared. -/
structure AttrOk (set root : Bool) (a : Attr) : Prop where
  root : root = true → a.inh = false
  set : a.propagated = false → set = true → a.ctor = false
  ctor : a.propagated = false → a.ctor = true → a.inh = false ∧ a.syn = false
  lifetimes : a.propagated = false → a.lifetimes ≠ [] → a.inh = false ∧ a.syn = false

/-- All attributes may be where they are, and a nodeset with attributes has no intersection or difference. -/
structure Allowed (d : Decls) : Prop where
  nodes : ∀ root l, (root, l) ∈ d.nodes → ∀ a, a ∈ l → AttrOk false root a
  sets : ∀ ill l, (ill, l) ∈ d.sets → ∀ a, a ∈ l → AttrOk true false a
  expr : ∀ ill l, (ill, l) ∈ d.sets → l ≠ [] → ill = false

/-- The same for the first attribute of each node and nodeset only. -/
structure FirstAllowed (d : Decls) : Prop where
  nodes : ∀ root a l, (root, a :: l) ∈ d.nodes → AttrOk false root a
  sets : ∀ ill a l, (ill, a :: l) ∈ d.sets → AttrOk true false a
  expr : ∀ ill l, (ill, l) ∈ d.sets → l ≠ [] → ill = false

end Verif.Spec.CheckAttrs

namespace Verif.Spec.Nodesets
open Verif.ChildTable

/-- A set expression with its nodes. -/
inductive Expr where
  | lit (nodes : List Nat)
  | ref (set : Nat)
  | union (l r : Expr)
  | inter (l r : Expr)
  | diff (l r : Expr)

/-- What the child table is computed from. -/
def Expr.shape : Expr → SExpr
  | .lit _ => .lit
  | .ref j => .ref (some j)
  | .union l r => .op false l.shape r.shape
  | .inter l r => .op true l.shape r.shape
  | .diff l r => .op true l.shape r.shape

/-- The members of an expression, given those of the nodesets. -/
def In (M : Nat → Nat → Prop) : Expr → Nat → Prop
  | .lit l, m => m ∈ l
  | .ref j, m => M j m
  | .union l r, m => In M l m ∨ In M r m
  | .inter l r, m => In M l m ∧ In M r m
  | .diff l r, m => In M l m ∧ ¬ In M r m

/-- `M i m` says that `m` is a member of the nodeset `i`. -/
def Membership (sets : List Expr) (M : Nat → Nat → Prop) : Prop :=
  ∀ i e, sets[i]? = some e → ∀ m, M i m ↔ In M e m

end Verif.Spec.Nodesets
