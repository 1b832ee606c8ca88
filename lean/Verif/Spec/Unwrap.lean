import Verif.Spec.Sets
import Verif.Model.Unwrap

/-!
# Specification of set expressions
-/

namespace Verif.Spec.Unwrap
open Verif.Str Verif.Ids Verif.Sets Verif.Grammar Verif.Spec.Str Verif.Spec.Ids Verif.Spec.Sets

/-- The set of names an expression denotes, given the definitions of the nodesets. -/
inductive Den (env : List (Id × Expr)) : Expr → (CStr → Prop) → Prop where
  | lit (names) : Den env (.lit names) (fun n => ∃ i ∈ names, SameName i.orig n)
  | ref {i x S} : x ∈ env → SameName x.1.orig i.orig → Den env x.2 S → Den env (.ref i) S
  | union {l r A B} : Den env l A → Den env r B → Den env (.op .union l r) (fun n => A n ∨ B n)
  | inter {l r A B} : Den env l A → Den env r B → Den env (.op .inter l r) (fun n => A n ∧ B n)
  | diff {l r A B} : Den env l A → Den env r B → Den env (.op .diff l r) (fun n => A n ∧ ¬ B n)

/-- The references in an expression. -/
def refs : Expr → List Id
  | .lit _ => []
  | .ref i => [i]
  | .op _ l r => refs l ++ refs r

/-- The names in the literals of an expression. -/
def members : Expr → List Id
  | .lit names => names
  | .ref _ => []
  | .op _ l r => members l ++ members r

/-- The expression is a literal. -/
def IsLit : Expr → Prop
  | .lit _ => True
  | _ => False

/-- Literals list at least one name. -/
def NonEmpty : Expr → Prop
  | .lit names => names ≠ []
  | .ref _ => True
  | .op _ l r => NonEmpty l ∧ NonEmpty r

end Verif.Spec.Unwrap
