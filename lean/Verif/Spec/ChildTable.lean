import Verif.Model.ChildTable
import Verif.Spec.Graph

/-!
# Specification of nodeset child tables
-/

namespace Verif.Spec.ChildTable
open Verif.ChildTable

/-- The nodeset `j` is referred to in the expression. -/
def Mentions : SExpr → Nat → Prop
  | .lit, _ => False
  | .ref r, j => r = some j
  | .op _ l r, j => Mentions l j ∨ Mentions r j

/-- The expression of `i` refers to `j`. -/
def Refers (sets : List SExpr) (i j : Nat) : Prop := ∃ e, sets[i]? = some e ∧ Mentions e j

/-- All references in the expression are to declared nodesets. -/
def Resolved (n : Nat) : SExpr → Prop
  | .lit => True
  | .ref r => ∃ j, r = some j ∧ j < n
  | .op _ l r => Resolved n l ∧ Resolved n r

/-- An intersection or difference occurs in the expression. -/
def HasInterOrDiff : SExpr → Prop
  | .lit => False
  | .ref _ => False
  | .op b l r => b = true ∨ HasInterOrDiff l ∨ HasInterOrDiff r

end Verif.Spec.ChildTable
