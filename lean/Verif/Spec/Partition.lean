import Verif.Model.Partition
import Verif.Spec.Graph

/-!
# Specification of partitions and visits
-/

namespace Verif.Spec.Partition
open Verif.Graph Verif.Spec.Graph Verif.Partition

/-- The graph nodes of one AST node. -/
def Own (g : Graph) (tnode i : Nat) : Prop := ∃ a, g.nodes[i]? = some (tnode, a)

/-- `j` depends on `i`, both being attributes of the same AST node.  Intravisit edges do not count. -/
def Needs (g : Graph) (tnode i j : Nat) : Prop :=
  Own g tnode i ∧ Own g tnode j ∧ i ≠ j ∧ (g.edge i j = some .normal ∨ g.edge i j = some .induced)

/-- The names of the attributes of the AST node are pairwise different. -/
def Distinct (A : Attrs) (g : Graph) (t : Nat) : Prop :=
  ∀ i j, Own g t i → Own g t j → nameOf A g i = nameOf A g j → i = j

/-- `p` is the least number that is at least 2, is odd exactly for synthesized attributes, and is not below any number in
`ps`. -/
def Least (syn : Bool) (ps : Nat → Prop) (p : Nat) : Prop :=
  (2 ≤ p ∧ (p % 2 = 1 ↔ syn = true) ∧ ∀ q, ps q → q ≤ p) ∧
  ∀ p', 2 ≤ p' → (p' % 2 = 1 ↔ syn = true) → (∀ q, ps q → q ≤ p') → p ≤ p'

end Verif.Spec.Partition
