import Verif.Model.Reach
import Verif.Spec.Graph

/-!
# Specification of reachability in a grammar
-/

namespace Verif.Spec.Reach
open Verif.Reach
open Verif.Propagate (Entry)

/-- The grammar is complete: all nodes are in the list, and all names are those of nodes or nodesets. -/
structure Resolved (env : Env) : Prop where
  nodes : ∀ i, i ∈ env.nodes ↔ i < env.num
  kids : ∀ i, i < env.num → ∀ c, c ∈ env.kids i → (∃ k, c = .node k ∧ k < env.num) ∨ ∃ j l, c = .set j ∧ env.sets[j]? = some l
  sets : ∀ l, l ∈ env.sets → ∀ e, e ∈ l → ∃ k, e = .node k ∧ k < env.num

/-- A node of type `i` can have a child of type `k`. -/
def HasChild (env : Env) (i k : Nat) : Prop :=
  .node k ∈ env.kids i ∨ ∃ j l, .set j ∈ env.kids i ∧ env.sets[j]? = some l ∧ .node k ∈ l

/-- The same where a nodeset stands for itself and all later ones. -/
def MayHaveChild (env : Env) (i k : Nat) : Prop :=
  .node k ∈ env.kids i ∨ ∃ j j' l, .set j ∈ env.kids i ∧ j ≤ j' ∧ env.sets[j']? = some l ∧ .node k ∈ l

end Verif.Spec.Reach
