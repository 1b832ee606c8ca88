import Verif.Model.Graph

/-!
# Specification of dependency graphs
-/

namespace Verif.Spec.Graph
open Verif.Graph

/-- There is a path of at least one edge. -/
inductive Path (E : Nat → Nat → Prop) : Nat → Nat → Prop where
  | edge {i j} : E i j → Path E i j
  | step {i k j} : E i k → Path E k j → Path E i j

/-- The edges of a graph, as a relation. -/
def Edge (g : Graph) (i j : Nat) : Prop := ∃ t, g.edge i j = some t

/-- The relation has a cycle. -/
def Cyclic (E : Nat → Nat → Prop) : Prop := ∃ i, Path E i i

/-- A dependency list as a relation. -/
def Dep (deps : List (Nat × Nat)) (i j : Nat) : Prop := (i, j) ∈ deps

end Verif.Spec.Graph
