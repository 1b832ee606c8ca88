import Verif.Model.EmptyVisits

/-!
# Specification of empty visits
-/

namespace Verif.Spec.EmptyVisits
open Verif.EmptyVisits

/-- A tree of type `a` can have a subtree of type `b` directly below: a child of that type, or, for a nodeset, the node
itself being of the member type. -/
inductive Below (s : Types) : Ty → Ty → Prop where
  | child {i kids t} : s.nodes[i]? = some kids → t ∈ kids → Below s (.node i) t
  | member {i ms t} : s.sets[i]? = some ms → t ∈ ms → Below s (.set i) t

/-- Somewhere below, or the type itself. -/
inductive Reaches (s : Types) : Ty → Ty → Prop where
  | refl {t} : Reaches s t t
  | step {a b c} : Below s a b → Reaches s b c → Reaches s a c

end Verif.Spec.EmptyVisits
