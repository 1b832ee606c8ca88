import Verif.Model.Sets
import Verif.Spec.Ids

/-!
# Specification of identifier sets
-/

namespace Verif.Spec.Sets
open Verif.Str Verif.Ids Verif.Sets Verif.Spec.Str Verif.Spec.Ids

/-- The identifiers of a set, from left to right. -/
def elems : Tree → List Id
  | .null => []
  | .node _ _ i l r => elems l ++ i :: elems r

/-- A name is in the set, in some spelling. -/
def Has (t : Tree) (name : CStr) : Prop := ∃ i ∈ elems t, SameName i.orig name

/-- No name occurs twice, in whatever spelling. -/
def NoDup (t : Tree) : Prop := (elems t).Pairwise fun a b => ¬ SameName a.orig b.orig

/-- The blocks that make up a set. -/
def blocks : Tree → List Nat
  | .null => []
  | .node a ia _ l r => a :: ia :: (blocks l ++ blocks r)

/-- The sets that can be built with the operations, in any order; `h` is the heap after building. -/
inductive Built : Nat → Tree → Prop where
  | empty {h} : Built h .null
  | later {h h' t} : Built h t → h ≤ h' → Built h' t
  | insert {h t i t' h'} : Built h t → WfId i → SETIDinsert h t i = .ok (t', h') → Built h' t'
  | union {h a b r} : Built h a → Built h b → SETIDunion h a b = .ok r → Built r.heap r.new
  | intersect {h a b r} : Built h a → Built h b → SETIDintersect h a b = .ok r → Built r.heap r.new
  | difference {h a b r} : Built h a → Built h b → SETIDdifference h a b = .ok r → Built r.heap r.new
  | copy {h a} : Built h a → Built (copySet h a).2 (copySet h a).1

end Verif.Spec.Sets
