import Verif.Model.Ids
import Verif.Spec.Str

/-!
# Specification of names and declarations
-/

namespace Verif.Spec.Ids
open Verif.Str Verif.Ids Verif.Spec.Str

/-- The identifier carries the folded forms of its name. -/
def WfId (i : Id) : Prop := i.lwr = i.orig.map lowerB ∧ i.upr = i.orig.map upperB

/-- The names that a list of declarations with optional unique ids declares, in order. -/
def namedDecls (kind : Kind) (i : Nat) : List (Id × Option Id) → List (Id × Decl)
  | [] => []
  | (n, u) :: rest => ((n :: u.toList).map fun x => (x, ⟨kind, i⟩)) ++ namedDecls kind (i + 1) rest

/-- The same for plain declarations. -/
def plainDecls (kind : Kind) (i : Nat) : List Id → List (Id × Decl)
  | [] => []
  | n :: rest => (n, ⟨kind, i⟩) :: plainDecls kind (i + 1) rest

/-- Everything a specification declares: names and unique ids, with what they stand for. -/
def declared (ast : Ast) : List (Id × Decl) :=
  namedDecls .phase 0 ast.phases ++ (namedDecls .traversal 0 ast.traversals ++
    (namedDecls .pass 0 (ast.passes.map fun p => (p.1, p.2.1)) ++ (plainDecls .node 0 ast.nodes ++
      (plainDecls .nodeset 0 ast.nodesets ++ plainDecls .enum 0 ast.enums))))

/-- The target functions of the passes. -/
def functions (ast : Ast) : List Id := ast.passes.filterMap fun p => p.2.2

/-- Two entries at different places of the list have the same name up to letter case. -/
def Clash (l : List Id) : Prop := ¬ l.Pairwise fun a b => ¬ SameName a.orig b.orig

end Verif.Spec.Ids
