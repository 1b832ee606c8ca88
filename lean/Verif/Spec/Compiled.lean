import Verif.Model.Compiled
import Verif.Spec.Unpack

/-!
# Specification of the compiler that a description describes

The program that runs: for each action the function or traversal that does its work, for each phase its gate and whether it is a cycle.
-/

namespace Verif.Spec.Compiled
open Verif.Str Verif.Compiled
open Verif.Spec.Str (lowerB upperB SameName)
open Verif.Spec.Unpack (Refers)

/-- `_vtable` -/
def tableSuffix : CStr := [95, 118, 116, 97, 98, 108, 101]

/-- The function of a pass (`docs/source/dsl_syntax.rst`): the one that is given, or the name of the pass behind its unique id. -/
def passFunction (p : Parse.Pass) : CStr :=
  match p.func, p.uid with
  | some f, _ => f.orig
  | none, some u => u.orig.map upperB ++ p.name.orig
  | none, none => p.name.orig

/-- The program that a list of actions describes. -/
inductive Program (A : Parse.Ast) : List Parse.Name → PD.Acts Lab → Prop where
  | nil : Program A [] .nil
  | traversal {n : Parse.Name} {rest : List Parse.Name} {t : Parse.Traversal} {a : PD.Acts Lab} : t ∈ A.traversals →
      Refers n t.name (some t.uid) → Program A rest a →
      Program A (n :: rest) (.leaf t.name.orig (.trav (t.name.orig.map lowerB ++ tableSuffix)) a)
  | pass {n : Parse.Name} {rest : List Parse.Name} {p : Parse.Pass} {a : PD.Acts Lab} : p ∈ A.passes → Refers n p.name p.uid →
      Program A rest a → Program A (n :: rest) (.leaf p.name.orig (.pass (passFunction p)) a)
  | phase {n : Parse.Name} {rest : List Parse.Name} {p : Parse.Phase} {b a : PD.Acts Lab} : p ∈ A.phases → Refers n p.name p.uid →
      Program A p.actions b → Program A rest a →
      Program A (n :: rest) (.phase p.name.orig (p.gate.map fun g => .gate g.orig) p.cycle b a)

/-- An occurrence of an action, and what does its work: the function of the pass, the table of the traversal. -/
def Does (A : Parse.Ast) (y : Spec.Life.Item) (l : Lab) : Prop :=
  (∃ p ∈ A.passes, y = .leaf (Spec.Unpack.ident p.name) (p.uid.map Spec.Unpack.ident) ∧ l = .pass (passFunction p)) ∨
    ∃ t ∈ A.traversals, y = .leaf (Spec.Unpack.ident t.name) (some (Spec.Unpack.ident t.uid)) ∧
      l = .trav (t.name.orig.map lowerB ++ tableSuffix)

/-- An occurrence of a phase, and the function that is its gate. -/
def Gates (A : Parse.Ast) (y : Spec.Life.Item) (l : Lab) : Prop :=
  ∃ (q : Nat) (p : Parse.Phase) (g : Parse.Name) (b : Spec.Life.Tree), A.phases[q]? = some p ∧ p.gate = some g ∧
    y = .phase q (Spec.Unpack.ident p.name) (p.uid.map Spec.Unpack.ident) b ∧ l = .gate g.orig

/-- The reference is by name. -/
def Named (A : Parse.Ast) (n : Parse.Name) : Prop :=
  (∃ p ∈ A.phases, SameName p.name.orig n.orig) ∨ (∃ t ∈ A.traversals, SameName t.name.orig n.orig) ∨
    ∃ p ∈ A.passes, SameName p.name.orig n.orig

/-- Actions are referred to by their names, not by their unique ids. -/
def ByName (A : Parse.Ast) : Prop := ∀ p ∈ A.phases, ∀ n ∈ p.actions, Named A n

/-- `null`, up to letter case -/
def Null (n : Parse.Name) : Prop := SameName n.orig [110, 117, 108, 108]

/-- `cleanup` -/
def cleanup : CStr := [99, 108, 101, 97, 110, 117, 112]

/-- The names of the tables of the four traversals that are always there, without the suffix: `ccn_copy`, `ccn_check`, `ccn_free`,
`ccn_error`. -/
def own : List CStr :=
  [[99, 99, 110, 95, 99, 111, 112, 121], [99, 99, 110, 95, 99, 104, 101, 99, 107], [99, 99, 110, 95, 102, 114, 101, 101],
    [99, 99, 110, 95, 101, 114, 114, 111, 114]]

/-- No name that the generated code needs for itself is used. -/
structure Free (A : Parse.Ast) : Prop where
  node : ∀ n ∈ A.nodes, ¬ Null n.name
  nodeset : ∀ s ∈ A.nodesets, ¬ Null s.name
  phase : ∀ p ∈ A.phases, ¬ Null p.name ∧ ¬ SameName p.name.orig cleanup
  traversal : ∀ t ∈ A.traversals, ¬ Null t.name ∧ ¬ Null t.uid ∧ ∀ x ∈ own, ¬ SameName t.name.orig x
  pass : ∀ p ∈ A.passes, ¬ Null p.name

end Verif.Spec.Compiled
