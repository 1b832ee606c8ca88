import Verif.Model.Declared
import Verif.Spec.Compiled
import Verif.Spec.Targets
import Verif.Spec.Text

/-!
# Specification of the functions of a generated compiler

Which functions there are, what it is for the C compiler and the linker to find each of them, and on which names of the description that
depends.
-/

namespace Verif.Spec.Declared
open Verif.Str Verif.Declared
open Verif.Spec.Str (lowerB upperB SameName)
open Verif.Spec.Targets (Target handler)
open Verif.Spec.Compiled (passFunction)

/-- `CPY`, `DEL`, `CHK` -/
def systemUids : List CStr := [[67, 80, 89], [68, 69, 76], [67, 72, 75]]
/-- `TRAVdataInit`, `TRAVdataFree` -/
def dataNames : List CStr :=
  [[84, 82, 65, 86, 100, 97, 116, 97, 73, 110, 105, 116], [84, 82, 65, 86, 100, 97, 116, 97, 70, 114, 101, 101]]
/-- `init`, `fini` -/
def userNames : List CStr := [[105, 110, 105, 116], [102, 105, 110, 105]]

/-- The functions other than those of passes (`docs/source/codegen.rst`): those of the user for the nodes that a traversal is for, those
for copying, freeing and checking nodes, and those for making and freeing the data of traversals, by the generator and by the user. -/
inductive Other (A : Parse.Ast) : Fn → Prop where
  | handler {t : Parse.Traversal} {n : Parse.Node} : t ∈ A.traversals → n ∈ A.nodes → Target t A n → Other A (handler t n, .node)
  | system {x : CStr} {n : Parse.Node} : x ∈ systemUids → n ∈ A.nodes → Other A (x ++ n.name.orig.map lowerB, .node)
  | data {x : CStr} {t : Parse.Traversal} : x ∈ dataNames → t ∈ A.traversals → t.data ≠ [] → Other A (x ++ t.name.orig, .data)
  | user {x : CStr} {t : Parse.Traversal} : x ∈ userNames → t ∈ A.traversals → t.data ≠ [] →
      Other A (t.uid.orig.map upperB ++ x, .plain)

/-- The functions of a compiler. -/
def Function (A : Parse.Ast) (f : Fn) : Prop := Other A f ∨ ∃ p ∈ A.passes, f = (passFunction p, .node)

/-- The C compiler and the linker accept the files: what `vtables.c` refers to is declared, nothing is declared with two types, and
whatever is referred to or called is defined once, with its type. -/
structure Links (F : Files) : Prop where
  declared : ∀ r ∈ F.refs, r ∈ F.decls
  agree : ∀ d ∈ F.decls, ∀ d' ∈ F.decls, d.1 = d'.1 → d = d'
  defined : ∀ r ∈ F.refs ++ F.calls, F.defs.filter (fun d => decide (d.1 = r.1)) = [r]

/-- The name of a pass behind its unique id. -/
def passName (p : Parse.Pass) : CStr :=
  match p.uid with
  | some u => u.orig.map upperB ++ p.name.orig
  | none => p.name.orig

/-- The names of a description are such that functions have different names, and that functions of passes are named as the generator of
declarations supposes. -/
structure Clear (A : Parse.Ast) : Prop where
  /-- a traversal with data is not for nodes `init` or `fini` -/
  nodes : ∀ t ∈ A.traversals, t.data ≠ [] → ∀ n ∈ A.nodes, Target t A n → ∀ x ∈ userNames, ¬ SameName n.name.orig x
  /-- no two passes have the same function -/
  passes : (A.passes.map passFunction).Nodup
  /-- no pass has the function of something else -/
  others : ∀ p ∈ A.passes, ∀ f, Other A f → passFunction p ≠ f.1
  /-- the function of a pass is the name of a pass behind its unique id -/
  named : ∀ p ∈ A.passes, ∃ q ∈ A.passes, passFunction p = passName q

/-- Names of nodes start with a letter; the scanner sees to it (`cocogen/frontend/scanAndParse/dsl-lexer.l:166`). -/
def Lettered (A : Parse.Ast) : Prop := ∀ n ∈ A.nodes, ∃ c cs, n.name.orig = c :: cs ∧ Spec.Text.isLetter c = true

end Verif.Spec.Declared
