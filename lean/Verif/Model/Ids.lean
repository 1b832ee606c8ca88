import Verif.Model.Str

/-!
# Model of identifiers and of the symbol table

`cocogen/frontend/scanAndParse/dsl-parser.y` (rule `id`), `cocogen/frontend/symboltable.c` and
`cocogen/frontend/buildsymboltable.c`.
-/

namespace Verif.Ids
open Verif.Str

/-- An `id` node (`cocogen/main.ccn:957-970`): the name as written and its two case-folded forms.  Source positions and
the `next` link (used in enum value lists only) are left out. -/
structure Id where
  orig : CStr
  lwr : CStr
  upr : CStr
  deriving DecidableEq, Repr

/-- The semantic action of the rule `id: T_ID` (`cocogen/frontend/scanAndParse/dsl-parser.y:1243-1250`). -/
def newId (s : CStr) : Res Id := do
  let lo ← STRlower (some s)
  let up ← STRupper (some s)
  match lo, up with
  | some lo, some up => do
    let l ← cstr lo
    let u ← cstr up
    .ok { orig := s, lwr := l, upr := u }
  | _, _ => .ub "use of a NULL string"

/-- `strcmp` of the C library (compares bytes as `unsigned char`); only the sign of the result is used. -/
def strcmp : CStr → CStr → Ordering
  | [], [] => .eq
  | [], _ :: _ => .lt
  | _ :: _, [] => .gt
  | a :: as, b :: bs => if a < b then .lt else if b < a then .gt else strcmp as bs

/-- One `ste` node (`cocogen/main.ccn:776-784`): `key` is an `id`, `value` a link to a declaration. -/
structure Ste (V : Type) where
  key : Id
  value : V

/-- `STadd` (`cocogen/frontend/symboltable.c:24-33`). -/
def STadd {V : Type} (ste : List (Ste V)) (key : Id) (val : V) : List (Ste V) := ⟨key, val⟩ :: ste

/-- The loop of `STlookup` (`cocogen/frontend/symboltable.c:48-54`). -/
def stFind {V : Type} (lwr : CStr) : List (Ste V) → Option V
  | [] => none
  | e :: rest => if STReq (some e.key.lwr) (some lwr) then some e.value else stFind lwr rest

/-- `STlookup` (`cocogen/frontend/symboltable.c:41-55`).  A NULL key is dereferenced by the assertion that precedes the
NULL test. -/
def STlookup {V : Type} (ste : List (Ste V)) : Option Id → Res (Option V)
  | none => .ub "NODE_TYPE(NULL)"
  | some id => .ok (stFind id.lwr ste)

/-- The kinds of named things in a specification (children of the root node, `cocogen/main.ccn:606-623`). -/
inductive Kind where
  | phase | traversal | pass | node | nodeset | enum
  deriving DecidableEq, Repr

/-- A link to a declaration: its kind and its position in the list of declarations of that kind. -/
structure Decl where
  kind : Kind
  index : Nat
  deriving DecidableEq, Repr

/-- What symbol-table construction reads of a specification (`cocogen/main.ccn:606-711,944-955`): names, optional unique
ids (`uid = …`) and, for passes, the optional target function. -/
structure Ast where
  phases : List (Id × Option Id) := []
  traversals : List (Id × Option Id) := []
  passes : List (Id × Option Id × Option Id) := []
  nodes : List Id := []
  nodesets : List Id := []
  enums : List Id := []

/-- The static variables of `cocogen/frontend/buildsymboltable.c:19-21`, with `first_ste`/`last_ste` as the list they
delimit, and the number of errors reported.  `AST_STABLE` is NULL when the pass starts. -/
structure BST where
  table : List (Ste Decl) := []
  funcs : List (Ste Decl) := []
  errors : Nat := 0

/-- `addToST` (`cocogen/frontend/buildsymboltable.c:25-37`): the entry goes to the end of the list. -/
def addToST (st : BST) (key : Id) (val : Decl) : BST := { st with table := st.table ++ [⟨key, val⟩] }

/-- The test that every handler makes before it adds a name (for example `cocogen/frontend/buildsymboltable.c:85-91`). -/
def declare (st : BST) (key : Id) (val : Decl) : Res BST := do
  let found ← STlookup st.table (some key)
  match found with
  | some _ => .ok { st with errors := st.errors + 1 }
  | none => .ok (addToST st key val)

/-- The same for a unique id, if there is one (`cocogen/frontend/buildsymboltable.c:69-78,93-101,121-129`). -/
def declareOpt (st : BST) (key : Option Id) (val : Decl) : Res BST :=
  match key with
  | none => .ok st
  | some k => declare st k val

/-- `BSTiphase` (`cocogen/frontend/buildsymboltable.c:58-81`) and `BSTitraversal`
(`cocogen/frontend/buildsymboltable.c:83-104`), which do the same, along the list of declarations. -/
def bstNamed (kind : Kind) : Nat → List (Id × Option Id) → BST → Res BST
  | _, [], st => .ok st
  | i, (name, uid) :: rest, st => do
    let st ← declare st name ⟨kind, i⟩
    let st ← declareOpt st uid ⟨kind, i⟩
    bstNamed kind (i + 1) rest st

/-- The check of the target function of a pass (`cocogen/frontend/buildsymboltable.c:131-142`).  The error message
passes the `id` node itself to the `%s` directive (line 136), which is undefined. -/
def declareFunc (st : BST) (func : Option Id) (val : Decl) : Res BST :=
  match func with
  | none => .ok st
  | some f => do
    let found ← STlookup st.funcs (some f)
    match found with
    | some _ => .ub "node pointer passed for %s"
    | none => .ok { st with funcs := STadd st.funcs f val }

/-- `BSTipass` (`cocogen/frontend/buildsymboltable.c:111-146`) along the list of passes. -/
def bstPasses : Nat → List (Id × Option Id × Option Id) → BST → Res BST
  | _, [], st => .ok st
  | i, (name, uid, func) :: rest, st => do
    let st ← declare st name ⟨.pass, i⟩
    let st ← declareOpt st uid ⟨.pass, i⟩
    let st ← declareFunc st func ⟨.pass, i⟩
    bstPasses (i + 1) rest st

/-- `BSTinode` (`cocogen/frontend/buildsymboltable.c:148-159`), `BSTinodeset`
(`cocogen/frontend/buildsymboltable.c:161-172`) and `BSTienum` (`cocogen/frontend/buildsymboltable.c:244-255`). -/
def bstPlain (kind : Kind) : Nat → List Id → BST → Res BST
  | _, [], st => .ok st
  | i, name :: rest, st => do
    let st ← declare st name ⟨kind, i⟩
    bstPlain kind (i + 1) rest st

/-- `BSTast` up to the point where `AST_STABLE` is set (`cocogen/frontend/buildsymboltable.c:39-46`): the children in
the order of `cocogen/main.ccn:607-615`. -/
def bstRun (ast : Ast) : Res BST := do
  let st ← bstNamed .phase 0 ast.phases {}
  let st ← bstNamed .traversal 0 ast.traversals st
  let st ← bstPasses 0 ast.passes st
  let st ← bstPlain .node 0 ast.nodes st
  let st ← bstPlain .nodeset 0 ast.nodesets st
  bstPlain .enum 0 ast.enums st

/-- `BSTast` (`cocogen/frontend/buildsymboltable.c:39-50`): the finished table, unless an error was reported
(`CTIabortOnError`). -/
def BSTast (ast : Ast) : Res (List (Ste Decl)) := do
  let st ← bstRun ast
  if st.errors ≠ 0 then .abort "CTIabortOnError" else .ok st.table

end Verif.Ids
