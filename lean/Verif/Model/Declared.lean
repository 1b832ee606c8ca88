import Verif.Model.Targets

/-!
# Model of the generators of declarations and of functions (`cocogen/dynamic_backend/*.c`)

`gen_action_header.c`, `gen_trav_actions.c` and `gen_trav_data_ctors_header.c` declare functions in headers, `gen_trav_data_ctors.c`,
`gen_copy_traversal.c`, `gen_free_traversal.c` and `gen_check_traversal.c` define functions, and `gen_user_traversals.c` and
`gen_user_passes.c` write files in which the user is to fill in the bodies.

* A function is its name and its C type; bodies, comments, includes and names of files are left out.  Bodies are the subject of other
  parts of the model.
* `vtables.c` includes `actions.h`, and by `ccn/dynamic_core.h` also `trav_data.h` (`cocogen/dynamic_backend/file_switchers.c:91-99`,
  `gen_trav_v_table.c:18`, `copra/ccn/dynamic_core.h:3-5`).
* The functions of the library, such as `TRAVerror`, are declared in `ccn/dynamic_core.h`; they are not in the lists.
* Children of a node without a handler are visited in the order of their declaration (`cocogen/main.ccn:606-623`).
-/

namespace Verif.Declared
open Verif.Str Verif.Ids Verif.Tables
open Verif.Semantic (idOf exprOf preorder treesOf)
open Verif.Compiled (declsOf)
open Verif.Targets (tables)

/-- The type of a function: `node *f(node *)` (`cocogen/dynamic_backend/gen_helpers.h:17-18`), `void f(struct ccn_trav *)`
(`cocogen/dynamic_backend/gen_trav_data_ctors_header.c:12-13`), `void f()` (`cocogen/dynamic_backend/gen_trav_data_ctors.c:19-20`). -/
inductive Sig where
  | node | data | plain
  deriving DecidableEq

/-- A function: name and type. -/
abbrev Fn := CStr × Sig

/-! ## Headers -/

/-- `DGAHid` (`cocogen/dynamic_backend/gen_action_header.c:69-78`); `pre` is `current_trav_prefix`.  The name has no `next`. -/
def DGAHid (pre : Option CStr) (i : Id) : List Fn :=
  match pre with
  | none => []
  | some p => [(p ++ i.lwr, .node)]

/-- `DGAHsetliteral` (`cocogen/dynamic_backend/gen_action_header.c:61-66`): `TRAVchildren` visits the reference once more, then both
sides. -/
def DGAHsetliteral (pre : Option CStr) : Sets.Tree → List Fn
  | .null => []
  | .node _ _ i l r => DGAHid pre i ++ (DGAHid pre i ++ (DGAHsetliteral pre l ++ DGAHsetliteral pre r))

/-- `DGTAinode` (`cocogen/dynamic_backend/gen_trav_actions.c:20-26`). -/
def DGTAinode (pre : CStr) : List Id → List Fn
  | [] => []
  | n :: rest => (pre ++ n.lwr, .node) :: DGTAinode pre rest

/-- `DGAHitraversal` (`cocogen/dynamic_backend/gen_action_header.c:24-35`); the trees are `ITRAVERSAL_INODES` of the traversals. -/
def DGAHitraversal (nodes : List Id) : List (Trav × Sets.Tree) → List Fn
  | [] => []
  | (t, s) :: rest =>
    (match s.isNull with
    | false => DGAHsetliteral (some t.iprefix.upr) s
    | true => DGTAinode t.iprefix.upr nodes) ++ DGAHitraversal nodes rest

/-- The name that `DGAHipass` declares (`cocogen/dynamic_backend/gen_action_header.c:40-44`). -/
def passDecl (p : Pass) : CStr :=
  (match p.iprefix with
  | some u => u.upr
  | none => []) ++ p.name.orig

/-- `DGAHipass` (`cocogen/dynamic_backend/gen_action_header.c:37-47`). -/
def DGAHipass : List Pass → List Fn
  | [] => []
  | p :: rest => (passDecl p, .node) :: DGAHipass rest

/-- `DGAHinode` (`cocogen/dynamic_backend/gen_action_header.c:49-59`). -/
def DGAHinode : List Id → List Fn
  | [] => []
  | n :: rest => (sCPY ++ n.lwr, .node) :: (sDEL ++ n.lwr, .node) :: (sCHK ++ n.lwr, .node) :: DGAHinode rest

/-- `DGAHast` (`cocogen/dynamic_backend/gen_action_header.c:14-22`): `actions.h`.  The names in phases and enumerations and those of
nodesets are visited like the literals of nodesets, without a prefix. -/
def DGAHast (a : Decls) (sets trees : List Sets.Tree) : List Fn :=
  DGAHitraversal a.nodes (a.travs.zip trees) ++ (DGAHipass a.passes ++ (DGAHinode a.nodes ++ sets.flatMap (DGAHsetliteral none)))

/-- `DGTDCHitraversal` (`cocogen/dynamic_backend/gen_trav_data_ctors_header.c:7-17`): in `trav_data.h`. -/
def DGTDCHitraversal : List Trav → List Fn
  | [] => []
  | t :: rest =>
    (match t.data with
    | true => [(sData true ++ t.name.orig, .data), (sData false ++ t.name.orig, .data)]
    | false => []) ++ DGTDCHitraversal rest

/-! ## Functions -/

/-- `init` (`cocogen/dynamic_backend/gen_trav_data_ctors.c:19`). -/
def sInit : CStr := [105, 110, 105, 116]
/-- `fini` (`cocogen/dynamic_backend/gen_trav_data_ctors.c:20`). -/
def sFini : CStr := [102, 105, 110, 105]

/-- `DGTDCitraversal` (`cocogen/dynamic_backend/gen_trav_data_ctors.c:9-37`): the functions that it defines in `trav_data.c`. -/
def DGTDCdefs : List Trav → List Fn
  | [] => []
  | t :: rest =>
    (match t.data with
    | true => [(sData true ++ t.name.orig, .data), (sData false ++ t.name.orig, .data)]
    | false => []) ++ DGTDCdefs rest

/-- `DGTDCitraversal` (`cocogen/dynamic_backend/gen_trav_data_ctors.c:9-37`): the functions that it declares there and calls. -/
def DGTDCcalls : List Trav → List Fn
  | [] => []
  | t :: rest =>
    (match t.data with
    | true => [(t.iprefix.upr ++ sInit, .plain), (t.iprefix.upr ++ sFini, .plain)]
    | false => []) ++ DGTDCcalls rest

/-- `DGCTinode` (`cocogen/dynamic_backend/gen_copy_traversal.c:59-75`), `DGFTinode`
(`cocogen/dynamic_backend/gen_free_traversal.c:54-70`) and `DGCHTinode` (`cocogen/dynamic_backend/gen_check_traversal.c:87-115`) for the
three prefixes. -/
def systemInode (pre : CStr) : List Id → List Fn
  | [] => []
  | n :: rest => (pre ++ n.lwr, .node) :: systemInode pre rest

/-- `DUGTid` (`cocogen/dynamic_backend/gen_user_traversals.c:68-77`) for the literals of a set; `TRAVchildren` visits the reference, then
both sides. -/
def DUGTsetliteral (cur : CStr) : Sets.Tree → List Fn
  | .null => []
  | .node _ _ i l r => (cur ++ i.lwr, .node) :: (DUGTsetliteral cur l ++ DUGTsetliteral cur r)

/-- `DUGTinode` (`cocogen/dynamic_backend/gen_user_traversals.c:61-66`): the next nodes first. -/
def DUGTinode (cur : CStr) : List Id → List Fn
  | [] => []
  | n :: rest => DUGTinode cur rest ++ [(cur ++ n.lwr, .node)]

/-- `DUGTitraversal` (`cocogen/dynamic_backend/gen_user_traversals.c:20-59`): one file for each traversal. -/
def DUGTitraversal (nodes : List Id) : List (Trav × Sets.Tree) → List Fn
  | [] => []
  | (t, s) :: rest =>
    ((match t.data with
    | true => [(t.iprefix.upr ++ sInit, .plain), (t.iprefix.upr ++ sFini, .plain)]
    | false => []) ++
    (match s.isNull with
    | false => DUGTsetliteral t.iprefix.upr s
    | true => DUGTinode t.iprefix.upr nodes)) ++ DUGTitraversal nodes rest

/-- `DUGPipass` (`cocogen/dynamic_backend/gen_user_passes.c:21-29`). -/
def DUGPipass : List Pass → List Fn
  | [] => []
  | p :: rest => (DGHpassFuncName p, .node) :: DUGPipass rest

/-! ## All files -/

/-- The generated files: what the headers of `vtables.c` declare, what `vtables.c` refers to, what `trav_data.c` calls, and what is defined
in any file (`cocogen/main.ccn:89-114`). -/
structure Files where
  decls : List Fn
  refs : List Fn
  calls : List Fn
  defs : List Fn

/-- The function that an entry of a table refers to (`cocogen/dynamic_backend/gen_node_trav_table.c:26-32`); those of the library are left
out. -/
def ref (s : Sig) : Fun → Option Fn
  | .named f => some (f, s)
  | _ => none

/-- `ITRAVERSAL_INODES` of the traversals after resolution (`cocogen/frontend/unwrap_setexpr.c:18-84`); NULL if there is none.  `qs` is as
in `Verif.Targets.travsOf`. -/
def inodesOf (st : Unwrap.St) : List Parse.Traversal → List (Option Nat) → Res (List Sets.Tree)
  | [], _ => .ok []
  | t :: ts, qs =>
    match t.nodes, qs with
    | none, qs => do
      let l ← inodesOf st ts qs
      .ok (.null :: l)
    | some _, [] => .ub "no such expression"
    | some _, q :: qs => do
      let x ← Unwrap.litAt st q
      let l ← inodesOf st ts qs
      .ok (x :: l)

/-- The files for resolved sets (`cocogen/main.ccn:89-114`). -/
def filesOf (a : Decls) (ts : List Table) (sets trees : List Sets.Tree) : Files :=
  { decls := DGAHast a sets trees ++ DGTDCHitraversal a.travs
    refs := (ts.flatMap (·.entries)).filterMap (ref .node) ++ ((DGPTast a).filterMap (ref .node) ++
      ((DGTDTast true a).filterMap (ref .data) ++ (DGTDTast false a).filterMap (ref .data)))
    calls := DGTDCcalls a.travs
    defs := DGTDCdefs a.travs ++ (systemInode sCPY a.nodes ++ (systemInode sDEL a.nodes ++ (systemInode sCHK a.nodes ++
      (DUGPipass a.passes ++ DUGTitraversal a.nodes (a.travs.zip trees))))) }

/-- The generated files of a description (`cocogen/main.ccn:37-41`, `89-114`). -/
def files (fuel : Nat) (A : Parse.Ast) (tab : List (Ste Decl)) : Res Files := do
  let (qs, st) ← Unwrap.USEast tab fuel (A.nodesets.map fun s => exprOf s.expr) (A.traversals.filterMap fun t => t.nodes.map exprOf)
  let sets ← treesOf st (List.range A.nodesets.length)
  let trees ← inodesOf st A.traversals qs
  let ts ← tables fuel A tab
  .ok (filesOf (declsOf A) ts sets trees)

end Verif.Declared
