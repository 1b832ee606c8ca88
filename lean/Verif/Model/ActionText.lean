import Verif.Model.Declared
import Verif.Model.GenFiles

/-!
# Model of the text of `actions.h`

`cocogen/dynamic_backend/gen_action_header.c` and `gen_trav_actions.c`.  The order in which the tree is visited is that of `Model/Declared.lean`,
which has the names and types of the functions; here is how they are written.
-/

namespace Verif.ActionText
open Verif.Str Verif.Ids Verif.Tables
open Verif.Semantic (exprOf treesOf)
open Verif.Compiled (declsOf)

/-- `OUT_FIELD` of `DGH_TRAV_FUNC_SIG` or `DGH_PASS_FUNC_SIG`, without a name for the parameter (`cocogen/gen_helpers/out_macros.h:16`,
`cocogen/dynamic_backend/gen_helpers.h:17-18`, `cocogen/gen_helpers.h:3`). -/
def sig (pre name : CStr) : CStr := b!"ccn_node *" ++ (pre ++ (name ++ b!"(ccn_node *);\n"))

/-- `DGAHid` (`cocogen/dynamic_backend/gen_action_header.c:69-78`); `pre` is `current_trav_prefix`.  The name has no `next`. -/
def DGAHid (pre : Option CStr) (i : Id) : CStr :=
  match pre with
  | none => []
  | some p => sig p i.lwr

/-- `DGAHsetliteral` (`cocogen/dynamic_backend/gen_action_header.c:61-66`): `TRAVchildren` visits the reference once more, then both
sides. -/
def DGAHsetliteral (pre : Option CStr) : Sets.Tree → CStr
  | .null => []
  | .node _ _ i l r => DGAHid pre i ++ (DGAHid pre i ++ (DGAHsetliteral pre l ++ DGAHsetliteral pre r))

/-- `DGTAinode` (`cocogen/dynamic_backend/gen_trav_actions.c:20-26`). -/
def DGTAinode (pre : CStr) : List Id → CStr
  | [] => []
  | n :: rest => b!"struct ccn_node *" ++ (pre ++ (n.lwr ++ b!"(struct ccn_node *node);\n")) ++ DGTAinode pre rest

/-- `DGAHitraversal` (`cocogen/dynamic_backend/gen_action_header.c:24-35`); the trees are `ITRAVERSAL_INODES` of the traversals. -/
def DGAHitraversal (nodes : List Id) : List (Trav × Sets.Tree) → CStr
  | [] => []
  | (t, s) :: rest =>
    (match s.isNull with
    | false => DGAHsetliteral (some t.iprefix.upr) s
    | true => DGTAinode t.iprefix.upr nodes) ++ DGAHitraversal nodes rest

/-- `DGAHipass` (`cocogen/dynamic_backend/gen_action_header.c:37-47`). -/
def DGAHipass : List Pass → CStr
  | [] => []
  | p :: rest =>
    sig (match p.iprefix with
      | some u => u.upr
      | none => []) p.name.orig ++ DGAHipass rest

/-- `DGAHinode` (`cocogen/dynamic_backend/gen_action_header.c:49-59`). -/
def DGAHinode : List Id → CStr
  | [] => []
  | n :: rest => sig b!"CPY" n.lwr ++ (sig b!"DEL" n.lwr ++ (sig b!"CHK" n.lwr ++ DGAHinode rest))

/-- `DGAHast` (`cocogen/dynamic_backend/gen_action_header.c:14-22`), with the first line of `GNopenIncludeFile`
(`cocogen/generator/generator.c:54-61`) and `GH_ENSURE_DEFAULT_NODE_TYPE` (`cocogen/gen_helpers.h:3-4`). -/
def DGAHast (a : Decls) (sets trees : List Sets.Tree) : CStr :=
  b!"#pragma once\n" ++ (b!"typedef struct ccn_node ccn_node;\n" ++
  (DGAHitraversal a.nodes (a.travs.zip trees) ++ (DGAHipass a.passes ++ (DGAHinode a.nodes ++ sets.flatMap (DGAHsetliteral none)))))

/-- `actions.h` of a description with its symbol table (`cocogen/main.ccn:37-41`, `89-114`). -/
def actions (fuel : Nat) (A : Parse.Ast) (tab : List (Ste Decl)) : Res CStr := do
  let (qs, st) ← Unwrap.USEast tab fuel (A.nodesets.map fun s => exprOf s.expr) (A.traversals.filterMap fun t => t.nodes.map exprOf)
  let sets ← treesOf st (List.range A.nodesets.length)
  let trees ← Declared.inodesOf st A.traversals qs
  .ok (DGAHast (declsOf A) sets trees)

end Verif.ActionText
