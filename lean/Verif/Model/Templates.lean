import Verif.Model.Declared
import Verif.Model.GenFiles

/-!
# Model of the text of the files for the user (`cocogen/dynamic_backend/gen_user_traversals.c`, `gen_user_passes.c`)

The indentation of the generator (four spaces in a function) is part of the text here.  Simplifications: the names of the files are in `Model/GenFiles.lean`.
-/

namespace Verif.Templates
open Verif.Str Verif.Ids Verif.Tables
open Verif.Semantic (idOf exprOf)
open Verif.Compiled (declsOf)
open Verif.Declared (inodesOf)

/-- `DUGTid` (`cocogen/dynamic_backend/gen_user_traversals.c:68-77`); `cur` is `curr_trav`.  The name has no `next`. -/
def DUGTid (cur : CStr) (i : Id) : CStr :=
  b!"/**\n" ++ (b!" * @fn " ++ (cur ++ (i.lwr ++ (b!"\n" ++ (b!" */\n" ++ (b!"node_st *" ++ (cur ++ (i.lwr ++
    b!"(node_st *node)\n{\n    TRAVchildren(node);\n    return node;\n}\n\n"))))))))

/-- The literals of a set (`cocogen/dynamic_backend/gen_user_traversals.c:51-52`): `TRAVchildren` visits the reference, then both sides. -/
def DUGTsetliteral (cur : CStr) : Sets.Tree → CStr
  | .null => []
  | .node _ _ i l r => DUGTid cur i ++ (DUGTsetliteral cur l ++ DUGTsetliteral cur r)

/-- `DUGTinode` (`cocogen/dynamic_backend/gen_user_traversals.c:61-66`): the next nodes first. -/
def DUGTinode (cur : CStr) : List Id → CStr
  | [] => []
  | n :: rest => DUGTinode cur rest ++ DUGTid cur n

/-- `DUGTitraversal` (`cocogen/dynamic_backend/gen_user_traversals.c:20-59`): the file of a traversal; `s` is `ITRAVERSAL_INODES`. -/
def DUGTitraversal (nodes : List Id) (t : Parse.Traversal) (s : Sets.Tree) : CStr :=
  b!"/**\n" ++ (b!" * @file\n" ++ (b!" *\n" ++ (b!" * Traversal: " ++ ((idOf t.name).orig ++ (b!"\n" ++ (b!" * UID      : " ++
  ((idOf t.uid).upr ++ (b!"\n" ++ (b!" *\n" ++ (b!" *\n" ++
  ((match t.info with
    | some info => b!" * @brief " ++ (info ++ b!"\n")
    | none => []) ++
  (b!" */\n\n" ++ (b!"#include \"ccn/ccn.h\"\n" ++ (b!"#include \"ccngen/ast.h\"\n" ++ (b!"#include \"ccngen/trav.h\"\n" ++ (b!"\n" ++
  ((match t.data with
    | _ :: _ => b!"void " ++ ((idOf t.uid).upr ++ (b!"init() { return; }\n" ++ (b!"void " ++ ((idOf t.uid).upr ++ (b!"fini() { return; }\n" ++ b!"\n")))))
    | [] => []) ++
  (match s.isNull with
    | false => DUGTsetliteral (idOf t.uid).upr s
    | true => DUGTinode (idOf t.uid).upr nodes))))))))))))))))))

/-- `DUGPipass` (`cocogen/dynamic_backend/gen_user_passes.c:21-29`). -/
def DUGPipass : List Pass → CStr
  | [] => []
  | p :: rest => (b!"node_st *" ++ (DGHpassFuncName p ++ b!"(node_st *root)\n{\n    return root;\n}\n\n")) ++ DUGPipass rest

/-- `DUGPast` (`cocogen/dynamic_backend/gen_user_passes.c:11-19`): `passes.c`. -/
def DUGPast (l : List Pass) : CStr := b!"#include \"ccn/ccn.h\"\n\n" ++ (b!"#include \"ccngen/ast.h\"\n\n" ++ DUGPipass l)

/-- The files for the user, for a description with its symbol table (`cocogen/main.ccn:37-41`, `89-114`): those of the traversals in their order,
and `passes.c`. -/
def templates (fuel : Nat) (A : Parse.Ast) (tab : List (Ste Decl)) : Res (List CStr × CStr) := do
  let (qs, st) ← Unwrap.USEast tab fuel (A.nodesets.map fun s => exprOf s.expr) (A.traversals.filterMap fun t => t.nodes.map exprOf)
  let trees ← inodesOf st A.traversals qs
  .ok ((A.traversals.zip trees).map fun x => DUGTitraversal (declsOf A).nodes x.1 x.2, DUGPast (declsOf A).passes)

end Verif.Templates
