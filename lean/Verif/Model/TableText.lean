import Verif.Model.EnumHeader
import Verif.Model.GenFiles
import Verif.Model.Targets

/-!
# Model of the text of `enum.h` and `vtables.c`

`cocogen/dynamic_backend/gen_enums.c`, `gen_enum_values.c`, `gen_trav_v_table.c`, `gen_node_trav_table.c`, `gen_pass_table.c`,
`gen_system_traversals.c`, `gen_trav_table.c`, `gen_trav_data_tables.c`, in the order of `cocogen/main.ccn:96-104`.

The indentation of the generator (four spaces in an enumeration, none in `vtables.c`) is part of the text here.  Which function is in the table of
a traversal of the user is decided in `Model/Targets.lean`; here is how it is written.
-/

namespace Verif.TableText
open Verif.Str Verif.Ids Verif.Tables
open Verif.Semantic (idOf)
open Verif.Compiled (declsOf)

/-! ### `enum.h` -/

/-- `OUT_ENUM_FIELD` (`cocogen/gen_helpers/out_macros.h:25`) inside an enumeration. -/
def field (f : CStr) : CStr := b!"    " ++ (f ++ b!",\n")

/-- `do_enum` (`cocogen/dynamic_backend/gen_enums.c:8-21`); `fields` is what the traversal of the list writes. -/
def do_enum (name fields pre : CStr) : CStr :=
  b!"enum " ++ (name ++ (b!" {\n" ++ (field (pre ++ b!"NULL") ++ (fields ++
  ((match STReq (some b!"TRAV_") (some pre) with
    | true => field b!"TRAV_free" ++ (field b!"TRAV_check" ++ field b!"TRAV_cpy")
    | false => []) ++
  (field (b!"_" ++ (pre ++ b!"SIZE")) ++ b!"};\n\n"))))))

/-- `DGEinodeset` (`cocogen/dynamic_backend/gen_enums.c:58-64`). -/
def DGEinodeset : List Id → CStr
  | [] => []
  | n :: rest => field (b!"NS_" ++ n.upr) ++ DGEinodeset rest

/-- `DGEinode` (`cocogen/dynamic_backend/gen_enums.c:50-56`). -/
def DGEinode : List Id → CStr
  | [] => []
  | n :: rest => field (b!"NT_" ++ n.upr) ++ DGEinode rest

/-- `DGEitraversal` (`cocogen/dynamic_backend/gen_enums.c:34-40`). -/
def DGEitraversal : List Trav → CStr
  | [] => []
  | t :: rest => field (b!"TRAV_" ++ t.iprefix.upr) ++ DGEitraversal rest

/-- `DGEipass` (`cocogen/dynamic_backend/gen_enums.c:42-48`). -/
def DGEipass : List Pass → CStr
  | [] => []
  | p :: rest => field (b!"PASS_" ++ p.name.upr) ++ DGEipass rest

/-- `DGEast` (`cocogen/dynamic_backend/gen_enums.c:23-31`). -/
def DGEast (a : Decls) : CStr :=
  do_enum b!"nodesettype" (DGEinodeset a.nodesets) b!"NS_" ++ (do_enum b!"ccn_nodetype" (DGEinode a.nodes) b!"NT_" ++
  (do_enum b!"ccn_traversal_type" (DGEitraversal a.travs) b!"TRAV_" ++ do_enum b!"ccn_pass_type" (DGEipass a.passes) b!"PASS_"))

/-- `DGEVid` (`cocogen/dynamic_backend/gen_enum_values.c:27-33`); `pre` is `enum_prefx`. -/
def DGEVid (pre : CStr) : List Id → CStr
  | [] => []
  | v :: rest => field (pre ++ (b!"_" ++ v.lwr)) ++ DGEVid pre rest

/-- `DGEVienum` (`cocogen/dynamic_backend/gen_enum_values.c:15-25`). -/
def DGEVienum : List EnumHeader.Enum → CStr
  | [] => []
  | e :: rest => (b!"enum " ++ (e.name.orig ++ (b!" {\n" ++ (field (e.iprefix.upr ++ b!"_NULL") ++ (DGEVid e.iprefix.upr e.vals ++ b!"};\n\n"))))) ++
    DGEVienum rest

/-- `DGEVast` (`cocogen/dynamic_backend/gen_enum_values.c:8-12`). -/
def DGEVast (A : Parse.Ast) : CStr := DGEVienum (A.enums.map fun e => ⟨idOf e.name, idOf e.pre, e.vals.map idOf⟩)

/-- `enum.h` (`cocogen/main.ccn:96-98`, `cocogen/dynamic_backend/file_switchers.c:84-89`, `cocogen/generator/generator.c:54-61`). -/
def enumText (A : Parse.Ast) : CStr := b!"#pragma once\n" ++ (DGEast (declsOf A) ++ DGEVast A)

/-! ### `vtables.c` -/

/-- `DGNFTTinode` (`cocogen/dynamic_backend/gen_node_trav_table.c:22-38`), and the first entry (`gen_trav_v_table.c:29`).  The last two are in
other tables only. -/
def DGNFTTinode : Fun → CStr
  | .named w => b!"&" ++ (w ++ b!", ")
  | .travChildren => b!"&TRAVchildren" ++ b!", "
  | .travNop => b!"&TRAVnop" ++ b!", "
  | .travError => b!"&TRAVerror, "
  | .dataNop => []
  | .passError => []

/-- `DGTVitraversal` (`cocogen/dynamic_backend/gen_trav_v_table.c:25-35`) for a table; its name is that of the traversal with `_vtable`. -/
def DGTVitraversal (x : Table) : CStr :=
  b!"const ccn_trav_ft " ++ (x.name ++ (b!"[_NT_SIZE] = { " ++ (x.entries.flatMap DGNFTTinode ++ b!"};\n")))

/-- `DGTVast` (`cocogen/dynamic_backend/gen_trav_v_table.c:14-21`). -/
def DGTVast (l : List Table) : CStr := b!"#include \"ccn/dynamic_core.h\"\n" ++ l.flatMap DGTVitraversal

/-- `DGPTipass` (`cocogen/dynamic_backend/gen_pass_table.c:28-36`). -/
def DGPTipass : List Pass → CStr
  | [] => []
  | p :: rest => (b!"&" ++ (DGHpassFuncName p ++ b!", ")) ++ DGPTipass rest

/-- `DGPTast` (`cocogen/dynamic_backend/gen_pass_table.c:17-25`). -/
def DGPTast (l : List Pass) : CStr :=
  b!"const ccn_pass_ft ccn_pass_vtable[_PASS_SIZE] = { &PASSerror, " ++ (DGPTipass l ++ b!"};\n")

/-- `DGSTinode` (`cocogen/dynamic_backend/gen_system_traversals.c:49-61`). -/
def DGSTinode (pre : CStr) : List Id → CStr
  | [] => []
  | n :: rest =>
    (match STReq (some pre) (some b!"ERR") with
    | true => b!"&TRAVerror,"
    | false => b!"&" ++ (pre ++ (n.lwr ++ b!", "))) ++ DGSTinode pre rest

/-- `GenSystemTraversalVtable` (`cocogen/dynamic_backend/gen_system_traversals.c:17`, `29-36`). -/
def GenSystemTraversalVtable (pre name : CStr) (nodes : List Id) : CStr :=
  b!"const ccn_trav_ft ccn_" ++ (name ++ (b!"_vtable[_NT_SIZE] = { &TRAVerror, " ++ (DGSTinode pre nodes ++ b!"};\n")))

/-- `DGSTast` (`cocogen/dynamic_backend/gen_system_traversals.c:38-47`). -/
def DGSTast (nodes : List Id) : CStr :=
  GenSystemTraversalVtable b!"CPY" b!"copy" nodes ++ (GenSystemTraversalVtable b!"CHK" b!"check" nodes ++
  (GenSystemTraversalVtable b!"DEL" b!"free" nodes ++ GenSystemTraversalVtable b!"ERR" b!"error" nodes))

/-- `DGTTitraversal` (`cocogen/dynamic_backend/gen_trav_table.c:28-34`). -/
def DGTTitraversal : List Trav → CStr
  | [] => []
  | t :: rest => (t.name.lwr ++ b!"_vtable, ") ++ DGTTitraversal rest

/-- `DGTTast` (`cocogen/dynamic_backend/gen_trav_table.c:13-25`). -/
def DGTTast (l : List Trav) : CStr :=
  b!"const ccn_trav_ft *ccn_trav_vtable[_TRAV_SIZE] = { ccn_error_vtable, " ++ (DGTTitraversal l ++
  (b!"ccn_free_vtable, " ++ (b!"ccn_check_vtable, " ++ (b!"ccn_copy_vtable, " ++ b!"};\n"))))

/-- `DGTDTitraversal` (`cocogen/dynamic_backend/gen_trav_data_tables.c:42-57`); `init` is `in_init_round`. -/
def DGTDTitraversal (init : Bool) : List Trav → CStr
  | [] => []
  | t :: rest =>
    (match t.data, init with
    | true, true => b!"TRAVdataInit" ++ (t.name.orig ++ b!",")
    | true, false => b!"TRAVdataFree" ++ (t.name.orig ++ b!",")
    | false, _ => b!"TRAVdataNOP,") ++ DGTDTitraversal init rest

/-- `DGTDTast` (`cocogen/dynamic_backend/gen_trav_data_tables.c:17-40`). -/
def DGTDTast (l : List Trav) : CStr :=
  b!"const ccn_trav_data_ft trav_data_init_vtable[_TRAV_SIZE] = {TRAVdataNOP," ++ (DGTDTitraversal true l ++
  (b!"TRAVdataNOP, TRAVdataNOP, TRAVdataNOP" ++ (b!"};\n" ++
  (b!"const ccn_trav_data_ft trav_data_free_vtable[_TRAV_SIZE] = {TRAVdataNOP," ++ (DGTDTitraversal false l ++
  (b!"TRAVdataNOP, TRAVdataNOP, TRAVdataNOP" ++ b!"};\n"))))))

/-- `vtables.c` (`cocogen/main.ccn:99-104`, `cocogen/dynamic_backend/file_switchers.c:91-99`) for the tables of the traversals of the user. -/
def tableText (a : Decls) (user : List Table) : CStr :=
  b!"#include \"ccngen/actions.h\"\n" ++ (b!"#include \"ccn/ccn_types.h\"\n" ++
  (DGTVast user ++ (DGPTast a.passes ++ (DGSTast a.nodes ++ (DGTTast a.travs ++ DGTDTast a.travs)))))

/-- `vtables.c` of a description with its symbol table (`cocogen/main.ccn:37-41`, `99-104`): the first tables are those of its traversals. -/
def vtables (fuel : Nat) (A : Parse.Ast) (tab : List (Ste Decl)) : Res CStr := do
  let ts ← Targets.tables fuel A tab
  .ok (tableText (declsOf A) (ts.take A.traversals.length))

end Verif.TableText
