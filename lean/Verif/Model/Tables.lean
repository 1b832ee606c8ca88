import Verif.Model.Ids
import Verif.Model.Reach

/-!
# Model of the generators of enumerations and tables

`cocogen/dynamic_backend/gen_enums.c`, `gen_trav_v_table.c`, `gen_node_trav_table.c`, `gen_system_traversals.c`,
`gen_trav_table.c`, `gen_trav_data_tables.c`, `gen_pass_table.c` and `cocogen/phase_driver/gen_action_array.c`,
`gen_action_array_header.c`, `gen_ids_table.c`.

* Output is the list of the names that are written between the braces of an `enum` or an array; white space, commas and
  includes are left out.  Text is a list of bytes, as in `Verif.Str`.
* Lists in the tree are the lists here, in the order of the `next` links.  `TRAVchildren` of the root node goes to phases,
  traversals and passes in that order (`cocogen/main.ccn:606-615`); in a list element it only adds children without
  handlers to what `TRAVnext` does.
* The matrix of reachability and the dispatch tables of user traversals are those of `Verif.Reach`.
-/

namespace Verif.Tables
open Verif.Str Verif.Ids Verif.Reach

/-- An `itraversal` (`cocogen/main.ccn:653-665`): `data` is whether it has data. -/
structure Trav where
  name : Id
  iprefix : Id
  index : Nat
  data : Bool

/-- An `ipass` (`cocogen/main.ccn:667-677`). -/
structure Pass where
  name : Id
  iprefix : Option Id
  func : Option Id

/-- An `iphase` (`cocogen/main.ccn:638-651`) with the references of its actions. -/
structure Phase where
  name : Id
  gate : Option Id
  cycle : Bool
  actions : List Id

/-- The lists of the root node (`cocogen/main.ccn:606-623`). -/
structure Decls where
  phases : List Phase
  travs : List Trav
  passes : List Pass
  nodes : List Id
  nodesets : List Id
  root : Id

/-- `NT_` (`cocogen/dynamic_backend/gen_enums.c:26`). -/
def sNT : CStr := [78, 84, 95]
/-- `NS_` (`cocogen/dynamic_backend/gen_enums.c:25`). -/
def sNS : CStr := [78, 83, 95]
/-- `TRAV_` (`cocogen/dynamic_backend/gen_enums.c:27`). -/
def sTRAV : CStr := [84, 82, 65, 86, 95]
/-- `PASS_` (`cocogen/dynamic_backend/gen_enums.c:28`). -/
def sPASS : CStr := [80, 65, 83, 83, 95]
/-- `CCNAC_ID_` (`cocogen/phase_driver/gen_action_array_header.c:17`, `29`). -/
def sID : CStr := [67, 67, 78, 65, 67, 95, 73, 68, 95]
/-- `NULL` (`cocogen/dynamic_backend/gen_enums.c:12`). -/
def sNULL : CStr := [78, 85, 76, 76]
/-- `SIZE` (`cocogen/dynamic_backend/gen_enums.c:19`). -/
def sSIZE : CStr := [83, 73, 90, 69]
/-- `free` (`cocogen/dynamic_backend/gen_enums.c:15`). -/
def sFree : CStr := [102, 114, 101, 101]
/-- `check` (`cocogen/dynamic_backend/gen_enums.c:16`). -/
def sCheck : CStr := [99, 104, 101, 99, 107]
/-- `cpy` (`cocogen/dynamic_backend/gen_enums.c:17`). -/
def sCpy : CStr := [99, 112, 121]
/-- `copy` (`cocogen/dynamic_backend/gen_system_traversals.c:42`). -/
def sCopy : CStr := [99, 111, 112, 121]
/-- `error` (`cocogen/dynamic_backend/gen_system_traversals.c:45`). -/
def sError : CStr := [101, 114, 114, 111, 114]
/-- `cleanup` (`cocogen/phase_driver/gen_action_array_header.c:33`). -/
def sCleanup : CStr := [99, 108, 101, 97, 110, 117, 112]
/-- `ccn_` (`cocogen/dynamic_backend/gen_system_traversals.c:17`). -/
def sCcn : CStr := [99, 99, 110, 95]
/-- `_vtable` (`cocogen/dynamic_backend/gen_system_traversals.c:17`). -/
def sVtable : CStr := [95, 118, 116, 97, 98, 108, 101]
/-- `_ids_table` (`cocogen/phase_driver/gen_ids_table.c:43`). -/
def sIdsTable : CStr := [95, 105, 100, 115, 95, 116, 97, 98, 108, 101]

/-- `do_enum` (`cocogen/dynamic_backend/gen_enums.c:8-21`); `fields` is what the traversal of the list writes. -/
def do_enum (fields : List CStr) (pre : CStr) : List CStr :=
  (pre ++ sNULL) :: fields ++
    (match STReq (some sTRAV) (some pre) with
    | true => [sTRAV ++ sFree, sTRAV ++ sCheck, sTRAV ++ sCpy]
    | false => []) ++ [95 :: pre ++ sSIZE]

/-- `DGEinodeset` (`cocogen/dynamic_backend/gen_enums.c:58-64`). -/
def DGEinodeset : List Id → List CStr
  | [] => []
  | n :: rest => (sNS ++ n.upr) :: DGEinodeset rest

/-- `DGEinode` (`cocogen/dynamic_backend/gen_enums.c:50-56`). -/
def DGEinode : List Id → List CStr
  | [] => []
  | n :: rest => (sNT ++ n.upr) :: DGEinode rest

/-- `DGEitraversal` (`cocogen/dynamic_backend/gen_enums.c:34-40`). -/
def DGEitraversal : List Trav → List CStr
  | [] => []
  | t :: rest => (sTRAV ++ t.iprefix.upr) :: DGEitraversal rest

/-- `DGEipass` (`cocogen/dynamic_backend/gen_enums.c:42-48`). -/
def DGEipass : List Pass → List CStr
  | [] => []
  | p :: rest => (sPASS ++ p.name.upr) :: DGEipass rest

/-- The four enumerations of `DGEast` (`cocogen/dynamic_backend/gen_enums.c:23-31`). -/
structure Enums where
  nodeset : List CStr
  node : List CStr
  trav : List CStr
  pass : List CStr

/-- `DGEast` (`cocogen/dynamic_backend/gen_enums.c:23-31`). -/
def DGEast (a : Decls) : Enums :=
  { nodeset := do_enum (DGEinodeset a.nodesets) sNS
    node := do_enum (DGEinode a.nodes) sNT
    trav := do_enum (DGEitraversal a.travs) sTRAV
    pass := do_enum (DGEipass a.passes) sPASS }

/-- A function in a dispatch table. -/
inductive Fun where
  | travError | travNop | travChildren | dataNop | passError
  /-- a function with this name -/
  | named (name : CStr)
  deriving DecidableEq, Repr

/-- A table of functions with its name (`cocogen/dynamic_backend/gen_trav_v_table.c:30`). -/
structure Table where
  name : CStr
  entries : List Fun

/-- The text of an entry (`cocogen/dynamic_backend/gen_node_trav_table.c:26-32`); `i` is the `INODE_INDEX` of the node. -/
def render (pre : CStr) (names : Nat → Id) : Handler → Fun
  | .user i => .named (pre ++ (names i).lwr)
  | .children => .travChildren
  | .nop => .travNop
  | .error => .travError

/-- `DGTVast` and `DGTVitraversal` (`cocogen/dynamic_backend/gen_trav_v_table.c:15-37`): the tables with their names. -/
def DGTVast (names : Nat → Id) : List Trav → List (List Handler) → List Table
  | t :: ts, h :: hs =>
    { name := t.name.lwr ++ sVtable, entries := h.map (render t.iprefix.upr names) } :: DGTVast names ts hs
  | _, _ => []

/-- `DGSTinode` (`cocogen/dynamic_backend/gen_system_traversals.c:50-62`); `none` is the prefix `ERR`. -/
def DGSTinode (pre : Option CStr) : List Id → List Fun
  | [] => []
  | n :: rest =>
    (match pre with
    | none => .travError
    | some p => .named (p ++ n.lwr)) :: DGSTinode pre rest

/-- `GenSystemTraversalVtable` (`cocogen/dynamic_backend/gen_system_traversals.c:29-36`). -/
def GenSystemTraversalVtable (pre : Option CStr) (name : CStr) (nodes : List Id) : Table :=
  { name := sCcn ++ name ++ sVtable, entries := .travError :: DGSTinode pre nodes }

/-- `CPY`, `CHK`, `DEL` (`cocogen/dynamic_backend/gen_system_traversals.c:41-43`). -/
def sCPY : CStr := [67, 80, 89]
/-- See `sCPY`. -/
def sCHK : CStr := [67, 72, 75]
/-- See `sCPY`. -/
def sDEL : CStr := [68, 69, 76]

/-- `DGSTast` (`cocogen/dynamic_backend/gen_system_traversals.c:38-48`). -/
def DGSTast (nodes : List Id) : List Table :=
  [GenSystemTraversalVtable (some sCPY) sCopy nodes, GenSystemTraversalVtable (some sCHK) sCheck nodes,
    GenSystemTraversalVtable (some sDEL) sFree nodes, GenSystemTraversalVtable none sError nodes]

/-- `DGTTitraversal` (`cocogen/dynamic_backend/gen_trav_table.c:28-34`): names of tables. -/
def DGTTitraversal : List Trav → List CStr
  | [] => []
  | t :: rest => (t.name.lwr ++ sVtable) :: DGTTitraversal rest

/-- `DGTTast` (`cocogen/dynamic_backend/gen_trav_table.c:13-25`). -/
def DGTTast (a : Decls) : List CStr :=
  (sCcn ++ sError ++ sVtable) :: DGTTitraversal a.travs ++
    [sCcn ++ sFree ++ sVtable, sCcn ++ sCheck ++ sVtable, sCcn ++ sCopy ++ sVtable]

/-- `TRAVdataInit` or `TRAVdataFree` (`cocogen/dynamic_backend/gen_trav_data_tables.c:49`, `51`). -/
def sData (init : Bool) : CStr :=
  match init with
  | true => [84, 82, 65, 86, 100, 97, 116, 97, 73, 110, 105, 116]
  | false => [84, 82, 65, 86, 100, 97, 116, 97, 70, 114, 101, 101]

/-- `DGTDTitraversal` (`cocogen/dynamic_backend/gen_trav_data_tables.c:43-58`). -/
def DGTDTitraversal (init : Bool) : List Trav → List Fun
  | [] => []
  | t :: rest =>
    (match t.data with
    | true => .named (sData init ++ t.name.orig)
    | false => .dataNop) :: DGTDTitraversal init rest

/-- `DGTDTast` (`cocogen/dynamic_backend/gen_trav_data_tables.c:17-41`), for one of the two tables. -/
def DGTDTast (init : Bool) (a : Decls) : List Fun :=
  .dataNop :: DGTDTitraversal init a.travs ++ [.dataNop, .dataNop, .dataNop]

/-- `DGHpassFuncName` (`cocogen/dynamic_backend/gen_helpers.c:6-17`). -/
def DGHpassFuncName (p : Pass) : CStr :=
  match p.func, p.iprefix with
  | some f, _ => f.orig
  | none, some u => u.upr ++ p.name.orig
  | none, none => p.name.orig

/-- `DGPTipass` (`cocogen/dynamic_backend/gen_pass_table.c:28-36`). -/
def DGPTipass : List Pass → List Fun
  | [] => []
  | p :: rest => .named (DGHpassFuncName p) :: DGPTipass rest

/-- `DGPTast` (`cocogen/dynamic_backend/gen_pass_table.c:17-25`). -/
def DGPTast (a : Decls) : List Fun := .passError :: DGPTipass a.passes

/-- `GAAHiphase` (`cocogen/phase_driver/gen_action_array_header.c:52-59`). -/
def GAAHiphase : List Phase → List CStr
  | [] => []
  | p :: rest => (sID ++ p.name.upr) :: GAAHiphase rest

/-- `GAAHitraversal` (`cocogen/phase_driver/gen_action_array_header.c:61-68`). -/
def GAAHitraversal : List Trav → List CStr
  | [] => []
  | t :: rest => (sID ++ t.name.upr) :: GAAHitraversal rest

/-- `GAAHipass` (`cocogen/phase_driver/gen_action_array_header.c:70-77`). -/
def GAAHipass : List Pass → List CStr
  | [] => []
  | p :: rest => (sID ++ p.name.upr) :: GAAHipass rest

/-- `GAAHast` (`cocogen/phase_driver/gen_action_array_header.c:21-50`): the enumeration. -/
def GAAHast (a : Decls) : List CStr :=
  GAAHiphase a.phases ++ (GAAHitraversal a.travs ++ GAAHipass a.passes) ++
    [sID ++ sCheck, sID ++ sFree, sID ++ sCleanup, sID ++ sNULL]

/-- What a descriptor runs (`cocogen/phase_driver/gen_action_array.c:26-33`, `50-76`). -/
inductive Body where
  /-- gate function, table of ids, whether it is a cycle, id used for the path -/
  | phase (gate : Option CStr) (table : CStr) (cycle : Bool) (id : CStr)
  /-- an enumerator of the traversals -/
  | traversal (trav : CStr)
  /-- an enumerator of the passes -/
  | pass (pass : CStr)
  deriving DecidableEq, Repr

/-- A `struct ccn_action` (`copra/ccn/action_types.h:25-34`). -/
structure Action where
  id : CStr
  name : CStr
  body : Body
  deriving DecidableEq, Repr

/-- `GAAiphase` (`cocogen/phase_driver/gen_action_array.c:46-56`). -/
def GAAiphase : List Phase → List Action
  | [] => []
  | p :: rest =>
    { id := sID ++ p.name.upr, name := p.name.orig
      body := .phase (p.gate.map (·.orig)) (p.name.lwr ++ sIdsTable) p.cycle (sID ++ p.name.upr) } :: GAAiphase rest

/-- `GAAitraversal` (`cocogen/phase_driver/gen_action_array.c:59-68`). -/
def GAAitraversal : List Trav → List Action
  | [] => []
  | t :: rest =>
    { id := sID ++ t.name.upr, name := t.name.orig, body := .traversal (sTRAV ++ t.iprefix.upr) } :: GAAitraversal rest

/-- `GAAipass` (`cocogen/phase_driver/gen_action_array.c:70-79`). -/
def GAAipass : List Pass → List Action
  | [] => []
  | p :: rest => { id := sID ++ p.name.upr, name := p.name.orig, body := .pass (sPASS ++ p.name.upr) } :: GAAipass rest

/-- `GAAast` (`cocogen/phase_driver/gen_action_array.c:19-44`): the array. -/
def GAAast (a : Decls) : List Action :=
  GAAiphase a.phases ++ (GAAitraversal a.travs ++ GAAipass a.passes) ++
    [{ id := sID ++ sFree, name := [70, 114, 101, 101], body := .traversal (sTRAV ++ sFree) },
      { id := sID ++ sCleanup, name := [67, 108, 101, 97, 110, 117, 112]
        body := .phase none (sCleanup ++ sIdsTable) false (sID ++ sCleanup) }]

/-- The generated `CCNgetActionFromID` (`cocogen/phase_driver/gen_action_array.c:37-40`): the array has no declared size,
so that other indices are outside. -/
def CCNgetActionFromID (a : Decls) (id : Nat) : Res Action :=
  match (GAAast a)[id]? with
  | some x => .ok x
  | none => .ub "ccn_action_array out of bounds"

/-- `GITiactions` (`cocogen/phase_driver/gen_ids_table.c:32-38`). -/
def GITiactions : List Id → List CStr
  | [] => []
  | r :: rest => (sID ++ r.upr) :: GITiactions rest

/-- `GITiphase` (`cocogen/phase_driver/gen_ids_table.c:40-50`): the tables with their names. -/
def GITiphase : List Phase → List (CStr × List CStr)
  | [] => []
  | p :: rest => (p.name.lwr ++ sIdsTable, GITiactions p.actions ++ [sID ++ sNULL]) :: GITiphase rest

/-- `GITast` (`cocogen/phase_driver/gen_ids_table.c:14-30`). -/
def GITast (a : Decls) : List (CStr × List CStr) :=
  (sCleanup ++ sIdsTable, [sID ++ sFree, sID ++ sNULL]) :: GITiphase a.phases

/-- The value of an enumerator: the first has value 0, each later one is one more. -/
def value (e : List CStr) (f : CStr) : Option Nat := e.findIdx? fun x => decide (x = f)

/-- The lookup of `TRAVdo` (`copra/src/dynamic_core.c:48-52`): a table of the given name, and its entry. -/
def travFunc (vtable : List CStr) (tables : List Table) (trav node : Nat) : Res Fun :=
  match vtable[trav]? with
  | none => .ub "ccn_trav_vtable out of bounds"
  | some n =>
    match tables.find? fun t => decide (t.name = n) with
    | none => .ub "undeclared table"
    | some t =>
      match t.entries[node]? with
      | none => .ub "table out of bounds"
      | some f => .ok f

end Verif.Tables
