import Verif.Model.Compiled

/-!
# Model of the generator of `enum.h`

`cocogen/dynamic_backend/gen_enum_values.c`, behind `gen_enums.c` (`Verif.Tables`), which writes to the same file
(`cocogen/main.ccn:96-98`, `cocogen/dynamic_backend/file_switchers.c:84-89`).

* Output is the list of enumerations: the tag and the list of the names between the braces.  White space and commas are left out.
-/

namespace Verif.EnumHeader
open Verif.Str Verif.Ids Verif.Tables
open Verif.Semantic (idOf)
open Verif.Compiled (declsOf)

/-- `nodesettype` (`cocogen/dynamic_backend/gen_enums.c:25`). -/
def sNodeset : CStr := [110, 111, 100, 101, 115, 101, 116, 116, 121, 112, 101]
/-- `ccn_nodetype` (`cocogen/dynamic_backend/gen_enums.c:26`). -/
def sNode : CStr := [99, 99, 110, 95, 110, 111, 100, 101, 116, 121, 112, 101]
/-- `ccn_traversal_type` (`cocogen/dynamic_backend/gen_enums.c:27`). -/
def sTraversal : CStr := [99, 99, 110, 95, 116, 114, 97, 118, 101, 114, 115, 97, 108, 95, 116, 121, 112, 101]
/-- `ccn_pass_type` (`cocogen/dynamic_backend/gen_enums.c:28`). -/
def sPass : CStr := [99, 99, 110, 95, 112, 97, 115, 115, 95, 116, 121, 112, 101]

/-- An `ienum` (`cocogen/main.ccn:944-955`). -/
structure Enum where
  name : Id
  iprefix : Id
  vals : List Id

/-- `DGEVid` (`cocogen/dynamic_backend/gen_enum_values.c:27-33`); `pre` is `enum_prefx`. -/
def DGEVid (pre : CStr) : List Id → List CStr
  | [] => []
  | v :: rest => (pre ++ 95 :: v.lwr) :: DGEVid pre rest

/-- `DGEVienum` (`cocogen/dynamic_backend/gen_enum_values.c:15-25`). -/
def DGEVienum : List Enum → List (CStr × List CStr)
  | [] => []
  | e :: rest => (e.name.orig, (e.iprefix.upr ++ 95 :: sNULL) :: DGEVid e.iprefix.upr e.vals) :: DGEVienum rest

/-- `DGEVast` (`cocogen/dynamic_backend/gen_enum_values.c:8-12`) on the tree of a description. -/
def DGEVast (A : Parse.Ast) : List (CStr × List CStr) :=
  DGEVienum (A.enums.map fun e => ⟨idOf e.name, idOf e.pre, e.vals.map idOf⟩)

/-- `enum.h` (`cocogen/main.ccn:96-98`): the enumerations of `DGEast` (`cocogen/dynamic_backend/gen_enums.c:23-31`) and those of
`DGEVast`. -/
def header (A : Parse.Ast) : List (CStr × List CStr) :=
  [(sNodeset, (DGEast (declsOf A)).nodeset), (sNode, (DGEast (declsOf A)).node), (sTraversal, (DGEast (declsOf A)).trav),
    (sPass, (DGEast (declsOf A)).pass)] ++ DGEVast A

end Verif.EnumHeader
