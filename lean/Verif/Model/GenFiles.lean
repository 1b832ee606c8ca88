import Verif.Model.TravData

/-!
# Model of the files that are generated, and of what they include

`cocogen/generator/generator.c`, `cocogen/main.c`, `cocogen/dynamic_backend/file_switchers.c`, and the lines of all generators that open a
file, print an `#include`, or print a word that another header has to declare (`cocogen/main.ccn:1-17`, `77-188`).

* A file is a list of items: `#pragma once`, `#include`, the `#include` of the types of the user behind `#ifdef CCN_USES_UNSAFE`, and text.
  Of text only two lists are kept: the words that it declares for others, and the words that it uses of others: types, tags of enumerations,
  functions and macros of the libraries.  Names that are made of the names in the description (accessors, constructors, tables) are the subject
  of `Verif.Declared` and `Verif.NodeGen`; they are left out.
* A path is the text that is given to `fopen`.  Different texts are different files.
* The pictures and the log of the scheduler (`ag_dot/`, `log/`) and what is printed on the terminal are left out.
* The file in `ctx->fp` is represented by its path.  Writing and closing do not fail.
* Indentation is left out.
-/

namespace Verif.GenFiles
open Verif.Str Verif.Ids Verif.Semantic
open Verif.NodeGen (AT CTy Rhs attrType attrParam FMTattributeDefaultVal FMTattributeTypeToString)
open Verif.Described (nodeProg attrGen)

/-- Text as a list of bytes; the strings are those of the cited lines. -/
syntax:max "b!" str : term
macro_rules
  | `(b!$s:str) => do
    let xs := (s.getString.toUTF8.toList.map fun b => Lean.Syntax.mkNumLit (toString b.toNat)).toArray
    `(([$xs,*] : List UInt8))

/-- What a word is: an identifier, the tag of an enumeration, or a macro that `#ifdef` asks for.  The tags of enumerations are used in
`cocogen/dynamic_backend/gen_node_structs.c:79` only behind `enum`; the macro is in `cocogen/main.c:29`. -/
inductive Sym where
  | word (w : CStr)
  | tag (t : CStr)
  | define (m : CStr)
  deriving DecidableEq, Repr

/-- What is printed (`cocogen/dynamic_backend/file_switchers.c:13-28`). -/
inductive Item where
  /-- `#pragma once` -/
  | once
  /-- `#include <name>` or `#include "name"` -/
  | incl (sys : Bool) (name : CStr)
  /-- `#ifdef CCN_USES_UNSAFE`, `#include "name"`, `#endif` -/
  | ifUnsafe (name : CStr)
  /-- declarations -/
  | text (decls uses : List Sym)
  deriving DecidableEq, Repr

/-- What a generator does: open a file, with the path behind the directory for generated code, or print
(`cocogen/generator/generator.c:41-69`). -/
inductive Step where
  | fopen (path : CStr)
  | emit (i : Item)
  deriving DecidableEq, Repr

/-- Words. -/
abbrev words (l : List CStr) : List Sym := l.map .word

/-- `GNopenIncludeFile` (`cocogen/generator/generator.c:53-60`, `cocogen/main.c:51`). -/
def GNopenIncludeFile (name : CStr) : List Step := [.fopen (b!"ccngen/" ++ name), .emit .once]

/-- `GNopenEquationIncludeFile` (`cocogen/generator/generator.c:62-69`, `cocogen/main.c:52`). -/
def GNopenEquationIncludeFile (name : CStr) : List Step := [.fopen (b!"ccngen/equations/" ++ name), .emit .once]

/-- `GNopenSourceFile` (`cocogen/generator/generator.c:71-76`, `cocogen/main.c:56`). -/
def GNopenSourceFile (name : CStr) : List Step := [.fopen name]

/-- `GNopenUserFile` (`cocogen/generator/generator.c:85-90`, `cocogen/main.c:53`). -/
def GNopenUserFile (name : CStr) : List Step := [.fopen (b!"user/" ++ name)]

/-- `#include "name"`, `#include <name>`. -/
abbrev quote (name : CStr) : Step := .emit (.incl false name)
/-- `#include <name>`. -/
abbrev angle (name : CStr) : Step := .emit (.incl true name)
/-- The include of the types of the user (`cocogen/dynamic_backend/file_switchers.c:22-24`). -/
abbrev unsafeTypes : Step := .emit (.ifUnsafe b!"user_types.h")
/-- Text that uses words. -/
abbrev uses (l : List Sym) : Step := .emit (.text [] l)

/-! ## Types -/

/-- The words in a type (`cocogen/gen_helpers/format.c:48-89`, `cocogen/dynamic_backend/gen_node_access_funcs.c:18-34`): `int`, `float` and
`char` are words of C. -/
def typeWords : CTy → List Sym
  | .nodePtr => words [b!"node_st"]
  | .enum t => [.tag t]
  | .named n => words [n]
  | .basic .int8 => words [b!"int8_t"]
  | .basic .int16 => words [b!"int16_t"]
  | .basic .int32 => words [b!"int32_t"]
  | .basic .int64 => words [b!"int64_t"]
  | .basic .uint8 => words [b!"uint8_t"]
  | .basic .uint16 => words [b!"uint16_t"]
  | .basic .uint32 => words [b!"uint32_t"]
  | .basic .uint64 => words [b!"uint64_t"]
  | .basic .bool => words [b!"bool"]
  | .basic _ => []

/-- The words in a value (`cocogen/gen_helpers/format.c:16-46`). -/
def valueWords : Rhs → List Sym
  | .null => words [b!"NULL"]
  | .cfalse => words [b!"false"]
  | _ => []

/-- The types of the attributes of a node or nodeset (`cocogen/dynamic_backend/gen_node_structs.c:63-92`,
`gen_node_access_funcs.c:18-34`). -/
def attrsWords (p : NodeGen.Prog) : List NodeGen.Attr → Res (List Sym)
  | [] => .ok []
  | a :: rest => do
    let t ← attrType p a
    let ws ← attrsWords p rest
    .ok (typeWords t ++ ws)

/-- The types of the parameters for attributes (`cocogen/dynamic_backend/gen_node_init_funcs.c:63-83`,
`gen_node_constructor.c:70-93`). -/
def paramsWords : List NodeGen.Attr → Res (List Sym)
  | [] => .ok []
  | a :: rest =>
    match a.ctor with
    | false => paramsWords rest
    | true => do
      let q ← attrParam a
      let ws ← paramsWords rest
      .ok (typeWords q.ty ++ ws)

/-- The types of the attributes of all nodes (`cocogen/dynamic_backend/gen_node_structs.c:20-92`). -/
def nodesWords (p : NodeGen.Prog) : List NodeGen.Node → Res (List Sym)
  | [] => .ok []
  | n :: rest => do
    let ws ← attrsWords p n.attrs
    let vs ← nodesWords p rest
    .ok (ws ++ vs)

/-- The types of the attributes of all nodesets (`cocogen/dynamic_backend/gen_nodeset_access_funcs.c:60-116`). -/
def setsWords (p : NodeGen.Prog) : List NodeGen.NodeSet → Res (List Sym)
  | [] => .ok []
  | n :: rest => do
    let ws ← attrsWords p n.attrs
    let vs ← setsWords p rest
    .ok (ws ++ vs)

/-- The types of the parameters of all constructors (`cocogen/dynamic_backend/gen_node_init_funcs.c:24-83`). -/
def ctorsWords : List NodeGen.Node → Res (List Sym)
  | [] => .ok []
  | n :: rest => do
    let ws ← paramsWords n.attrs
    let vs ← ctorsWords rest
    .ok (ws ++ vs)

/-! ## `ast.h` and `ast.c` -/

/-- `dynamic_start_ast_header` (`cocogen/dynamic_backend/file_switchers.c:13-28`). -/
def dynamic_start_ast_header : List Step :=
  GNopenIncludeFile b!"ast.h" ++ [angle b!"stddef.h", quote b!"ccngen/ccn_defs.h", quote b!"ccn/ccn_types.h", quote b!"ccngen/enum.h",
    unsafeTypes, .emit (.text (words [b!"node_st"]) [])]

/-- `DGNSast` (`cocogen/dynamic_backend/gen_node_structs.c:20-92`): members of type `node_st *`, those for attributes, and `ccn_val_set`. -/
def DGNSast (p : NodeGen.Prog) : Res (List Step) := do
  let ws ← nodesWords p p.nodes
  .ok [uses (words [b!"node_st", b!"bool"] ++ ws)]

/-- `DGIFast` (`cocogen/dynamic_backend/gen_node_init_funcs.c:17-83`). -/
def DGIFast (p : NodeGen.Prog) : Res (List Step) := do
  let ws ← ctorsWords p.nodes
  .ok [uses (words [b!"node_st"] ++ ws)]

/-- `dynamicGenBaseNode` (`cocogen/dynamic_backend/gen_node_base_and_union.c:41-66`). -/
def dynamicGenBaseNode : List Step := [uses (.tag b!"ccn_nodetype" :: words [b!"node_st", b!"uint32_t"])]

/-- `DGNAFast` (`cocogen/dynamic_backend/gen_node_access_funcs.c:36-165`). -/
def DGNAFast (p : NodeGen.Prog) : Res (List Step) := do
  let ws ← nodesWords p p.nodes
  .ok [uses (words [b!"node_st", b!"bool", b!"true", b!"false"] ++ ws)]

/-- `DGNSAFast` (`cocogen/dynamic_backend/gen_nodeset_access_funcs.c:36-134`). -/
def DGNSAFast (p : NodeGen.Prog) : Res (List Step) := do
  let ws ← setsWords p p.sets
  .ok [uses (words [b!"node_st"] ++ ws)]

/-- `dynamicSwitchToAstSource` (`cocogen/dynamic_backend/file_switchers.c:30-40`). -/
def dynamicSwitchToAstSource : List Step :=
  GNopenSourceFile b!"ast.c" ++ [quote b!"ccngen/ast.h", quote b!"palm/memory.h", quote b!"palm/dbug.h"]

/-- `dynamicGenBaseNodeInit` (`cocogen/dynamic_backend/gen_node_base_and_union.c:15-38`). -/
def dynamicGenBaseNodeInit : List Step := [uses (words [b!"node_st", b!"MEMmalloc", b!"NULL"])]

/-- `DGNCast` (`cocogen/dynamic_backend/gen_node_constructor.c:17-107`). -/
def DGNCast (p : NodeGen.Prog) : Res (List Step) := do
  let ws ← ctorsWords p.nodes
  .ok [uses (words [b!"node_st", b!"MEMmalloc", b!"NULL", b!"false"] ++ ws)]

/-- `DGNAFEast` (`cocogen/dynamic_backend/gen_node_access_funcs_error.c:16-109`). -/
def DGNAFEast : List Step := [uses (words [b!"DBUGprintAssert", b!"bool"])]

/-- `DGNSAFEast` (`cocogen/dynamic_backend/gen_nodeset_access_funcs_error.c:16-64`). -/
def DGNSAFEast : List Step := [uses (words [b!"DBUGprintAssert"])]

/-- The phase `dynamicGenAst` (`cocogen/main.ccn:150-171`); `DGNMast` prints macros and `DGNUast` prints members, of which nothing is kept
here. -/
def dynamicGenAst (p : NodeGen.Prog) : Res (List Step) := do
  let s1 ← DGNSast p
  let s2 ← DGIFast p
  let s3 ← DGNAFast p
  let s4 ← DGNSAFast p
  let s5 ← DGNCast p
  .ok (dynamic_start_ast_header ++ (s1 ++ s2 ++ dynamicGenBaseNode ++ s3 ++ s4) ++
    (dynamicSwitchToAstSource ++ (dynamicGenBaseNodeInit ++ s5 ++ DGNAFEast ++ DGNSAFEast)))

/-! ## `enum.h` -/

/-- `dynamicStartEnumHeader`, `DGEast` and `DGEVast` (`cocogen/dynamic_backend/file_switchers.c:84-89`, `gen_enums.c:23-31`,
`gen_enum_values.c:8-33`): the tags and the constants. -/
def enumHeader (A : Parse.Ast) : List Step :=
  GNopenIncludeFile b!"enum.h" ++
    [.emit (.text ((EnumHeader.header A).map (fun e => .tag e.1) ++ (EnumHeader.header A).flatMap (fun e => words e.2)) [])]

/-! ## `trav_data.h` and `trav_data.c` -/

/-- The types of the data (`cocogen/dynamic_backend/gen_trav_structs.c:33-52`). -/
def fieldsWords (ss : List TravData.Struct) : List Sym := ss.flatMap fun s => s.fields.flatMap fun f => typeWords f.1

/-- The phase `dynamicGenTravData` (`cocogen/main.ccn:135-148`, `cocogen/dynamic_backend/file_switchers.c:101-127`,
`gen_trav_data_ctors.c:9-61`, `gen_trav_data_ctors_header.c:10-26`). -/
def dynamicGenTravData (c : TravData.Code) : List Step :=
  GNopenIncludeFile b!"trav_data.h" ++ ([quote b!"ccngen/ccn_defs.h", quote b!"ccn/ccn_types.h", unsafeTypes, quote b!"ccngen/ast.h",
    uses (words [b!"node_st"] ++ fieldsWords c.structs)]) ++
  (GNopenSourceFile b!"trav_data.c" ++ [angle b!"stdlib.h", quote b!"ccngen/trav_data.h", quote b!"ccn/dynamic_core.h",
    quote b!"palm/memory.h", uses (words [b!"ccn_trav_st", b!"MEMmalloc", b!"MEMfree", b!"NULL", b!"false"])])

/-! ## `vtables.c` and `actions.h` -/

/-- The tables (`cocogen/dynamic_backend/file_switchers.c:91-99`, `gen_trav_v_table.c:13-60`, `gen_pass_table.c:17-35`,
`gen_system_traversals.c:17-70`, `gen_trav_table.c:13-40`, `gen_trav_data_tables.c:17-60`). -/
def tables : List Step :=
  GNopenSourceFile b!"vtables.c" ++ [quote b!"ccngen/actions.h", quote b!"ccn/ccn_types.h", quote b!"ccn/dynamic_core.h",
    uses (words [b!"ccn_trav_ft", b!"ccn_pass_ft", b!"ccn_trav_data_ft", b!"_NT_SIZE", b!"_TRAV_SIZE", b!"_PASS_SIZE", b!"TRAVerror",
      b!"PASSerror", b!"TRAVchildren", b!"TRAVnop", b!"TRAVdataNOP"])]

/-- `DGAHast` (`cocogen/dynamic_backend/gen_action_header.c:14-60`): functions on `struct ccn_node *`. -/
def DGAHast : List Step := GNopenIncludeFile b!"actions.h" ++ [.emit (.text (words [b!"ccn_node"]) [])]

/-! ## Copy, free, check -/

/-- `DGCTast` (`cocogen/dynamic_backend/gen_copy_traversal.c:24-150`). -/
def DGCTast : List Step :=
  GNopenSourceFile b!"ccn_copy.c" ++ [quote b!"ccngen/ast.h", angle b!"stddef.h", quote b!"palm/str.h", quote b!"palm/ctinfo.h",
    quote b!"ccn/dynamic_core.h", uses (words [b!"node_st", b!"NULL", b!"STRcpy", b!"TRAVopt", b!"CTI", b!"CTI_WARN", b!"true"])]

/-- `DGFTast` (`cocogen/dynamic_backend/gen_free_traversal.c:16-90`). -/
def DGFTast : List Step :=
  GNopenSourceFile b!"ccn_free.c" ++ [quote b!"ccngen/ast.h", quote b!"ccn/dynamic_core.h", quote b!"palm/memory.h",
    uses (words [b!"NULL", b!"MEMfree", b!"TRAVchildren"])]

/-- `DGCHTast` (`cocogen/dynamic_backend/gen_check_traversal.c:34-280`). -/
def DGCHTast : List Step :=
  GNopenSourceFile b!"ccn_check.c" ++ [angle b!"stdbool.h", quote b!"ccn/dynamic_core.h", quote b!"ccn/phase_driver.h",
    quote b!"ccngen/ast.h", quote b!"palm/ctinfo.h",
    uses (.tag b!"ccn_nodetype" :: words [b!"node_st", b!"bool", b!"true", b!"false", b!"size_t", b!"CCNgetCurrentActionId",
      b!"TRAVchildren", b!"CTI", b!"CTI_ERROR", b!"NULL"])]

/-! ## Equations -/

/-- `ATTRIBUTE_REFERENCE_REFERENCE`: what the check of equations has stored in a reference (`cocogen/frontend/check_product_rules.c:138-205`;
`cocogen/dynamic_backend/gen_equation_functions.c:112`). -/
def refOf (env : ProductRules.Env) (nd : ProductRules.NodeD) (r : ProductRules.ARef) : Res Propagate.Attr :=
  match r.inode with
  | none =>
    match ProductRules.attrLoop r.iattr nd.attrs with
    | some b => .ok b
    | none => .ub "ATTRIBUTE_TYPE(NULL)"
  | some c =>
    match ProductRules.childLoop c nd.children with
    | none => .ub "ATTRIBUTE_TYPE(NULL)"
    | some ch => do
      let tl ← ProductRules.attributesOfType env ch.type
      match ProductRules.attrLoop r.iattr tl.2 with
      | some b => .ok b
      | none => .ub "ATTRIBUTE_TYPE(NULL)"

/-- `print_type` for a reference (`cocogen/dynamic_backend/gen_equation_functions.c:36-53`, `gen_user_equations.c:36-53`). -/
def refWords (p : NodeGen.Prog) (env : ProductRules.Env) (nd : ProductRules.NodeD) (r : ProductRules.ARef) : Res (List Sym) := do
  let b ← refOf env nd r
  let t ← attrType p (attrGen b)
  .ok (typeWords t)

/-- The types of the arguments (`cocogen/dynamic_backend/gen_equation_functions.c:110-136`); in the variant with all children, all arguments
are printed. -/
def argsWords (p : NodeGen.Prog) (env : ProductRules.Env) (nd : ProductRules.NodeD) : List ProductRules.ARef → Res (List Sym)
  | [] => .ok []
  | r :: rest => do
    let ws ← refWords p env nd r
    let vs ← argsWords p env nd rest
    .ok (ws ++ vs)

/-- `DGEFequation` (`cocogen/dynamic_backend/gen_equation_functions.c:141-186`) along the equations. -/
def DGEFequation (p : NodeGen.Prog) (env : ProductRules.Env) (nd : ProductRules.NodeD) : List ProductRules.Eqn → Res (List Item)
  | [] => .ok []
  | e :: rest => do
    let ws ← refWords p env nd e.rule
    let vs ← argsWords p env nd e.args
    let is ← DGEFequation p env nd rest
    .ok (.text [] (ws ++ vs) :: is)

/-- `DGEIinode` (`cocogen/dynamic_backend/gen_equation_includes.c:30-38`) along the nodes, each with what the check of equations has read of
it. -/
def DGEIinode : List (Parse.Node × ProductRules.NodeD) → List Step
  | [] => []
  | x :: rest =>
    match x.2.eqns with
    | [] => DGEIinode rest
    | _ :: _ => quote (b!"ccngen/equations/" ++ (idOf x.1.name).lwr ++ b!".h") :: DGEIinode rest

/-- `DGEFinode` (`cocogen/dynamic_backend/gen_equation_functions.c:66-86`) along the nodes. -/
def DGEFinode (p : NodeGen.Prog) (env : ProductRules.Env) : List (Parse.Node × ProductRules.NodeD) → Res (List Step)
  | [] => .ok []
  | x :: rest =>
    match x.2.eqns with
    | [] => DGEFinode p env rest
    | e :: es => do
      let is ← DGEFequation p env x.2 (e :: es)
      let ss ← DGEFinode p env rest
      .ok (GNopenEquationIncludeFile ((idOf x.1.name).lwr ++ b!".h") ++ ([quote b!"ccngen/ccn_defs.h", quote b!"ccn/ccn_types.h",
        quote b!"ccngen/enum.h", unsafeTypes] ++ is.map .emit) ++ ss)

/-- What is printed as result (`cocogen/dynamic_backend/gen_user_equations.c:184-186`). -/
def returnWords (b : Propagate.Attr) : Res (List Sym) :=
  match (attrGen b).type with
  | .user => .ok []
  | t => do
    let v ← FMTattributeDefaultVal t
    .ok (valueWords v)

/-- `DUGEequation` (`cocogen/dynamic_backend/gen_user_equations.c:132-196`) along the equations. -/
def DUGEequation (p : NodeGen.Prog) (env : ProductRules.Env) (nd : ProductRules.NodeD) : List ProductRules.Eqn → Res (List Item)
  | [] => .ok []
  | e :: rest => do
    let b ← refOf env nd e.rule
    let ws ← refWords p env nd e.rule
    let vs ← argsWords p env nd e.args
    let us ← returnWords b
    let is ← DUGEequation p env nd rest
    .ok (.text [] (ws ++ vs ++ us) :: is)

/-- `DUGEinode` (`cocogen/dynamic_backend/gen_user_equations.c:62-96`) along the nodes. -/
def DUGEinode (p : NodeGen.Prog) (env : ProductRules.Env) : List (Parse.Node × ProductRules.NodeD) → Res (List Step)
  | [] => .ok []
  | x :: rest =>
    match x.2.eqns with
    | [] => DUGEinode p env rest
    | e :: es => do
      let is ← DUGEequation p env x.2 (e :: es)
      let ss ← DUGEinode p env rest
      .ok (GNopenUserFile (b!"eq_" ++ (idOf x.1.name).lwr ++ b!".c") ++
        (quote (b!"ccngen/equations/" ++ (idOf x.1.name).lwr ++ b!".h") :: is.map .emit) ++ ss)

/-! ## Visits -/

/-- `visit.h` (`cocogen/dynamic_backend/file_switchers.c:50-64`, `gen_visit_header.c:26-100`).  The types are those of the inputs and outputs
of visits; here the types of all attributes are counted. -/
def visitHeader (p : NodeGen.Prog) : Res (List Step) := do
  let ws ← nodesWords p p.nodes
  let vs ← setsWords p p.sets
  .ok (GNopenIncludeFile b!"visit.h" ++ [quote b!"ccngen/ccn_defs.h", quote b!"ccn/ccn_types.h", quote b!"ccngen/enum.h",
    quote b!"ccngen/ast.h", unsafeTypes, uses (words [b!"node_st"] ++ (ws ++ vs))])

/-- `visit.c` (`cocogen/dynamic_backend/file_switchers.c:66-82`, `gen_visit_source.c:34-580`); types as in `visit.h`. -/
def visitSource (p : NodeGen.Prog) : Res (List Step) := do
  let ws ← nodesWords p p.nodes
  let vs ← setsWords p p.sets
  .ok (GNopenSourceFile b!"visit.c" ++ [quote b!"ccngen/equation.h", quote b!"ccngen/visit.h", quote b!"palm/dbug.h",
    uses (words [b!"node_st", b!"NULL", b!"true", b!"false", b!"DBUG_ASSERT"] ++ (ws ++ vs))])

/-- `ag.h` and `ag.c` (`cocogen/dynamic_backend/file_switchers.c:129-156`, `gen_ag_header.c:21-36`, `gen_ag_source.c:20-90`). -/
def agFiles : List Step :=
  GNopenIncludeFile b!"ag.h" ++ [quote b!"ccn/ccn_types.h", uses (words [b!"node_st"])] ++
  (GNopenSourceFile b!"ag.c" ++ [quote b!"ccn/phase_driver.h", quote b!"ccngen/ast.h", quote b!"ccngen/ag.h", quote b!"ccngen/enum.h",
    quote b!"ccngen/visit.h", quote b!"palm/ctinfo.h",
    uses (words [b!"node_st", b!"CTI", b!"CTI_ERROR", b!"CTIabortCompilation", b!"true"])])

/-- The phase `dynamicGenVisits` (`cocogen/main.ccn:173-191`). -/
def dynamicGenVisits (p : NodeGen.Prog) (env : ProductRules.Env) (l : List (Parse.Node × ProductRules.NodeD)) : Res (List Step) := do
  let s1 ← DGEFinode p env l
  let s2 ← visitHeader p
  let s3 ← visitSource p
  .ok (GNopenIncludeFile b!"equation.h" ++ DGEIinode l ++ (s1 ++ (s2 ++ (s3 ++ agFiles))))

/-! ## Files for the user, and functions of children -/

/-- `DUGPast` (`cocogen/dynamic_backend/gen_user_passes.c:11-29`). -/
def DUGPast (A : Parse.Ast) : List Step :=
  GNopenUserFile b!"passes.c" ++ ([quote b!"ccn/ccn.h", quote b!"ccngen/ast.h"] ++ A.passes.map fun _ => uses (words [b!"node_st"]))

/-- `DUGTitraversal` (`cocogen/dynamic_backend/gen_user_traversals.c:19-78`) along the traversals. -/
def DUGTitraversal : List Parse.Traversal → List Step
  | [] => []
  | t :: rest =>
    GNopenUserFile (b!"trav_" ++ (idOf t.name).lwr ++ b!".c") ++ [quote b!"ccn/ccn.h", quote b!"ccngen/ast.h", quote b!"ccngen/trav.h",
      uses (words [b!"node_st", b!"TRAVchildren"])] ++ DUGTitraversal rest

/-- `DGT_Fast` (`cocogen/dynamic_backend/gen_traversal_functions.c:19-78`). -/
def DGT_Fast : List Step :=
  GNopenSourceFile b!"trav.c" ++ [angle b!"stdbool.h", quote b!"palm/dbug.h", quote b!"ccn/ccn.h", quote b!"ccngen/ast.h",
    uses (words [b!"node_st", b!"TRAVopt", b!"DBUG_ASSERT", b!"false"])] ++
  (GNopenIncludeFile b!"trav.h" ++ [quote b!"ast.h", uses (words [b!"node_st"])])

/-! ## The driver of phases -/

/-- The gates of the phases (`cocogen/phase_driver/gen_gate_header.c:16-24`, `gen_action_array.c:36-48`). -/
def gates (A : Parse.Ast) : List CStr := A.phases.filterMap fun p => p.gate.map fun g => g.orig

/-- The phase `phaseDriver` (`cocogen/main.ccn:77-87`, `cocogen/phase_driver/gen_action_array_header.c:21-50`, `gen_ids_table.c:14-50`,
`gen_action_array.c:15-80`, `gen_gate_header.c:7-24`). -/
def phaseDriver (A : Parse.Ast) : List Step :=
  GNopenIncludeFile b!"action_handling.h" ++ [.emit (.text [.tag b!"ccn_action_id"] [])] ++
  (GNopenSourceFile b!"action_handling.c" ++ [angle b!"stddef.h", quote b!"ccn/action_types.h", quote b!"ccngen/action_handling.h",
    quote b!"ccngen/enum.h", quote b!"ccngen/ast.h", quote b!"ccngen/gate.h", quote b!"ccn/phase_driver.h",
    uses (.tag b!"ccn_action_id" :: (words [b!"ccn_action", b!"NULL"] ++ words (gates A)))] ++
  (GNopenIncludeFile b!"gate.h" ++ (gates A).map fun g => .emit (.text (words [g]) (words [b!"bool"]))))

/-- `GDast` (`cocogen/dot/gen_dot.c:17-30`): a file that is no text of C. -/
def GDast : List Step := GNopenSourceFile b!"ast.dot"

/-- `AST_USES_UNSAFE` (`cocogen/dynamic_backend/gen_node_structs.c:80-82`, `gen_trav_structs.c:43-45`). -/
def usesUnsafe (p : NodeGen.Prog) (c : TravData.Code) : Bool :=
  p.nodes.any (fun n => n.attrs.any fun a => decide (a.type = .user)) ||
    c.structs.any fun s => s.fields.any fun f => match f.1 with
      | .named _ => true
      | _ => false

/-- `genDefines` (`cocogen/main.c:25-34`). -/
def genDefines (u : Bool) : List Step :=
  GNopenIncludeFile b!"ccn_defs.h" ++ (match u with
    | true => [.emit (.text [.define b!"CCN_USES_UNSAFE"] [])]
    | false => [])

/-! ## The backends -/

/-- The phase `dynamicBackend` (`cocogen/main.ccn:89-113`). -/
def dynamicBackend (A : Parse.Ast) (o : Out) (c : TravData.Code) : Res (List Step) := do
  let s1 ← dynamicGenAst (nodeProg A o)
  let s2 ← dynamicGenVisits (nodeProg A o) (cprEnv A o.tab o.attrs) (A.nodes.zip (cprEnv A o.tab o.attrs).nodes)
  let s3 ← DUGEinode (nodeProg A o) (cprEnv A o.tab o.attrs) (A.nodes.zip (cprEnv A o.tab o.attrs).nodes)
  .ok (s1 ++ (enumHeader A ++ (dynamicGenTravData c ++ (tables ++ (DGAHast ++ (DGCTast ++ (DGFTast ++ (DGCHTast ++ (s2 ++
    (DUGPast A ++ (DUGTitraversal A.traversals ++ (s3 ++ DGT_Fast))))))))))))

/-- The types in `SGNSattribute` (`cocogen/static/gen_ast_structs.c:84-94`). -/
def SGNSattribute : List NodeGen.Attr → Res Unit
  | [] => .ok ()
  | a :: rest =>
    match a.type with
    | .link => SGNSattribute rest
    | t => do
      let _ ← FMTattributeTypeToString t
      SGNSattribute rest

/-- `SGNSast` (`cocogen/static/gen_ast_structs.c:17-60`), the only generator of the phase `staticBackend` (`cocogen/main.ccn:115-133`); the
names of the structures are left out. -/
def SGNSast (p : NodeGen.Prog) : Res (List Step) := do
  let _ ← SGNSattribute (p.nodes.flatMap (·.attrs))
  .ok (GNopenIncludeFile b!"ast.h" ++ [.emit (.text (words [b!"ccn_node"]) [])])

/-- `backendIsDynamic` (`cocogen/dynamic_backend/gate.c:11-14`); undefined for bytes above 127. -/
def backendIsDynamic (backend : CStr) : Res Bool := STReqci (some b!"dynamic") (some backend)

/-- `backendIsStatic` (`cocogen/static/gates.c:5-8`). -/
def backendIsStatic (backend : CStr) : Bool := STReq (some b!"static") (some backend)

/-- The phases behind the checks (`cocogen/main.ccn:1-17`).  The data of traversals is that of `Verif.TravData`. -/
def startPhase (backend : CStr) (A : Parse.Ast) (o : Out) : Res (List Step) := do
  let q ← CheckExist.CEXast o.tab (progOf A)
  let c ← TravData.generate (TravData.inputOf A o.tab q.prog)
  let dyn ← backendIsDynamic backend
  let s1 ← match dyn with
    | true => dynamicBackend A o c
    | false => .ok []
  let s2 ← match backendIsStatic backend with
    | true => SGNSast (nodeProg A o)
    | false => .ok []
  .ok (s1 ++ (s2 ++ (phaseDriver A ++ (GDast ++ genDefines (dyn && usesUnsafe (nodeProg A o) c)))))

/-! ## Files -/

/-- Directories, by texts that end in `/` (the empty text is the current directory), files, and the file in `ctx->fp`
(`cocogen/generator/generator.c:14-18`). -/
structure Disk where
  dirs : List CStr
  file : CStr → Option (List Item)
  cur : Option CStr

/-- The directory in a path: everything up to the last `/` (POSIX; `cocogen/generator/generator.c:46`). -/
def dirName (p : CStr) : CStr := (p.reverse.dropWhile fun c => c != 47).reverse

/-- `GNopenFile` (`cocogen/generator/generator.c:41-51`): `fopen` makes or empties a file, if its directory is there.  Simplification: no
directory has the name of the file. -/
def GNopenFile (path : CStr) (k : Disk) : Res Disk :=
  match k.dirs.contains (dirName path) with
  | false => .abort "Could not open file"
  | true => .ok { k with file := fun q => if q = path then some [] else k.file q, cur := some path }

/-- `GNprint` (`cocogen/generator/generator.c:92-121`). -/
def GNprint (i : Item) (k : Disk) : Res Disk :=
  match k.cur with
  | none => .ub "vfprintf(NULL)"
  | some path =>
    match k.file path with
    | none => .ub "no such file"
    | some c => .ok { k with file := fun q => if q = path then some (c ++ [i]) else k.file q }

/-- The steps of the generators, with the directory for generated code (`cocogen/main.c:51-56`). -/
def exec (dir : CStr) : List Step → Disk → Res Disk
  | [], k => .ok k
  | .fopen p :: rest, k => do
    let k ← GNopenFile (dir ++ p) k
    exec dir rest k
  | .emit i :: rest, k => do
    let k ← GNprint i k
    exec dir rest k

/-- `FSdirifyString` (`cocogen/filesystem/utils.c:4-7`). -/
def FSdirifyString (path : CStr) : Res CStr :=
  match path.getLast? with
  | none => .ub "path[-1]"
  | some c =>
    match c != 47 with
    | true => .ok (path ++ [47])
    | false => .ok path

/-- `FSensureDirExists` (`palm/src/filesystem.c:8-28`); `mkdir` makes the last part of the path only. -/
def FSensureDirExists (dirname : CStr) (k : Disk) : Res Disk :=
  match k.dirs.contains dirname with
  | true => .ok k
  | false =>
    match k.file dirname.dropLast with
    | some _ => .abort "Trying to create directory"
    | none =>
      match k.dirs.contains (dirName dirname.dropLast) with
      | false => .abort "Trying to create directory"
      | true => .ok { k with dirs := dirname :: k.dirs }

/-- `main` from line 51 on (`cocogen/main.c:51-78`): the option `--gen-dir` and the backend are given (`cocogen/commandline.c:60-150`), the
description is accepted. -/
def main (gen_dir backend : CStr) (A : Parse.Ast) (o : Out) (k : Disk) : Res Disk := do
  let d ← FSdirifyString gen_dir
  let k ← FSensureDirExists d k
  let k ← FSensureDirExists (d ++ b!"ccngen/") k
  let k ← FSensureDirExists (d ++ b!"ccngen/equations/") k
  let k ← FSensureDirExists (d ++ b!"user/") k
  let k ← FSensureDirExists (d ++ b!"ag_dot/") k
  let k ← FSensureDirExists (d ++ b!"log/") k
  let ss ← startPhase backend A o
  exec d ss k

/-! ## The headers of the libraries -/

/-- The headers that generated code includes, and those that they include.  Standard headers: the words that are used.  `user` is what the
header of the user declares.  `copra/ccn/ccn_types.h:1-18`, `copra/ccn/dynamic_core.h:1-26`, `copra/ccn/phase_driver.h:1-24`,
`copra/ccn/ccn.h:1-4`, `copra/ccn/action_types.h:1-36`, `palm/include/palm/memory.h:1-27`, `palm/include/palm/dbug.h:1-80`,
`palm/include/palm/str.h:1-12`, `palm/include/palm/ctinfo.h:34-130`. -/
def library (user : Option (List CStr)) : List (CStr × List Item) :=
  [(b!"stddef.h", [.once, .text (words [b!"NULL", b!"size_t"]) []]),
   (b!"stdlib.h", [.once, .text (words [b!"NULL", b!"size_t"]) []]),
   (b!"stdio.h", [.once, .text (words [b!"NULL", b!"size_t"]) []]),
   (b!"stdarg.h", [.once]),
   (b!"stdbool.h", [.once, .text (words [b!"bool", b!"true", b!"false"]) []]),
   (b!"stdint.h", [.once, .text (words [b!"int8_t", b!"int16_t", b!"int32_t", b!"int64_t", b!"uint8_t", b!"uint16_t", b!"uint32_t",
     b!"uint64_t"]) []]),
   (b!"ccn/ccn_types.h", [.once, .incl false b!"ccngen/enum.h", .incl true b!"stdbool.h", .incl true b!"stdint.h",
     .text (words [b!"ccn_trav_ft", b!"ccn_pass_ft", b!"ccn_trav_data_ft"]) (words [b!"_TRAV_SIZE", b!"_PASS_SIZE"])]),
   (b!"ccn/dynamic_core.h", [.once, .incl false b!"ccngen/enum.h", .incl false b!"ccn/ccn_types.h", .incl false b!"ccngen/trav_data.h",
     .text (words [b!"ccn_trav_st", b!"TRAVerror", b!"PASSerror", b!"TRAVopt", b!"TRAVstart", b!"PASSstart", b!"TRAVdo", b!"TRAVpush",
       b!"TRAVpop", b!"TRAVchildren", b!"TRAVnop", b!"TRAVdataNOP", b!"TRAVgetCurrent", b!"CCNcopy", b!"CCNfree"])
       [.tag b!"ccn_traversal_type", .tag b!"ccn_pass_type"]]),
   (b!"ccn/phase_driver.h", [.once, .incl true b!"stdbool.h", .incl true b!"stddef.h", .incl false b!"ccngen/ast.h",
     .text (words [b!"CCNrun", b!"CCNgetCurrentActionId"]) (words [b!"node_st", b!"size_t", b!"bool"])]),
   (b!"ccn/ccn.h", [.once, .incl false b!"ccn/phase_driver.h", .incl false b!"ccn/dynamic_core.h"]),
   (b!"ccn/action_types.h", [.once, .incl true b!"stdbool.h", .incl false b!"ccngen/enum.h", .incl false b!"ccngen/action_handling.h",
     .text (words [b!"ccn_action"]) (words [b!"bool"] ++ [.tag b!"ccn_pass_type", .tag b!"ccn_nodetype", .tag b!"ccn_action_id",
       .tag b!"ccn_traversal_type"])]),
   (b!"palm/memory.h", [.once, .incl true b!"stdlib.h", .text (words [b!"MEMmalloc", b!"MEMfree"]) (words [b!"size_t"])]),
   (b!"palm/dbug.h", [.once, .incl true b!"stdio.h", .text (words [b!"DBUG_ASSERT", b!"DBUGprintAssert"]) []]),
   (b!"palm/str.h", [.once, .incl true b!"stdbool.h", .incl true b!"stddef.h", .text (words [b!"STRcpy"]) (words [b!"bool", b!"size_t"])]),
   (b!"palm/ctinfo.h", [.once, .incl true b!"stdarg.h", .incl true b!"stdbool.h",
     .text (words [b!"CTI", b!"CTIabortCompilation", b!"CTI_ERROR", b!"CTI_WARN"]) (words [b!"bool"])])] ++
  (match user with
   | none => []
   | some l => [(b!"user_types.h", [.once, .text (words l) []])])

end Verif.GenFiles
