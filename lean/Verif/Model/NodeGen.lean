import Verif.Model.Ids
import Verif.Model.HashTable

/-!
# Model of the generated node types, accessors, constructors and `TRAV` functions

What `cocogen` prints into `ccngen/ast.h`, `ccngen/ast.c` and `ccngen/trav.c` for the nodes and nodesets of a
specification: the structures, the access macros and functions, the constructors and the functions that traverse one
child.  The generators are modelled piece by piece; the printed text is a small abstract syntax, in which all names are
the bytes that are printed.  The second half of the file says what a C compiler does with these pieces: names that
are declared twice, keywords in the place of names and names that are not declared end the compilation
(`abort`), and what is left is run on an object.

Simplifications: of the type of an expression only the tags of enums are looked at; indentation, comments, `#pragma` and
line information are left out; `NDEBUG` is not defined.
-/

namespace Verif.NodeGen
open Verif.Str Verif.Ids

/-- `enum attribute_type` (`cocogen/main.ccn:786-791`). -/
inductive AT where
  | user | int | int8 | int16 | int32 | int64 | uint | uint8 | uint16 | uint32 | uint64 | float | double | bool
  | string | link | linkOrEnum
  deriving DecidableEq, Repr

/-- An `attribute` node (`cocogen/main.ccn:833-849`), as far as it is read here. -/
structure Attr where
  name : Id
  type : AT
  ref : Option Id
  ctor : Bool
  inh : Bool
  syn : Bool

/-- A `child` node (`cocogen/main.ccn:761-774`). -/
structure Child where
  name : Id
  ctor : Bool

/-- An `inode` node (`cocogen/main.ccn:679-695`). -/
structure Node where
  name : Id
  children : List Child
  attrs : List Attr

/-- An `inodeset` node (`cocogen/main.ccn:697-711`), after its expression became a list of literals. -/
structure NodeSet where
  name : Id
  members : List Id
  attrs : List Attr

/-- The specification (`cocogen/main.ccn:606-623`).  Of enums only the names matter; the symbol table is represented by
its entries for enums. -/
structure Prog where
  nodes : List Node
  sets : List NodeSet
  enums : List Id

/-- Entries of the symbol table for enums (`cocogen/frontend/buildsymboltable.c:244-258`): the value is the declaration,
of which the name is used. -/
def Prog.table (p : Prog) : List (Ste Id) := p.enums.map fun e => ⟨e, e⟩

/-! ## Text -/

/-- `_`. -/
def sU : CStr := [95]
/-- `AST` (`cocogen/dynamic_backend/gen_node_init_funcs.c:31`). -/
def sAST : CStr := [65, 83, 84]
/-- `CCNaccess` (`cocogen/dynamic_backend/gen_node_macros.c:52`). -/
def sAccess : CStr := [67, 67, 78, 97, 99, 99, 101, 115, 115]
/-- `_readonly` (`cocogen/dynamic_backend/gen_node_access_funcs.c:105`). -/
def sReadonly : CStr := [95, 114, 101, 97, 100, 111, 110, 108, 121]
/-- `readonly_` (`cocogen/dynamic_backend/gen_nodeset_access_funcs.c:84`). -/
def sReadonlyU : CStr := [114, 101, 97, 100, 111, 110, 108, 121, 95]
/-- `NODE_DATA_` (`cocogen/dynamic_backend/gen_node_structs.c:32`). -/
def sData : CStr := [78, 79, 68, 69, 95, 68, 65, 84, 65, 95]
/-- `NODE_CHILDREN_` (`cocogen/dynamic_backend/gen_node_structs.c:35-36`). -/
def sChildrenTag : CStr := [78, 79, 68, 69, 95, 67, 72, 73, 76, 68, 82, 69, 78, 95]
/-- `NODE_` (`cocogen/dynamic_backend/gen_node_structs.c:67`). -/
def sNode : CStr := [78, 79, 68, 69, 95]
/-- `_STRUCT` (`cocogen/dynamic_backend/gen_node_structs.c:36,67`). -/
def sStruct : CStr := [95, 83, 84, 82, 85, 67, 84]
/-- `_children` (`cocogen/dynamic_backend/gen_node_structs.c:41`). -/
def sChildren : CStr := [95, 99, 104, 105, 108, 100, 114, 101, 110]
/-- `ccn_val_set` (`cocogen/dynamic_backend/gen_node_structs.c:68`). -/
def sValSet : CStr := [99, 99, 110, 95, 118, 97, 108, 95, 115, 101, 116]
/-- `TRAV` (`cocogen/dynamic_backend/gen_traversal_functions.c:29`). -/
def sTRAV : CStr := [84, 82, 65, 86]
/-- The local variable `node` (`cocogen/dynamic_backend/gen_node_constructor.c:39`). -/
def sVar : CStr := [110, 111, 100, 101]

/-! ## Types and default values -/

/-- The type of a member or a parameter. -/
inductive CTy where
  | nodePtr
  | enum (tag : CStr)
  | named (name : CStr)
  | basic (t : AT)
  deriving DecidableEq, Repr

/-- The expressions on the right-hand side of assignments. -/
inductive Rhs where
  | var (name : CStr)
  | null
  | zero
  | fzero
  | cfalse
  deriving DecidableEq, Repr

/-- `FMTattributeDefaultVal` (`cocogen/gen_helpers/format.c:16-46`). -/
def FMTattributeDefaultVal : AT → Res Rhs
  | .uint8 | .uint16 | .uint32 | .uint64 | .uint | .int8 | .int16 | .int32 | .int64 | .int => .ok .zero
  | .float | .double => .ok .fzero
  | .bool => .ok .cfalse
  | .link | .string => .ok .null
  | .linkOrEnum => .ok .zero
  | .user => .abort "err: AT_user"

/-- `FMTattributeTypeToString` (`cocogen/gen_helpers/format.c:48-89`); the texts for the different types are different,
they are represented by the type. -/
def FMTattributeTypeToString : AT → Res CTy
  | .user => .abort "err: AT_user"
  | .linkOrEnum => .ok (.named [])
  | t => .ok (.basic t)

/-- `ID_ORIG` of a link that can be NULL. -/
def origOf : Option Id → Res CStr
  | none => .ub "ID_ORIG(NULL)"
  | some i => .ok i.orig

/-- The lookup of an enum and the two assertions (`cocogen/dynamic_backend/gen_node_structs.c:75-78`,
`gen_node_access_funcs.c:23-26`). -/
def enumName (p : Prog) (ref : Option Id) : Res CStr := do
  let found ← STlookup p.table ref
  match found with
  | none => .abort "assert(ref)"
  | some e => .ok e.orig

/-- The type of the member for an attribute (`cocogen/dynamic_backend/gen_node_structs.c:72-85`; the same text as
`print_type`, `gen_node_access_funcs.c:18-34`). -/
def attrType (p : Prog) (a : Attr) : Res CTy :=
  match a.type with
  | .link => .ok .nodePtr
  | .linkOrEnum => do
    let n ← enumName p a.ref
    .ok (.enum n)
  | .user => do
    let n ← origOf a.ref
    .ok (.named n)
  | t => FMTattributeTypeToString t

/-- An attribute that is not computed by equations (`cocogen/dynamic_backend/gen_node_access_funcs.c:99-100`). -/
def classic (a : Attr) : Bool := !a.inh && !a.syn

/-! ## Structures -/

/-- The members of `struct NODE_DATA_X`. -/
inductive Member where
  /-- the union of the children: tags of the union and of the structure in it, the name of the member, the children -/
  | children (utag stag name : CStr) (fields : List CStr)
  /-- an attribute -/
  | plain (ty : CTy) (name : CStr)
  /-- a computed attribute: tag, name, and the name inside the structure next to `ccn_val_set` -/
  | valued (tag name : CStr) (ty : CTy) (inner : CStr)
  deriving DecidableEq, Repr

/-- A generated structure. -/
structure Struct where
  tag : CStr
  node : CStr
  members : List Member

/-- `DGNSattribute` (`cocogen/dynamic_backend/gen_node_structs.c:62-92`) along the list of attributes. -/
def DGNSattributes (p : Prog) (n : Node) : List Attr → Res (List Member)
  | [] => .ok []
  | a :: rest => do
    let t ← attrType p a
    let ms ← DGNSattributes p n rest
    match a.inh || a.syn with
    | true => .ok (.valued (sNode ++ n.name.upr ++ sU ++ a.name.upr ++ sStruct) (sU ++ a.name.lwr) t a.name.lwr :: ms)
    | false => .ok (.plain t a.name.lwr :: ms)

/-- The union of the children (`cocogen/dynamic_backend/gen_node_structs.c:34-42` and `53-60`). -/
def childMember (n : Node) : List Member :=
  match n.children with
  | [] => []
  | cs => [.children (sChildrenTag ++ n.name.upr) (sChildrenTag ++ n.name.upr ++ sStruct) (n.name.lwr ++ sChildren)
      (cs.map fun c => c.name.lwr)]

/-- `DGNSinode` (`cocogen/dynamic_backend/gen_node_structs.c:26-51`). -/
def DGNSinode (p : Prog) (n : Node) : Res Struct := do
  let as ← DGNSattributes p n n.attrs
  .ok ⟨sData ++ n.name.upr, n.name.lwr, childMember n ++ as⟩

/-- `DGNSast` (`cocogen/dynamic_backend/gen_node_structs.c:18-24`). -/
def DGNSinodes (p : Prog) : List Node → Res (List Struct)
  | [] => .ok []
  | n :: rest => do
    let s ← DGNSinode p n
    let ss ← DGNSinodes p rest
    .ok (s :: ss)

/-! ## Macros -/

/-- A macro `#define NAME(n) (*F(.., n))` or, if `lval` is false, `#define NAME(n) F(.., n)`; `none` for the macros of
`dynamicGenBaseNode`, which are no calls. -/
structure Macro where
  name : CStr
  fn : Option CStr
  lval : Bool
  deriving DecidableEq, Repr

/-- `DGNMchild` (`cocogen/dynamic_backend/gen_node_macros.c:47-55`). -/
def DGNMchild (n : Id) (c : Child) : Macro :=
  ⟨n.upr ++ sU ++ c.name.upr, some (sAccess ++ sU ++ n.lwr ++ sU ++ c.name.lwr), true⟩

/-- `DGNMattribute` (`cocogen/dynamic_backend/gen_node_macros.c:57-77`): nodes and nodesets give the same text. -/
def DGNMattribute (n : Id) (a : Attr) : Macro :=
  match classic a with
  | true => ⟨n.upr ++ sU ++ a.name.upr, some (sAccess ++ sU ++ n.lwr ++ sU ++ a.name.lwr), true⟩
  | false => ⟨n.upr ++ sU ++ a.name.upr, some (sAccess ++ sReadonly ++ sU ++ n.lwr ++ sU ++ a.name.lwr), false⟩

/-- `DGNMinode` (`cocogen/dynamic_backend/gen_node_macros.c:35-45`). -/
def DGNMinode (n : Node) : List Macro := n.children.map (DGNMchild n.name) ++ n.attrs.map (DGNMattribute n.name)

/-- `DGNMinodeset` (`cocogen/dynamic_backend/gen_node_macros.c:24-33`). -/
def DGNMinodeset (s : NodeSet) : List Macro := s.attrs.map (DGNMattribute s.name)

/-- The names of the macros of `dynamicGenBaseNode` (`cocogen/dynamic_backend/gen_node_base_and_union.c:40-47`):
`NODE_TYPE`, `NODE_CHILDREN`, `NODE_NUMCHILDREN`, `NODE_FILENAME`, `NODE_BLINE`, `NODE_ELINE`, `NODE_BCOL`,
`NODE_ECOL`. -/
def baseMacros : List Macro :=
  [[78, 79, 68, 69, 95, 84, 89, 80, 69], [78, 79, 68, 69, 95, 67, 72, 73, 76, 68, 82, 69, 78],
    [78, 79, 68, 69, 95, 78, 85, 77, 67, 72, 73, 76, 68, 82, 69, 78],
    [78, 79, 68, 69, 95, 70, 73, 76, 69, 78, 65, 77, 69], [78, 79, 68, 69, 95, 66, 76, 73, 78, 69],
    [78, 79, 68, 69, 95, 69, 76, 73, 78, 69], [78, 79, 68, 69, 95, 66, 67, 79, 76],
    [78, 79, 68, 69, 95, 69, 67, 79, 76]].map
    fun s => ⟨s, none, true⟩

/-- All macros of `ast.h`: `DGNMast` (`cocogen/dynamic_backend/gen_node_macros.c:18-22`), then the base node
(`cocogen/main.ccn:150-169`). -/
def macros (p : Prog) : List Macro :=
  p.nodes.flatMap DGNMinode ++ p.sets.flatMap DGNMinodeset ++ baseMacros

/-! ## Access functions -/

/-- The member that an access function gives (the address of). -/
inductive Path where
  | child (node field : CStr)
  | plain (node field : CStr)
  | valued (node field : CStr)
  deriving DecidableEq, Repr

/-- The body of an access function: a check of the type of the node followed by an access, or a switch over the types of
nodes, with a macro for each case. -/
inductive Body where
  | member (nt : CStr) (path : Path)
  | switch (cases : List (CStr × CStr))
  deriving DecidableEq, Repr

/-- An access function; `lval` tells that it returns an address. -/
structure Fn where
  name : CStr
  lval : Bool
  body : Body
  deriving DecidableEq, Repr

/-- `DGNAFchild` (`cocogen/dynamic_backend/gen_node_access_funcs.c:66-93`). -/
def DGNAFchild (n : Id) (c : Child) : Fn :=
  ⟨sAccess ++ sU ++ n.lwr ++ sU ++ c.name.lwr, true, .member n.upr (.child n.lwr c.name.lwr)⟩

/-- `DGNAFattribute` (`cocogen/dynamic_backend/gen_node_access_funcs.c:95-161`). -/
def DGNAFattribute (n : Id) (a : Attr) : Fn :=
  match classic a with
  | true => ⟨sAccess ++ sU ++ n.lwr ++ sU ++ a.name.lwr, true, .member n.upr (.plain n.lwr a.name.lwr)⟩
  | false => ⟨sAccess ++ sReadonly ++ sU ++ n.lwr ++ sU ++ a.name.lwr, false, .member n.upr (.valued n.lwr a.name.lwr)⟩

/-- `DGNAFinode` (`cocogen/dynamic_backend/gen_node_access_funcs.c:57-64`). -/
def DGNAFinode (n : Node) : List Fn := n.children.map (DGNAFchild n.name) ++ n.attrs.map (DGNAFattribute n.name)

/-- `DGNSAFsetliteral` (`cocogen/dynamic_backend/gen_nodeset_access_funcs.c:118-134`). -/
def DGNSAFsetliteral (a : Attr) (m : Id) : CStr × CStr := (m.upr, m.upr ++ sU ++ a.name.upr)

/-- `DGNSAFattribute` (`cocogen/dynamic_backend/gen_nodeset_access_funcs.c:62-116`). -/
def DGNSAFattribute (s : NodeSet) (a : Attr) : Fn :=
  match classic a with
  | true => ⟨sAccess ++ sU ++ s.name.lwr ++ sU ++ a.name.lwr, true, .switch (s.members.map (DGNSAFsetliteral a))⟩
  | false => ⟨sAccess ++ sU ++ sReadonlyU ++ s.name.lwr ++ sU ++ a.name.lwr, false,
      .switch (s.members.map (DGNSAFsetliteral a))⟩

/-- `DGNSAFinodeset` (`cocogen/dynamic_backend/gen_nodeset_access_funcs.c:54-60`). -/
def DGNSAFinodeset (s : NodeSet) : List Fn := s.attrs.map (DGNSAFattribute s)

/-- All access functions (`cocogen/dynamic_backend/gen_node_access_funcs.c:53`, `gen_nodeset_access_funcs.c:41`). -/
def fns (p : Prog) : List Fn := p.nodes.flatMap DGNAFinode ++ p.sets.flatMap DGNSAFinodeset

/-! ## Constructors -/

/-- A parameter. -/
structure Param where
  ty : CTy
  name : CStr
  deriving DecidableEq, Repr

/-- What stands between the parentheses of a parameter list. -/
inductive PTok where
  | comma
  | void
  | param (p : Param)
  deriving DecidableEq, Repr

/-- A printed function head; `semi` tells that a semicolon follows. -/
structure Head where
  name : CStr
  toks : List PTok
  semi : Bool

/-- The comma before all but the first (`cocogen/dynamic_backend/gen_node_init_funcs.c:53-56`, `67-70`). -/
def sepTok (argNum : Nat) : List PTok :=
  match argNum with
  | 0 => []
  | _ => [.comma]

/-- `DGIFchild` (`cocogen/dynamic_backend/gen_node_init_funcs.c:49-61`) along the children, with `arg_num`. -/
def DGIFchildren : List Child → Nat → List PTok × Nat
  | [], k => ([], k)
  | c :: rest, k =>
    match c.ctor with
    | true =>
      let r := DGIFchildren rest (k + 1)
      (sepTok k ++ .param ⟨.nodePtr, c.name.lwr⟩ :: r.1, r.2)
    | false => DGIFchildren rest k

/-- The parameter for an attribute (`cocogen/dynamic_backend/gen_node_init_funcs.c:71-79`,
`cocogen/dynamic_backend/gen_helpers.c:19-22`). -/
def attrParam (a : Attr) : Res Param :=
  match a.type with
  | .link => .ok ⟨.nodePtr, a.name.orig⟩
  | .linkOrEnum => do
    let r ← origOf a.ref
    .ok ⟨.enum r, a.name.orig⟩
  | .user => do
    let r ← origOf a.ref
    .ok ⟨.named r, a.name.lwr⟩
  | t => do
    let ty ← FMTattributeTypeToString t
    .ok ⟨ty, a.name.orig⟩

/-- `DGIFattribute` (`cocogen/dynamic_backend/gen_node_init_funcs.c:63-83`) along the attributes. -/
def DGIFattributes : List Attr → Nat → Res (List PTok × Nat)
  | [], k => .ok ([], k)
  | a :: rest, k =>
    match a.ctor with
    | true => do
      let q ← attrParam a
      let r ← DGIFattributes rest (k + 1)
      .ok (sepTok k ++ .param q :: r.1, r.2)
    | false => DGIFattributes rest k

/-- `void` if there are no parameters (`cocogen/dynamic_backend/gen_node_init_funcs.c:37-39`). -/
def voidTok (argNum : Nat) : List PTok :=
  match argNum with
  | 0 => [.void]
  | _ => []

/-- `DGIFinode` (`cocogen/dynamic_backend/gen_node_init_funcs.c:26-46`) for one node. -/
def DGIFinode (semi : Bool) (n : Node) : Res Head := do
  let r := DGIFchildren n.children 0
  let s ← DGIFattributes n.attrs r.2
  .ok ⟨sAST ++ n.name.lwr, r.1 ++ s.1 ++ voidTok s.2, semi⟩

/-- `DGIFinode` along the list of nodes. -/
def DGIFinodes (semi : Bool) : List Node → Res (List Head)
  | [] => .ok []
  | n :: rest => do
    let h ← DGIFinode semi n
    let hs ← DGIFinodes semi rest
    .ok (h :: hs)

/-- The prototypes in `ast.h`: `DGIFast` (`cocogen/dynamic_backend/gen_node_init_funcs.c:19-24`). -/
def DGIFast (p : Prog) : Res (List Head) := DGIFinodes true p.nodes

/-- The statements in a constructor. -/
inductive Stmt where
  /-- `MACRO(node) = rhs` -/
  | assign (mac : CStr) (rhs : Rhs)
  /-- `node->data.N_x->_a.ccn_val_set = false` -/
  | unset (node member : CStr)
  /-- `NODE_NUMCHILDREN(node) = n` -/
  | numChildren (n : Nat)
  /-- `NODE_CHILDREN(node) = node->data.N_x->x_children.x_children_at` -/
  | childArray (node member : CStr)
  deriving DecidableEq, Repr

/-- A constructor: `node->data.N_x = MEMmalloc(sizeof(struct NODE_DATA_X)); NODE_TYPE(node) = NT_X;` and the statements
(`cocogen/dynamic_backend/gen_node_constructor.c:37-53`). -/
structure Ctor where
  heads : List Head
  node : CStr
  tag : CStr
  nt : CStr
  stmts : List Stmt

/-- `DGNCchild` (`cocogen/dynamic_backend/gen_node_constructor.c:62-73`) along the children, with `num_children`. -/
def DGNCchildren (n : Id) : List Child → Nat → List Stmt × Nat
  | [], k => ([], k)
  | c :: rest, k =>
    let s : Stmt :=
      match c.ctor with
      | true => .assign (n.upr ++ sU ++ c.name.upr) (.var c.name.lwr)
      | false => .assign (n.upr ++ sU ++ c.name.upr) .null
    let r := DGNCchildren n rest (k + 1)
    (s :: r.1, r.2)

/-- `DGNCattribute` (`cocogen/dynamic_backend/gen_node_constructor.c:75-89`). -/
def DGNCattribute (n : Id) (a : Attr) : Res Stmt :=
  match a.ctor with
  | true => .ok (.assign (n.upr ++ sU ++ a.name.upr) (.var a.name.orig))
  | false =>
    match a.inh || a.syn with
    | true => .ok (.unset n.lwr (sU ++ a.name.lwr))
    | false =>
      match a.type with
      | .user => .ok (.assign (n.upr ++ sU ++ a.name.upr) .zero)
      | t => do
        let d ← FMTattributeDefaultVal t
        .ok (.assign (n.upr ++ sU ++ a.name.upr) d)

/-- The same along the list of attributes. -/
def DGNCattributes (n : Id) : List Attr → Res (List Stmt)
  | [] => .ok []
  | a :: rest => do
    let s ← DGNCattribute n a
    let ss ← DGNCattributes n rest
    .ok (s :: ss)

/-- The statement that sets the array of children (`cocogen/dynamic_backend/gen_node_constructor.c:47-50`). -/
def arrayStmt (n : Id) (numChildren : Nat) : List Stmt :=
  match numChildren with
  | 0 => []
  | _ => [.childArray n.lwr (n.lwr ++ sChildren)]

/-- `DGNCinode` (`cocogen/dynamic_backend/gen_node_constructor.c:26-60`) for one node: the head is printed by a traversal
of the node that is cut off from the following nodes (lines 30-33 and 55). -/
def DGNCinode (n : Node) : Res Ctor := do
  let hs ← DGIFinodes false [n]
  let r := DGNCchildren n.name n.children 0
  let as ← DGNCattributes n.name n.attrs
  .ok ⟨hs, n.name.lwr, sData ++ n.name.upr, n.name.upr,
    r.1 ++ as ++ [.numChildren r.2] ++ arrayStmt n.name r.2⟩

/-- What stands between the parentheses of a call. -/
inductive CTok where
  | comma
  | arg (r : Rhs)
  deriving DecidableEq, Repr

/-- The comma (`cocogen/dynamic_backend/gen_constructor_call.c:45-48`, `59-62`). -/
def sepArg (argNum : Nat) : List CTok :=
  match argNum with
  | 0 => []
  | _ => [.comma]

/-- `DGCCchild` (`cocogen/dynamic_backend/gen_constructor_call.c:41-53`) along the children. -/
def DGCCchildren : List Child → Nat → List CTok × Nat
  | [], k => ([], k)
  | c :: rest, k =>
    match c.ctor with
    | true =>
      let r := DGCCchildren rest (k + 1)
      (sepArg k ++ .arg .null :: r.1, r.2)
    | false => DGCCchildren rest k

/-- The argument for an attribute (`cocogen/dynamic_backend/gen_constructor_call.c:63-67`). -/
def attrArg (a : Attr) : Res Rhs :=
  match a.type with
  | .user => .ok .zero
  | t => FMTattributeDefaultVal t

/-- `DGCCattribute` (`cocogen/dynamic_backend/gen_constructor_call.c:55-71`) along the attributes. -/
def DGCCattributes : List Attr → Nat → Res (List CTok × Nat)
  | [], k => .ok ([], k)
  | a :: rest, k =>
    match a.ctor with
    | true => do
      let d ← attrArg a
      let r ← DGCCattributes rest (k + 1)
      .ok (sepArg k ++ .arg d :: r.1, r.2)
    | false => DGCCattributes rest k

/-- `DGCCinode` (`cocogen/dynamic_backend/gen_constructor_call.c:29-39`; the name of the constructor is
`DGH_NODE_CONSTR_TARGET`, `cocogen/dynamic_backend/gen_helpers.h:13-14`): function and arguments. -/
def DGCCinode (n : Node) : Res (CStr × List CTok) := do
  let r := DGCCchildren n.children 0
  let s ← DGCCattributes n.attrs r.2
  .ok (sAST ++ n.name.lwr, r.1 ++ s.1)

/-! ## Functions that traverse one child -/

/-- A function `TRAVx`: a switch over types of nodes, `M(node) = TRAVopt(M(node))` in each case. -/
structure TravFn where
  name : CStr
  cases : List (CStr × CStr)
  deriving DecidableEq, Repr

/-- `lookup` (`cocogen/dynamic_backend/gen_traversal_functions.c:19`): lists of copied ids. -/
abbrev Lookup := HT.Table CStr (List Id)

/-- `DGT_Fchild` (`cocogen/dynamic_backend/gen_traversal_functions.c:94-108`) along the children. -/
def DGT_Fchildren (curr : Id) : List Child → Lookup → Res Lookup
  | [], t => .ok t
  | c :: rest, t => do
    let entry ← HT.HTlookup t c.name.orig
    let t ← match entry with
      | none => HT.HTinsert t c.name.orig (some [curr])
      | some l => HT.HTinsert t c.name.orig (some (curr :: l))
    DGT_Fchildren curr rest t

/-- `DGT_Finode` (`cocogen/dynamic_backend/gen_traversal_functions.c:82-89`) along the nodes. -/
def DGT_Finodes : List Node → Lookup → Res Lookup
  | [], t => .ok t
  | n :: rest, t => do
    let t ← DGT_Fchildren n.name n.children t
    DGT_Finodes rest t

/-- The upper-case copy of a key (`cocogen/dynamic_backend/gen_traversal_functions.c:28`). -/
def upperKey (key : CStr) : Res CStr := do
  let b ← STRupper (some key)
  match b with
  | none => .ub "%s of NULL"
  | some b => cstr b

/-- `MapChildrenSource` (`cocogen/dynamic_backend/gen_traversal_functions.c:24-47`). -/
def MapChildrenSource (key : CStr) (ids : Option (List Id)) : Res TravFn := do
  let ku ← upperKey key
  .ok ⟨sTRAV ++ key, (ids.getD []).map fun i => (i.upr, i.upr ++ sU ++ ku)⟩

/-- `HTmapWithKey(lookup, MapChildrenSource)` (`cocogen/dynamic_backend/gen_traversal_functions.c:71`): the entries in
the order of the buckets (`palm/src/hash_table.c:250-259`). -/
def mapSource : List (CStr × Option (List Id)) → Res (List TravFn)
  | [] => .ok []
  | e :: rest => do
    let f ← MapChildrenSource e.1 e.2
    let fs ← mapSource rest
    .ok (f :: fs)

/-- `DGT_Fast` (`cocogen/dynamic_backend/gen_traversal_functions.c:61-77`); `AST_NUM_NODES` is the number of nodes
(`cocogen/frontend/scanAndParse/dsl-parser.y:1272`). -/
def DGT_Fast (p : Prog) : Res (List TravFn) := do
  let t ← DGT_Finodes p.nodes (HT.HTnew_String p.nodes.length)
  mapSource t.buckets.flatten

/-! ## What the compiler does -/

/-- The words that are no identifiers in C (as in `cocogen/frontend/scanAndParse/dsl-lexer.l:203-207`):
`auto`, `break`, `case`, `char`, `const`, `continue`, `default`, `do`, `double`, `else`, `enum`, `extern`,
`float`, `for`, `goto`, `if`, `inline`, `int`, `long`, `register`, `restrict`, `return`, `short`, `signed`,
`sizeof`, `static`, `struct`, `switch`, `typedef`, `union`, `unsigned`, `void`, `volatile`, `while`; and the macros `bool`, `true` and
`false` of `stdbool.h`, which `ast.h` includes (`copra/ccn/ccn_types.h:4`). -/
def keywords : List CStr :=
  [[97, 117, 116, 111], [98, 114, 101, 97, 107], [99, 97, 115, 101], [99, 104, 97, 114], [99, 111, 110, 115, 116],
    [99, 111, 110, 116, 105, 110, 117, 101], [100, 101, 102, 97, 117, 108, 116], [100, 111],
    [100, 111, 117, 98, 108, 101], [101, 108, 115, 101], [101, 110, 117, 109], [101, 120, 116, 101, 114, 110],
    [102, 108, 111, 97, 116], [102, 111, 114], [103, 111, 116, 111], [105, 102], [105, 110, 108, 105, 110, 101],
    [105, 110, 116], [108, 111, 110, 103], [114, 101, 103, 105, 115, 116, 101, 114],
    [114, 101, 115, 116, 114, 105, 99, 116], [114, 101, 116, 117, 114, 110], [115, 104, 111, 114, 116],
    [115, 105, 103, 110, 101, 100], [115, 105, 122, 101, 111, 102], [115, 116, 97, 116, 105, 99],
    [115, 116, 114, 117, 99, 116], [115, 119, 105, 116, 99, 104], [116, 121, 112, 101, 100, 101, 102],
    [117, 110, 105, 111, 110], [117, 110, 115, 105, 103, 110, 101, 100], [118, 111, 105, 100],
    [118, 111, 108, 97, 116, 105, 108, 101], [119, 104, 105, 108, 101],
    [98, 111, 111, 108], [116, 114, 117, 101], [102, 97, 108, 115, 101]]

/-- Some name occurs twice. -/
def twice : List CStr → Bool
  | [] => false
  | x :: rest => rest.contains x || twice rest

/-- The names of the members of a structure, as the compiler sees them. -/
def Member.name : Member → CStr
  | .children _ _ n _ => n
  | .plain _ n => n
  | .valued _ n _ _ => n

/-- The names inside a member that is a structure itself. -/
def Member.inner : Member → List CStr
  | .children _ _ _ fs => fs
  | .plain _ _ => []
  | .valued _ _ _ i => [sValSet, i]

/-- The tags that a member declares. -/
def Member.tags : Member → List CStr
  | .children u s _ _ => [u, s]
  | .plain _ _ => []
  | .valued t _ _ _ => [t]

/-- Two macros with the same name and different replacement (C11 6.10.3p2). -/
def macroClash : List Macro → Bool
  | [] => false
  | m :: rest => rest.any (fun k => k.name == m.name && k != m) || macroClash rest

/-- The members of a structure are declared once and are identifiers. -/
def structOk (s : Struct) : Bool :=
  !twice (s.members.map (·.name)) && !(s.members.map (·.name)).any keywords.contains &&
  s.members.all fun m => !twice m.inner && !m.inner.any keywords.contains

/-- The generated header. -/
structure Header where
  structs : List Struct
  macros : List Macro
  fns : List Fn

/-- Compilation of the declarations of `ast.h` (`cocogen/main.ccn:150-169`), with respect to the names in them. -/
def compile (p : Prog) : Res Header := do
  let ss ← DGNSinodes p p.nodes
  match twice (ss.map (·.tag) ++ ss.flatMap fun s => s.members.flatMap (·.tags)) with
  | true => .abort "redefinition of struct"
  | false =>
    match ss.all structOk with
    | false => .abort "member"
    | true =>
      match macroClash (macros p) with
      | true => .abort "macro redefined"
      | false =>
        match twice ((fns p).map (·.name)) with
        | true => .abort "redefinition of function"
        | false => .ok ⟨ss, macros p, fns p⟩

/-- The parameters that a compiler reads: `void`, or parameters separated by commas. -/
def readParams : List PTok → Option (List Param)
  | [.void] => some []
  | [.param q] => some [q]
  | .param q :: .comma :: rest => (readParams rest).map (q :: ·)
  | _ => none

/-- The arguments after the first: each follows a comma. -/
def readArgsRest : List CTok → Option (List Rhs)
  | [] => some []
  | .comma :: .arg r :: rest => (readArgsRest rest).map (r :: ·)
  | _ => none

/-- The arguments of a call. -/
def readArgs : List CTok → Option (List Rhs)
  | [] => some []
  | .arg r :: rest => (readArgsRest rest).map (r :: ·)
  | _ => none

/-- The parameter declares an identifier of a complete type. -/
def paramOk (p : Prog) (q : Param) : Bool :=
  !keywords.contains q.name && q.name != sVar &&
  match q.ty with
  | .enum t => (p.enums.map (·.orig)).contains t
  | _ => true

/-- Values of members. -/
inductive Val where
  | null | zero | fzero | cfalse
  | given (n : Nat)
  deriving DecidableEq, Repr

/-- A node in memory: the type, the member of the union `data` that is in use, the members of its structure (`none` for
memory that was not written), and the fields `num_children` and `children` of `node_st`. -/
structure Obj where
  nt : CStr
  node : CStr
  child : CStr → Option Val
  plain : CStr → Option Val
  isSet : CStr → Option Bool
  num : Nat
  array : Option CStr

/-- `NewNode` (`cocogen/dynamic_backend/gen_node_base_and_union.c:17-34`), then the allocation of the structure and the
type of the node. -/
def newObj (nt node : CStr) : Obj :=
  ⟨nt, node, fun _ => none, fun _ => none, fun _ => none, 0, none⟩

/-- The last definition of a macro. -/
def findMacro (ms : List Macro) (name : CStr) : Option Macro := ms.reverse.find? (·.name == name)

/-- The structure of the node has such a member. -/
def hasMember (h : Header) : Path → Bool
  | .child n f => h.structs.any fun s => s.node == n && s.members.any fun m =>
      match m with
      | .children _ _ name fs => name == n ++ sChildren && fs.contains f
      | _ => false
  | .plain n f => h.structs.any fun s => s.node == n && s.members.any fun m =>
      match m with
      | .plain _ g => g == f
      | _ => false
  | .valued n f => h.structs.any fun s => s.node == n && s.members.any fun m =>
      match m with
      | .valued _ name _ g => g == f && name == sU ++ f
      | _ => false

/-- The node that a path belongs to. -/
def Path.node : Path → CStr
  | .child n _ => n
  | .plain n _ => n
  | .valued n _ => n

/-- A call of an access function with a check of the type (`cocogen/dynamic_backend/gen_node_access_funcs.c:79-88`,
`130-156`; `DBUGprintAssert` ends the program, `palm/src/dbug.c:10-25`). -/
def callMember (h : Header) (nt : CStr) (path : Path) (o : Obj) : Res Path :=
  match hasMember h path with
  | false => .abort "no such member"
  | true =>
    match o.nt == nt with
    | false => .abort "CCNaccesserror"
    | true =>
      match o.node == path.node with
      | false => .ub "other member of the union"
      | true => .ok path

/-- The expansion of a macro with its function. -/
def macroFn (h : Header) (mac : CStr) : Res (Bool × Fn) :=
  match findMacro h.macros mac with
  | none => .abort "undeclared function"
  | some m =>
    match m.fn with
    | none => .abort "not an access function"
    | some f =>
      match h.fns.find? (·.name == f) with
      | none => .abort "undeclared function"
      | some fn => .ok (m.lval, fn)

/-- An access through the macro of a node.  If `lval` is asked for, the macro has to stand for something that can be
assigned to, and whose address can be taken. -/
def accessNode (h : Header) (lval : Bool) (mac : CStr) (o : Obj) : Res Path := do
  let r ← macroFn h mac
  match !lval || r.1 with
  | false => .abort "not an lvalue"
  | true =>
    match r.1 == r.2.lval with
    | false => .abort "indirection"
    | true =>
      match r.2.body with
      | .member nt path => callMember h nt path o
      | .switch _ => .abort "not the macro of a node"

/-- An access through the macro of a nodeset (`cocogen/dynamic_backend/gen_nodeset_access_funcs.c:91-106`). -/
def accessSet (h : Header) (mac : CStr) (o : Obj) : Res Path := do
  let r ← macroFn h mac
  match r.1 == r.2.lval with
  | false => .abort "indirection"
  | true =>
    match r.2.body with
    | .member _ _ => .abort "not the macro of a nodeset"
    | .switch cases =>
      match twice (cases.map (·.1)) with
      | true => .abort "duplicate case"
      | false =>
        match cases.find? (·.1 == o.nt) with
        | none => .abort "CCNaccesserror"
        | some c => accessNode h r.2.lval c.2 o

/-- Assignment to a member.  A computed attribute cannot be assigned to. -/
def store (path : Path) (v : Val) (o : Obj) : Res Obj :=
  match path with
  | .child _ f => .ok { o with child := fun x => if x = f then some v else o.child x }
  | .plain _ f => .ok { o with plain := fun x => if x = f then some v else o.plain x }
  | .valued _ _ => .abort "not an lvalue"

/-- The value of the right-hand side, given the parameters and arguments. -/
def evalRhs (env : List (CStr × Val)) : Rhs → Res Val
  | .var x =>
    match env.find? (·.1 == x) with
    | some e => .ok e.2
    | none => .abort "undeclared identifier"
  | .null => .ok .null
  | .zero => .ok .zero
  | .fzero => .ok .fzero
  | .cfalse => .ok .cfalse

/-- The structure of the node has a computed attribute, or a union of children, of this name. -/
def hasNamed (h : Header) (node member : CStr) (kids : Bool) : Bool :=
  h.structs.any fun s => s.node == node && s.members.any fun m =>
    match m with
    | .children _ _ name _ => kids && name == member
    | .valued _ name _ _ => !kids && name == member
    | .plain _ _ => false

/-- One statement of a constructor. -/
def runStmt (h : Header) (env : List (CStr × Val)) (o : Obj) : Stmt → Res Obj
  | .assign mac r => do
    let v ← evalRhs env r
    let path ← accessNode h true mac o
    store path v o
  | .unset node member =>
    match hasNamed h node member false && o.node == node with
    | false => .abort "no such member"
    | true => .ok { o with isSet := fun x => if x = member then some false else o.isSet x }
  | .numChildren n => .ok { o with num := n }
  | .childArray node member =>
    match hasNamed h node member true && o.node == node with
    | false => .abort "no such member"
    | true => .ok { o with array := some member }

/-- The statements in order. -/
def runStmts (h : Header) (env : List (CStr × Val)) : List Stmt → Obj → Res Obj
  | [], o => .ok o
  | s :: rest, o => do
    let o ← runStmt h env o s
    runStmts h env rest o

/-- A call of the constructor of a node.  The definition has one head without semicolon, its parameters are different
names, the structure that is allocated is the one that `data.N_x` points to, and there is an argument for each
parameter. -/
def construct (p : Prog) (n : Node) (args : List Val) : Res Obj := do
  let h ← compile p
  let c ← DGNCinode n
  match c.heads with
  | [hd] =>
    match hd.semi with
    | true => .abort "expected function body"
    | false =>
      match readParams hd.toks with
      | none => .abort "parameter list"
      | some ps =>
        match ps.all (paramOk p) && !twice (ps.map (·.name)) with
        | false => .abort "parameter"
        | true =>
          match h.structs.any (fun s => s.tag == c.tag && s.node == c.node) with
          | false => .abort "struct"
          | true =>
            match args.length == ps.length with
            | false => .abort "number of arguments"
            | true => runStmts h ((ps.map (·.name)).zip args) c.stmts (newObj c.nt c.node)
  | _ => .abort "expected function body"

/-- The values of the arguments in a generated call. -/
def evalArgs : List Rhs → Res (List Val)
  | [] => .ok []
  | r :: rest => do
    let v ← evalRhs [] r
    let vs ← evalArgs rest
    .ok (v :: vs)

/-- The generated call of a constructor (`cocogen/dynamic_backend/gen_copy_traversal.c` prints it for each node). -/
def constructDefault (p : Prog) (n : Node) : Res Obj := do
  let c ← DGCCinode n
  match readArgs c.2 with
  | none => .abort "argument list"
  | some rs => do
    let vs ← evalArgs rs
    construct p n vs

/-- The functions of the same kind in `copra` (`copra/ccn/dynamic_core.h:13-24`): `TRAV` followed by
`opt`, `start`, `do`, `push`, `pop`, `children`, `nop`, `error`, `dataNOP`, `getCurrent`. -/
def coreNames : List CStr :=
  [[111, 112, 116], [115, 116, 97, 114, 116], [100, 111], [112, 117, 115, 104], [112, 111, 112],
    [99, 104, 105, 108, 100, 114, 101, 110], [110, 111, 112], [101, 114, 114, 111, 114],
    [100, 97, 116, 97, 78, 79, 80], [103, 101, 116, 67, 117, 114, 114, 101, 110, 116]].map fun s => sTRAV ++ s

/-- Compilation of `trav.c`, with respect to the names of functions and the cases. -/
def compileTrav (p : Prog) : Res (List TravFn) := do
  let fs ← DGT_Fast p
  match twice (fs.map (·.name)) || fs.any (fun f => coreNames.contains f.name) with
  | true => .abort "conflicting types or redefinition"
  | false =>
    match fs.any fun f => twice (f.cases.map (·.1)) with
    | true => .abort "duplicate case"
    | false => .ok fs

/-- A call of `TRAVx`, where `opt` is what `TRAVopt` returns for a child; `none` is memory that was not written.  In a
node without the child the assertion fails (`cocogen/dynamic_backend/gen_traversal_functions.c:38-39`). -/
def callTrav (p : Prog) (name : CStr) (opt : Val → Val) (o : Obj) : Res Obj := do
  let h ← compile p
  let fs ← compileTrav p
  match fs.find? (·.name == name) with
  | none => .abort "undeclared function"
  | some f =>
    match f.cases.find? (·.1 == o.nt) with
    | none => .abort "Current target has no child"
    | some c => do
      let path ← accessNode h true c.2 o
      match path with
      | .child _ x =>
        match o.child x with
        | none => .ub "uninitialised"
        | some v => store path (opt v) o
      | _ => .abort "types"

end Verif.NodeGen
