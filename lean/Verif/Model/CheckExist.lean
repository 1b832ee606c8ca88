import Verif.Model.SetGrammar

/-!
# Model of the check of references (`cocogen/frontend/check_existance.c`)

The table that `buildSymbolTable` makes (`Verif.Model.Ids`) is read, types of children and attributes are filled in, and
errors are counted.  Messages are left out, and the number of errors is unbounded (see `Verif.Model.Cti` for both).
-/

namespace Verif.CheckExist
open Verif.Str Verif.Ids Verif.Grammar

/-- `enum attribute_type` (`cocogen/main.ccn:786-791`); the primitive types are one case. -/
inductive AType where
  | user | link | linkOrEnum | prim
  deriving DecidableEq, Repr

/-- `enum child_type` (`cocogen/main.ccn:754-759`); `none` is the value 0 that `ASTchild` stores
(`cocogen/ccngen/ast.c:231`). -/
inductive CType where
  | none | inode | inodeset
  deriving DecidableEq, Repr

/-- An `attribute` or an `itravdata` node (`cocogen/main.ccn:833-861`), as far as it is read here. -/
structure Attr where
  name : Id
  type : AType
  ref : Option Id
  deriving DecidableEq, Repr

/-- A `child` node (`cocogen/main.ccn:761-774`). -/
structure Child where
  name : Id
  ref : Option Id
  type : CType
  deriving DecidableEq, Repr

/-- An `iphase` node (`cocogen/main.ccn:638-651`). -/
structure Phase where
  name : Id
  uid : Option Id
  isStart : Bool
  actions : List Id

/-- An `itraversal` node (`cocogen/main.ccn:653-665`). -/
structure Traversal where
  name : Id
  uid : Option Id
  nodes : Option Expr
  data : List Attr

/-- An `ipass` node (`cocogen/main.ccn:667-677`). -/
structure Pass where
  name : Id
  uid : Option Id
  func : Option Id

/-- An `inode` node (`cocogen/main.ccn:679-695`). -/
structure Node where
  name : Id
  isRoot : Bool
  children : List Child
  attrs : List Attr

/-- An `inodeset` node (`cocogen/main.ccn:697-711`). -/
structure NodeSet where
  name : Id
  expr : Option Expr
  attrs : List Attr

/-- An `ienum` node (`cocogen/main.ccn:944-955`). -/
structure Enum where
  name : Id
  uid : Id

/-- The `ast` node (`cocogen/main.ccn:606-623`). -/
structure Prog where
  phases : List Phase := []
  traversals : List Traversal := []
  passes : List Pass := []
  nodes : List Node := []
  sets : List NodeSet := []
  enums : List Enum := []

/-- What symbol-table construction reads of it (`cocogen/frontend/buildsymboltable.c:39-46`). -/
def Prog.ids (p : Prog) : Ast where
  phases := p.phases.map fun x => (x.name, x.uid)
  traversals := p.traversals.map fun x => (x.name, x.uid)
  passes := p.passes.map fun x => (x.name, x.uid, x.func)
  nodes := p.nodes.map (·.name)
  nodesets := p.sets.map (·.name)
  enums := p.enums.map (·.name)

/-- The static variables (`cocogen/frontend/check_existance.c:16-22`), the fields `root_node` and `start_phase` of the
root (`cocogen/main.ccn:619-620`) as positions, and the number of errors.  Of the tables of names only the keys are
used. -/
structure St where
  errors : Nat := 0
  seenRoot : Bool := false
  seenStart : Bool := false
  root : Option Nat := none
  start : Option Nat := none
  names : List (Ste Unit) := []
  datas : List (Ste Unit) := []
  prefixes : List (Ste Unit) := []

/-- An error is reported (`CTI`, `CTIobj` with `CTI_ERROR`). -/
def err (st : St) : St := { st with errors := st.errors + 1 }

/-- `uid_reserved` (`cocogen/frontend/check_existance.c:25-34`): `TRAV`, `TRV`, `CCN`, `PASS`, `CPY`, `CHK`, `DEL`,
`EVAL`. -/
def uidReserved : List CStr :=
  [[84, 82, 65, 86], [84, 82, 86], [67, 67, 78], [80, 65, 83, 83], [67, 80, 89], [67, 72, 75], [68, 69, 76],
    [69, 86, 65, 76]]

/-- The loops over reserved words (`cocogen/frontend/check_existance.c:41-45` and `309-313`). -/
def checkWords (upr : CStr) : List CStr → St → St
  | [], st => st
  | w :: ws, st =>
    match STReq (some upr) (some w) with
    | true => checkWords upr ws (err st)
    | false => checkWords upr ws st

/-- `checkUID` (`cocogen/frontend/check_existance.c:36-46`). -/
def checkUID (id : Option Id) (st : St) : St :=
  match id with
  | none => st
  | some i => checkWords i.upr uidReserved st

/-- `CEXiactions` (`cocogen/frontend/check_existance.c:59-67`): `TRAVchildren` visits the following actions first. -/
def CEXiactions (tab : List (Ste Decl)) : List Id → St → Res St
  | [], st => .ok st
  | a :: rest, st => do
    let st ← CEXiactions tab rest st
    match ← STlookup tab (some a) with
    | none => .ok (err st)
    | some _ => .ok st

/-- The check of the flag `is_start` (`cocogen/frontend/check_existance.c:72-79`). -/
def startPhase (i : Nat) (isStart : Bool) (st : St) : St :=
  match isStart with
  | false => st
  | true =>
    match st.seenStart with
    | true => err st
    | false => { st with start := some i, seenStart := true }

/-- `CEXiphase` (`cocogen/frontend/check_existance.c:69-82`) along the list of phases; the children `name`, `iprefix`
and `gate_func` are identifiers, for which nothing is done (`323-327`). -/
def CEXiphase (tab : List (Ste Decl)) : Nat → List Phase → St → Res St
  | _, [], st => .ok st
  | i, p :: rest, st => do
    let st ← CEXiactions tab p.actions (startPhase i p.isStart (checkUID p.uid st))
    CEXiphase tab (i + 1) rest st

/-- `CEXsetliteral` (`cocogen/frontend/check_existance.c:230-246`).  A literal is given by the names put into its search
tree; the tree holds each name once, so that an error may be counted twice here that is reported once. -/
def CEXsetliteral (tab : List (Ste Decl)) : List Id → St → Res St
  | [], st => .ok st
  | i :: rest, st => do
    match ← STlookup tab (some i) with
    | none => CEXsetliteral tab rest (err st)
    | some d =>
      match d.kind with
      | .node => CEXsetliteral tab rest st
      | _ => CEXsetliteral tab rest (err st)

/-- `CEXsetoperation`, `CEXsetreference`, `CEXsetliteral` (`cocogen/frontend/check_existance.c:212-246`). -/
def CEXsetexpr (tab : List (Ste Decl)) : Expr → St → Res St
  | .lit names, st => CEXsetliteral tab names st
  | .ref i, st => do
    match ← STlookup tab (some i) with
    | none => .ok (err st)
    | some d =>
      match d.kind with
      | .nodeset => .ok st
      | _ => .ok (err st)
  | .op _ l r, st => do
    let st ← CEXsetexpr tab l st
    CEXsetexpr tab r st

/-- The traversal of an optional set expression (`TRAVopt`, `copra/src/dynamic_core.c:65-70`). -/
def setexprOpt (tab : List (Ste Decl)) (e : Option Expr) (st : St) : Res St :=
  match e with
  | none => .ok st
  | some e => CEXsetexpr tab e st

/-- The check of the type of an attribute (`cocogen/frontend/check_existance.c:256-271`), and the same code for an entry
of `travdata` (`108-121`). -/
def attrType (tab : List (Ste Decl)) (a : Attr) (st : St) : Res (Attr × St) :=
  match a.type with
  | .linkOrEnum => do
    match ← STlookup tab a.ref with
    | none => .ok (a, err st)
    | some d =>
      match d.kind with
      | .node => .ok ({ a with type := .link }, st)
      | .nodeset => .ok ({ a with type := .link }, st)
      | .enum => .ok ({ a with type := .linkOrEnum }, st)
      | _ => .ok (a, err st)
  | _ => .ok (a, st)

/-- The check of the name of an entry of `travdata` (`cocogen/frontend/check_existance.c:98-106`). -/
def dataName (n : Id) (st : St) : Res St := do
  match ← STlookup st.datas (some n) with
  | some _ => .ok (err st)
  | none => .ok { st with datas := STadd st.datas n () }

/-- `CEXitravdata` (`cocogen/frontend/check_existance.c:96-125`) along the list of entries. -/
def CEXitravdata (tab : List (Ste Decl)) : List Attr → St → Res (List Attr × St)
  | [], st => .ok ([], st)
  | a :: rest, st => do
    let st ← dataName a.name st
    let (a, st) ← attrType tab a st
    let (rest, st) ← CEXitravdata tab rest st
    .ok (a :: rest, st)

/-- `CEXitraversal` (`cocogen/frontend/check_existance.c:85-94`) along the list of traversals. -/
def CEXitraversal (tab : List (Ste Decl)) : List Traversal → St → Res (List Traversal × St)
  | [], st => .ok ([], st)
  | t :: rest, st => do
    let st := checkUID t.uid st
    let st ← setexprOpt tab t.nodes { st with datas := [] }
    let (data, st) ← CEXitravdata tab t.data st
    let (rest, st) ← CEXitraversal tab rest st
    .ok ({ t with data := data } :: rest, st)

/-- `CEXipass` (`cocogen/frontend/check_existance.c:127-132`) along the list of passes. -/
def CEXipass : List Pass → St → St
  | [], st => st
  | p :: rest, st => CEXipass rest (checkUID p.uid st)

/-- The check of the name of an attribute (`cocogen/frontend/check_existance.c:250-254`) or of a child (`195-201`). -/
def fieldName (n : Id) (st : St) : Res St := do
  match ← STlookup st.names (some n) with
  | none => .ok { st with names := STadd st.names n () }
  | some _ => .ok (err st)

/-- `CEXattribute` (`cocogen/frontend/check_existance.c:248-275`) along the list of attributes; lifetimes are skipped
(`329-337`). -/
def CEXattribute (tab : List (Ste Decl)) : List Attr → St → Res (List Attr × St)
  | [], st => .ok ([], st)
  | a :: rest, st => do
    let st ← fieldName a.name st
    let (a, st) ← attrType tab a st
    let (rest, st) ← CEXattribute tab rest st
    .ok (a :: rest, st)

/-- The type of a child with a known reference (`cocogen/frontend/check_existance.c:186-194`). -/
def childType (c : Child) (k : Kind) (st : St) : Child × St :=
  match k with
  | .nodeset => ({ c with type := .inodeset }, st)
  | .node => ({ c with type := .inode }, st)
  | _ => (c, err st)

/-- `CEXchild` (`cocogen/frontend/check_existance.c:177-204`) along the list of children.  After an unknown type the
following children are not visited. -/
def CEXchild (tab : List (Ste Decl)) : List Child → St → Res (List Child × St)
  | [], st => .ok ([], st)
  | c :: rest, st => do
    match ← STlookup tab c.ref with
    | none => .ok (c :: rest, err st)
    | some d => do
      let (c, st) := childType c d.kind st
      let st ← fieldName c.name st
      let (rest, st) ← CEXchild tab rest st
      .ok (c :: rest, st)

/-- The name `node` is not allowed (`cocogen/frontend/check_existance.c:136-140`). -/
def nodeName (n : Id) (st : St) : St :=
  match STReq (some n.lwr) (some [110, 111, 100, 101]) with
  | true => err st
  | false => st

/-- The check of the flag `is_root` (`cocogen/frontend/check_existance.c:141-148`). -/
def rootNode (i : Nat) (isRoot : Bool) (st : St) : St :=
  match isRoot with
  | false => st
  | true =>
    match st.seenRoot with
    | false => { st with root := some i, seenRoot := true }
    | true => err st

/-- `CEXinode` (`cocogen/frontend/check_existance.c:134-157`) along the list of nodes. -/
def CEXinode (tab : List (Ste Decl)) : Nat → List Node → St → Res (List Node × St)
  | _, [], st => .ok ([], st)
  | i, n :: rest, st => do
    let (attrs, st) ← CEXattribute tab n.attrs (rootNode i n.isRoot (nodeName n.name st))
    let (children, st) ← CEXchild tab n.children st
    let (rest, st) ← CEXinode tab (i + 1) rest { st with names := [] }
    .ok ({ n with children := children, attrs := attrs } :: rest, st)

/-- `CEXinodeset` (`cocogen/frontend/check_existance.c:159-169`) along the list of nodesets. -/
def CEXinodeset (tab : List (Ste Decl)) : List NodeSet → St → Res (List NodeSet × St)
  | [], st => .ok ([], st)
  | n :: rest, st => do
    let (attrs, st) ← CEXattribute tab n.attrs st
    let st ← setexprOpt tab n.expr st
    let (rest, st) ← CEXinodeset tab rest { st with names := [] }
    .ok ({ n with attrs := attrs } :: rest, st)

/-- `preserved_enum_prefix` (`cocogen/frontend/check_existance.c:299-305`): `NT`, `NS`, `TRAV`, `PASS`, `CCN`. -/
def enumReserved : List CStr :=
  [[78, 84], [78, 83], [84, 82, 65, 86], [80, 65, 83, 83], [67, 67, 78]]

/-- The check for a second use of a prefix (`cocogen/frontend/check_existance.c:314-318`). -/
def enumPrefix (n : Id) (st : St) : Res St := do
  match ← STlookup st.prefixes (some n) with
  | some _ => .ok (err st)
  | none => .ok { st with prefixes := STadd st.prefixes n () }

/-- `CEXienum` (`cocogen/frontend/check_existance.c:307-321`) along the list of enums. -/
def CEXienum : List Enum → St → Res St
  | [], st => .ok st
  | e :: rest, st => do
    let st ← enumPrefix e.uid (checkWords e.uid.upr enumReserved st)
    CEXienum rest st

/-- The result: the program with types filled in, and the fields `root_node` and `start_phase`. -/
structure Out where
  prog : Prog
  root : Option Nat
  start : Option Nat

/-- `CEXast` (`cocogen/frontend/check_existance.c:48-57`): the children in the order of `cocogen/main.ccn:607-615`, then
`CTIabortOnError`.  (The symbol table itself is visited last, without effect.) -/
def CEXast (tab : List (Ste Decl)) (p : Prog) : Res Out := do
  let st ← CEXiphase tab 0 p.phases {}
  let (travs, st) ← CEXitraversal tab p.traversals st
  let st := CEXipass p.passes st
  let (nodes, st) ← CEXinode tab 0 p.nodes st
  let (sets, st) ← CEXinodeset tab p.sets st
  let st ← CEXienum p.enums st
  if st.errors ≠ 0 then .abort "CTIabortOnError"
  else .ok ⟨{ p with traversals := travs, nodes := nodes, sets := sets }, st.root, st.start⟩

/-- `buildSymbolTable` and `checkExistance`, the first two actions of the phase `semantic`
(`cocogen/main.ccn:29-44`). -/
def check (p : Prog) : Res Out := do
  let tab ← BSTast p.ids
  CEXast tab p

/-- The node whose name is printed for `CCN_ROOT_TYPE` (`cocogen/phase_driver/gen_action_array_header.c:43`). -/
def rootName (o : Out) : Res CStr :=
  match o.root with
  | none => .ub "INODE_NAME(NULL)"
  | some i =>
    match o.prog.nodes[i]? with
    | none => .ub "AST_ROOT_NODE"
    | some n => .ok n.name.upr

/-- The phase whose name is printed for `CCN_ROOT_ACTION` (`cocogen/phase_driver/gen_action_array_header.c:47`).  If
the compiler was built with assertions, a missing phase has stopped it before
(`cocogen/frontend/lifetimes/assign_id_to_actions.c:22`). -/
def startName (o : Out) : Res CStr :=
  match o.start with
  | none => .ub "IPHASE_NAME(NULL)"
  | some i =>
    match o.prog.phases[i]? with
    | none => .ub "AST_START_PHASE"
    | some n => .ok n.name.upr

/-- The two names in the header (`cocogen/phase_driver/gen_action_array_header.c:42-48`). -/
def rootDefines (o : Out) : Res (CStr × CStr) := do
  let r ← rootName o
  let s ← startName o
  .ok (r, s)

end Verif.CheckExist
