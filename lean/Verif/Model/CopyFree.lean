import Verif.Model.Trav

/-!
# Model of the generated copy and free traversals

What `gen_copy_traversal.c`, `gen_constructor_call.c`, `gen_node_constructor.c`, `gen_node_base_and_union.c` and
`gen_free_traversal.c` in `cocogen/dynamic_backend` generate, as programs for the traversal core.

Members of the generated structs are identified by their index instead of their name; names of the children and
attributes of a node are assumed to be distinct, as the C compiler demands.  Attributes of all number types, `bool` and
enumerations hold a plain value (`Val.word`), so do attributes with a type of the user, which are copied by value.
The warning for those is left out.  `new` is the choice of `malloc`; without memory the process ends.
-/

namespace Verif.Trav
open Verif.Str

/-- The types of attributes (`cocogen/main.ccn:786-791`), as far as copying and releasing tell them
apart: `plain` are the numbers, `bool` and enumerations. -/
inductive AType where
  | plain
  | string
  | link
  | user
  deriving DecidableEq

/-- An attribute (`cocogen/main.ccn:846-861`). -/
structure AttrD where
  ty : AType
  inh : Bool
  syn : Bool
  ctor : Bool
  deriving DecidableEq

/-- A node (`cocogen/main.ccn:679-695`): for every child whether it is a parameter of the constructor, and the
attributes. -/
structure NodeD where
  kids : List Bool
  attrs : List AttrD
  deriving DecidableEq

/-- `MEMmalloc` (`palm/src/memory.c:16-38`) of a block with the given contents. -/
def MEMmalloc (new : Mem → Option Addr) (b : Blk) (m : Mem) : Res (Addr × Mem) :=
  match new m with
  | none => .abort "out of memory"
  | some a => .ok (a, upd m a (some b))

/-- `MEMfree` (`palm/src/memory.c:81-89`). -/
def MEMfree (p : Ptr) (m : Mem) : Res Mem :=
  match p with
  | none => .ok m
  | some a =>
    match m a with
    | none => .ub "released twice"
    | some _ => .ok (upd m a none)

/-- `STRcpy` (`palm/src/str.c:22-34`) of a string in memory. -/
def STRcpyM (new : Mem → Option Addr) (p : Ptr) (m : Mem) : Res (Ptr × Mem) :=
  match p with
  | none => .ok (none, m)
  | some a =>
    match m a with
    | some (.str s) => do
      let r ← MEMmalloc new (.str s) m
      .ok (some r.1, r.2)
    | _ => .ub "no string at the address"

/-- `FMTattributeDefaultVal` (`cocogen/gen_helpers/format.c:16-46`), and `0` for types of the user
(`cocogen/dynamic_backend/gen_constructor_call.c:63-64`, `gen_node_constructor.c:82-83`). -/
def FMTattributeDefaultVal : AType → Val
  | .plain => .word 0
  | .string => .ptr none
  | .link => .ptr none
  | .user => .word 0

/-- `DGCCchild` (`cocogen/dynamic_backend/gen_constructor_call.c:41-53`): the arguments for the children. -/
def DGCCchild : List Bool → List Ptr
  | [] => []
  | c :: rest =>
    match c with
    | true => none :: DGCCchild rest
    | false => DGCCchild rest

/-- `DGCCattribute` (`cocogen/dynamic_backend/gen_constructor_call.c:55-71`): the arguments for the attributes. -/
def DGCCattribute : List AttrD → List Val
  | [] => []
  | a :: rest =>
    match a.ctor with
    | true => FMTattributeDefaultVal a.ty :: DGCCattribute rest
    | false => DGCCattribute rest

/-- `DGNCchild` (`cocogen/dynamic_backend/gen_node_constructor.c:62-73`): the children that the constructor sets,
given its arguments. -/
def DGNCchild : List Bool → List Ptr → List Ptr
  | [], _ => []
  | true :: rest, x :: xs => x :: DGNCchild rest xs
  | true :: rest, [] => none :: DGNCchild rest []
  | false :: rest, xs => none :: DGNCchild rest xs

/-- `DGNCattribute` (`cocogen/dynamic_backend/gen_node_constructor.c:75-89`): the attributes that the constructor
sets, given its arguments.  For an attribute of the constructor that is inherited or synthesized the generated code
is no C (the left side is a call); here the value is stored in the struct. -/
def DGNCattribute : List AttrD → List Val → List Field
  | [], _ => []
  | a :: rest, vs =>
    match a.ctor with
    | true =>
      (match a.inh || a.syn with
        | true => .nested .undef (vs.headD .undef)
        | false => .plain (vs.headD .undef)) :: DGNCattribute rest vs.tail
    | false =>
      (match a.inh || a.syn with
        | true => .nested (.word 0) .undef
        | false => .plain (FMTattributeDefaultVal a.ty)) :: DGNCattribute rest vs

/-- `NewNode` (`cocogen/dynamic_backend/gen_node_base_and_union.c:17-33`). -/
def NewNode (new : Mem → Option Addr) (m : Mem) : Res (Addr × Mem) :=
  MEMmalloc new (.node { ty := 0, data := none, children := none, filename := none, numChildren := 0, bline := 0,
                         eline := 0, bcol := 0, ecol := 0 }) m

/-- A node is written. -/
def setNode (m : Mem) (p : Ptr) (f : NodeB → NodeB) : Res Mem := do
  let n ← nodeAt m p
  .ok (upd m n.1 (some (.node (f n.2))))

/-- The constructor `ASTx` (`cocogen/dynamic_backend/gen_node_constructor.c:26-60`) of node type `ty`.  The struct of
a node without children and attributes is empty; its size is 0 (an extension of C), and `MEMmalloc(0)` is NULL. -/
def ASTx (new : Mem → Option Addr) (ty : Nat) (D : NodeD) (kargs : List Ptr) (aargs : List Val) (m : Mem) :
    Res (Ptr × Mem) := do
  let n ← NewNode new m
  match D.kids.isEmpty && D.attrs.isEmpty with
  | true => do
    let m ← setNode n.2 (some n.1) fun b => { b with data := none, ty := ty, numChildren := 0 }
    .ok (some n.1, m)
  | false => do
    let d ← MEMmalloc new (.data { ty := ty, kids := DGNCchild D.kids kargs, attrs := DGNCattribute D.attrs aargs }) n.2
    let m ← setNode d.2 (some n.1) fun b =>
      { b with data := some d.1, ty := ty, numChildren := D.kids.length,
               children := match D.kids.isEmpty with
                 | true => b.children
                 | false => some d.1 }
    .ok (some n.1, m)

/-- `CopyBaseNode` (`cocogen/dynamic_backend/gen_copy_traversal.c:48-54`). -/
def CopyBaseNode (new : Mem → Option Addr) (target source : Ptr) (m : Mem) : Res Mem := do
  let src ← nodeAt m source
  let m ← setNode m target fun b =>
    { b with bcol := src.2.bcol, ecol := src.2.ecol, bline := src.2.bline, eline := src.2.eline }
  let src ← nodeAt m source
  let f ← STRcpyM new src.2.filename m
  setNode f.2 target fun b => { b with filename := f.1 }

/-- The struct of node type `ty` that belongs to a node (`CCNaccess_x_y`,
`cocogen/dynamic_backend/gen_node_access_funcs.c:66-93`, `95-161`).  With a node of another type the access function
ends the process, or, compiled without debugging, the behaviour is undefined; both are undefined here. -/
def accessData (m : Mem) (ty : Nat) (p : Ptr) : Res (Addr × DataB) := do
  let n ← nodeAt m p
  if n.2.ty = ty then
    let d ← dataAt m n.2.data
    if d.2.ty = ty then .ok d else .ub "struct of another type"
  else .ub "node of another type"

/-- A child is read (`cocogen/dynamic_backend/gen_node_access_funcs.c:66-93`). -/
def readKid (ty : Nat) (p : Ptr) (i : Nat) (m : Mem) : Res Ptr := do
  let d ← accessData m ty p
  match d.2.kids[i]? with
  | some c => .ok c
  | none => .ub "no such child"

/-- A child is written (`cocogen/dynamic_backend/gen_node_access_funcs.c:66-93`). -/
def writeKid (ty : Nat) (p : Ptr) (i : Nat) (c : Ptr) (m : Mem) : Res Mem := do
  let d ← accessData m ty p
  if i < d.2.kids.length then .ok (upd m d.1 (some (.data { d.2 with kids := d.2.kids.set i c })))
  else .ub "no such child"

/-- An attribute that is neither inherited nor synthesized is read
(`cocogen/dynamic_backend/gen_node_access_funcs.c:95-161`). -/
def readAttr (ty : Nat) (p : Ptr) (i : Nat) (m : Mem) : Res Val := do
  let d ← accessData m ty p
  match d.2.attrs[i]? with
  | some (.plain v) => if v = .undef then .ub "value was never set" else .ok v
  | _ => .ub "no such attribute"

/-- An attribute that is neither inherited nor synthesized is written
(`cocogen/dynamic_backend/gen_node_access_funcs.c:95-161`). -/
def writeAttr (ty : Nat) (p : Ptr) (i : Nat) (v : Val) (m : Mem) : Res Mem := do
  let d ← accessData m ty p
  match d.2.attrs[i]? with
  | some (.plain _) => .ok (upd m d.1 (some (.data { d.2 with attrs := d.2.attrs.set i (.plain v) })))
  | _ => .ub "no such attribute"

/-- A pointer in a field. -/
def Val.toPtr : Val → Res Ptr
  | .ptr p => .ok p
  | _ => .ub "not a pointer"

/-- The result of an expression that is a pointer. -/
def Val.asPtr : Val → Ptr
  | .ptr p => p
  | _ => none

/-- A statement without a value. -/
def stmt (f : Mem → Res Mem) (k : Prog) : Prog :=
  .mem (fun m => do
    let m ← f m
    .ok (.undef, m)) fun _ => k

/-- An expression whose value is a pointer. -/
def expr (f : Mem → Res (Ptr × Mem)) (k : Ptr → Prog) : Prog :=
  .mem (fun m => do
    let r ← f m
    .ok (.ptr r.1, r.2)) fun v => k v.asPtr

/-- `DGCTchild` (`cocogen/dynamic_backend/gen_copy_traversal.c:79-87`): the code for `n` children from index `i` on,
before the code `k`. -/
def DGCTchild (ty : Nat) (arg new_node : Ptr) : Nat → Nat → Prog → Prog
  | 0, _, k => k
  | n + 1, i, k =>
    expr (fun m => do
      let c ← readKid ty arg i m
      .ok (c, m)) fun c =>
    .call (.travOpt c) fun r =>
    stmt (writeKid ty new_node i r) (DGCTchild ty arg new_node n (i + 1) k)

/-- The assignment to an attribute with `STRcpy` (`cocogen/dynamic_backend/gen_copy_traversal.c:101-102`). -/
def copyStr (new : Mem → Option Addr) (ty : Nat) (arg new_node : Ptr) (i : Nat) (m : Mem) : Res Mem := do
  let v ← readAttr ty arg i m
  let p ← v.toPtr
  let r ← STRcpyM new p m
  writeAttr ty new_node i (.ptr r.1) r.2

/-- The assignment to an attribute by value (`cocogen/dynamic_backend/gen_copy_traversal.c:103-111`). -/
def copyVal (ty : Nat) (arg new_node : Ptr) (i : Nat) (m : Mem) : Res Mem := do
  let v ← readAttr ty arg i m
  writeAttr ty new_node i v m

/-- `DGCTattribute` (`cocogen/dynamic_backend/gen_copy_traversal.c:89-113`): the code for the attributes, which start
at index `i`, before the code `k`. -/
def DGCTattribute (new : Mem → Option Addr) (ty : Nat) (arg new_node : Ptr) : List AttrD → Nat → Prog → Prog
  | [], _, k => k
  | a :: rest, i, k =>
    match a.inh || a.syn with
    | true => DGCTattribute new ty arg new_node rest (i + 1) k
    | false =>
      match a.ty with
      | .string => stmt (copyStr new ty arg new_node i) (DGCTattribute new ty arg new_node rest (i + 1) k)
      | _ => stmt (copyVal ty arg new_node i) (DGCTattribute new ty arg new_node rest (i + 1) k)

/-- `DGCTinode` (`cocogen/dynamic_backend/gen_copy_traversal.c:59-77`): the handler `CPYx`. -/
def DGCTinode (new : Mem → Option Addr) (ty : Nat) (D : NodeD) (arg : Addr) : Prog :=
  expr (ASTx new ty D (DGCCchild D.kids) (DGCCattribute D.attrs)) fun q =>
  stmt (CopyBaseNode new q (some arg)) <|
  DGCTchild ty (some arg) q D.kids.length 0 <|
  DGCTattribute new ty (some arg) q D.attrs 0 <|
  .ret q

/-- The handlers of the copy traversal for the nodes, the first of which has the type `ty` (`DGSTinode`,
`cocogen/dynamic_backend/gen_system_traversals.c:51-62`). -/
def copyRow (new : Mem → Option Addr) (ty : Nat) : List NodeD → List (Addr → Prog)
  | [] => []
  | D :: rest => DGCTinode new ty D :: copyRow new (ty + 1) rest

/-- `ccn_copy_vtable` (`cocogen/dynamic_backend/gen_system_traversals.c:17`, `31-38`). -/
def ccn_copy_vtable (new : Mem → Option Addr) (Ds : List NodeD) : List (Addr → Prog) := TRAVerror :: copyRow new 1 Ds

/-- `MEMfree(arg_node->data.N_x->y)` for a string attribute
(`cocogen/dynamic_backend/gen_free_traversal.c:88-96`).  The data is reached without looking at the type. -/
def freeStr (arg : Ptr) (ty i : Nat) (m : Mem) : Res Mem := do
  let n ← nodeAt m arg
  let d ← dataAt m n.2.data
  if d.2.ty = ty then
    match d.2.attrs[i]? with
    | some (.plain v) => do
      let p ← v.toPtr
      MEMfree p m
    | _ => .ub "no such member"
  else .ub "struct of another type"

/-- `DGFTattribute` (`cocogen/dynamic_backend/gen_free_traversal.c:88-96`): the code for the attributes, which start at
index `i`, before the code `k`. -/
def DGFTattribute (ty : Nat) (arg : Ptr) : List AttrD → Nat → Prog → Prog
  | [], _, k => k
  | a :: rest, i, k =>
    match a.ty with
    | .string => stmt (freeStr arg ty i) (DGFTattribute ty arg rest (i + 1) k)
    | _ => DGFTattribute ty arg rest (i + 1) k

/-- `MEMfree(NODE_FILENAME(arg_node))`, `MEMfree(arg_node->data.N_x)` and `MEMfree(arg_node)`
(`cocogen/dynamic_backend/gen_free_traversal.c:63-65`). -/
def freeNode (arg : Ptr) (m : Mem) : Res Mem := do
  let n ← nodeAt m arg
  let m ← MEMfree n.2.filename m
  let n ← nodeAt m arg
  let m ← MEMfree n.2.data m
  MEMfree arg m

/-- `DGFTinode` (`cocogen/dynamic_backend/gen_free_traversal.c:53-70`): the handler `DELx`. -/
def DGFTinode (ty : Nat) (D : NodeD) (arg : Addr) : Prog :=
  match D.kids.isEmpty with
  | true => DGFTattribute ty (some arg) D.attrs 0 (stmt (freeNode (some arg)) (.ret none))
  | false =>
    .call (.travChildren (some arg)) fun _ =>
      DGFTattribute ty (some arg) D.attrs 0 (stmt (freeNode (some arg)) (.ret none))

/-- The handlers of the free traversal (`cocogen/dynamic_backend/gen_system_traversals.c:51-62`). -/
def freeRow (ty : Nat) : List NodeD → List (Addr → Prog)
  | [] => []
  | D :: rest => DGFTinode ty D :: freeRow (ty + 1) rest

/-- `ccn_free_vtable` (`cocogen/dynamic_backend/gen_system_traversals.c:17`, `31-38`). -/
def ccn_free_vtable (Ds : List NodeD) : List (Addr → Prog) := TRAVerror :: freeRow 1 Ds

/-- Does the C compiler accept `DELx`?  `DGFTattribute` uses the member `y` of the struct
(`cocogen/dynamic_backend/gen_free_traversal.c:92`), but an inherited or synthesized attribute is the member `_y`
(`gen_node_structs.c:66-90`). -/
def freeBuilds (Ds : List NodeD) : Bool :=
  Ds.all fun D => D.attrs.all fun a =>
    match a.ty with
    | .string => !(a.inh || a.syn)
    | _ => true

/-- `CCNcopy` (`copra/src/dynamic_core.c:107`), where the traversal `TRAV_cpy` has the number `cpy`. -/
def CCNcopy (E : Env) (cpy : Nat) (n : Nat) (p : Ptr) (s : St) : Res (Ptr × St) := call E n (.travStart p cpy) s

/-- `CCNfree` (`copra/src/dynamic_core.c:112`), where the traversal `TRAV_free` has the number `free`. -/
def CCNfree (E : Env) (free : Nat) (n : Nat) (p : Ptr) (s : St) : Res (Ptr × St) := call E n (.travStart p free) s

end Verif.Trav
