import Verif.Model.NodeGen
import Verif.Model.CopyFree
import Verif.Model.Tables

/-!
# Model of the generators of `ccn_copy.c` and `ccn_free.c`, with names

`cocogen/dynamic_backend/gen_copy_traversal.c`, `gen_constructor_call.c` and `gen_free_traversal.c` print code that uses members by macros and
names.  `Verif.Model.CopyFree` gives the handlers with positions instead of names; here is the text with names, and what a C compiler makes of
it, with the header of `Verif.Model.NodeGen` and the enumerations of `Verif.Model.Tables`.

Simplifications: types of expressions are not checked; the macros of the base node (`NODE_FILENAME` and others) and the functions of palm and
copra are taken as they are.  The union of the children is a list of pointers, without a value for one that was not written: such a child is
undefined behaviour at once.  The warning for attributes with a type of the user is left out.
-/

namespace Verif.CopyGen
open Verif.Str Verif.Ids
open Verif.NodeGen (CTok Header Struct Member Obj sU sData sAST)
open Verif.Trav (Addr Ptr Mem DataB Field)
open Verif.Tables (value sNT sCPY sDEL)

/-! ## Text -/

/-- A statement in `CPYx`: the macros on the left and on the right. -/
inductive CStmt where
  /-- `X_A(new_node) = TRAVopt(X_B(arg_node))` -/
  | child (lhs rhs : CStr)
  /-- `X_A(new_node) = STRcpy(X_B(arg_node))` -/
  | str (lhs rhs : CStr)
  /-- `X_A(new_node) = X_B(arg_node)` -/
  | val (lhs rhs : CStr)
  deriving DecidableEq, Repr

/-- A function `CPYx`: the call that makes the new node, then `CopyBaseNode(new_node, arg_node)`, the statements and
`return new_node` (`cocogen/dynamic_backend/gen_copy_traversal.c:67-73`). -/
structure CopyFn where
  name : CStr
  ctor : CStr
  args : List CTok
  stmts : List CStmt

/-- `DGCTchild` (`cocogen/dynamic_backend/gen_copy_traversal.c:79-87`) along the children. -/
def DGCTchildren (n : Id) : List NodeGen.Child → List CStmt
  | [] => []
  | c :: rest => .child (n.upr ++ sU ++ c.name.upr) (n.upr ++ sU ++ c.name.upr) :: DGCTchildren n rest

/-- `DGCTattribute` (`cocogen/dynamic_backend/gen_copy_traversal.c:89-116`) along the attributes. -/
def DGCTattributes (n : Id) : List NodeGen.Attr → List CStmt
  | [] => []
  | a :: rest =>
    match a.inh || a.syn with
    | true => DGCTattributes n rest
    | false =>
      match a.type with
      | .string => .str (n.upr ++ sU ++ a.name.upr) (n.upr ++ sU ++ a.name.upr) :: DGCTattributes n rest
      | _ => .val (n.upr ++ sU ++ a.name.upr) (n.upr ++ sU ++ a.name.upr) :: DGCTattributes n rest

/-- `DGCTinode` (`cocogen/dynamic_backend/gen_copy_traversal.c:59-77`). -/
def DGCTinode (n : NodeGen.Node) : Res CopyFn := do
  let c ← NodeGen.DGCCinode n
  .ok ⟨sCPY ++ n.name.lwr, c.1, c.2, DGCTchildren n.name n.children ++ DGCTattributes n.name n.attrs⟩

/-- A statement in `DELx`. -/
inductive DStmt where
  /-- `TRAVchildren(arg_node)` -/
  | children
  /-- `MEMfree(arg_node->data.N_x->y)` -/
  | str (node member : CStr)
  /-- `MEMfree(NODE_FILENAME(arg_node))`, `MEMfree(arg_node->data.N_x)` and `MEMfree(arg_node)` -/
  | base (node : CStr)
  deriving DecidableEq, Repr

/-- A function `DELx`: the statements, then `return NULL`. -/
structure FreeFn where
  name : CStr
  stmts : List DStmt

/-- `DGFTattribute` (`cocogen/dynamic_backend/gen_free_traversal.c:88-96`) along the attributes. -/
def DGFTattributes (n : Id) : List NodeGen.Attr → List DStmt
  | [] => []
  | a :: rest =>
    match a.type with
    | .string => .str n.lwr a.name.lwr :: DGFTattributes n rest
    | _ => DGFTattributes n rest

/-- `TRAVchildren` if there are children (`cocogen/dynamic_backend/gen_free_traversal.c:58-60`). -/
def childStmt : List NodeGen.Child → List DStmt
  | [] => []
  | _ :: _ => [.children]

/-- `DGFTinode` (`cocogen/dynamic_backend/gen_free_traversal.c:53-70`). -/
def DGFTinode (n : NodeGen.Node) : FreeFn :=
  ⟨sDEL ++ n.name.lwr, childStmt n.children ++ DGFTattributes n.name n.attrs ++ [.base n.name.lwr]⟩

/-! ## What the compiler makes of it -/

/-- A member that is an attribute (`cocogen/dynamic_backend/gen_node_structs.c:62-92`). -/
def isAttr : Member → Bool
  | .children _ _ _ _ => false
  | _ => true

/-- The attributes in a structure, in order (`cocogen/dynamic_backend/gen_node_structs.c:62-92`). -/
def attrsOf (s : Struct) : List Member := s.members.filter isAttr

/-- The names of the children in a structure (`cocogen/dynamic_backend/gen_node_structs.c:34-42`). -/
def kidsOf : List Member → List CStr
  | [] => []
  | .children _ _ _ fs :: _ => fs
  | _ :: rest => kidsOf rest

/-- The structure behind `data.N_x` (`cocogen/dynamic_backend/gen_node_base_and_union.c:73-79`). -/
def structNamed (hd : Header) (node : CStr) : Res Struct :=
  match hd.structs.find? (·.node == node) with
  | none => .abort "no such member"
  | some s => .ok s

/-- The number of a node type: the value of its enumerator (`cocogen/dynamic_backend/gen_enums.c:50-56`). -/
def typeNo (enum : List CStr) (upr : CStr) : Res Nat :=
  match value enum (sNT ++ upr) with
  | none => .abort "undeclared identifier"
  | some k => .ok k

/-- The number of the node type that a structure is for (`cocogen/dynamic_backend/gen_node_structs.c:32`). -/
def structNo (enum : List CStr) (s : Struct) : Res Nat := typeNo enum (s.tag.drop sData.length)

/-- Where a member is: the number of the type, and the position among the children or attributes. -/
inductive Place where
  | kid (ty i : Nat)
  | attr (ty i : Nat)
  deriving DecidableEq, Repr

/-- A member that is an attribute without mark, with this name (`cocogen/dynamic_backend/gen_node_structs.c:72-85`). -/
def isPlain (f : CStr) : Member → Bool
  | .plain _ g => g == f
  | _ => false

/-- The position of a child (`cocogen/dynamic_backend/gen_node_access_funcs.c:66-93`). -/
def kidAt (ty : Nat) (s : Struct) (f : CStr) : Res Place :=
  match (kidsOf s.members).findIdx? (· == f) with
  | none => .abort "no such member"
  | some i => .ok (.kid ty i)

/-- The position of an attribute (`cocogen/dynamic_backend/gen_node_access_funcs.c:95-161`, `gen_free_traversal.c:92`). -/
def attrAt (ty : Nat) (s : Struct) (f : CStr) : Res Place :=
  match (attrsOf s).findIdx? (isPlain f) with
  | none => .abort "no such member"
  | some i => .ok (.attr ty i)

/-- What a macro of a node stands for, on the left or right of an assignment: the access function checks the number of the type, and takes the
member of the union of this type (`cocogen/dynamic_backend/gen_node_access_funcs.c:66-161`). -/
def place (hd : Header) (enum : List CStr) (mac : CStr) : Res Place := do
  let r ← NodeGen.macroFn hd mac
  match r.1 && r.2.lval with
  | false => .abort "not an lvalue"
  | true =>
    match r.2.body with
    | .switch _ => .abort "not the macro of a node"
    | .member nt path => do
      let ty ← typeNo enum nt
      let s ← structNamed hd path.node
      let u ← structNo enum s
      match ty == u with
      | false => .ub "other member of the union"
      | true =>
        match path with
        | .child _ f => kidAt ty s f
        | .plain _ f => attrAt ty s f
        | .valued _ _ => .abort "not an lvalue"

/-- A statement of `CPYx` with positions: type and position on the left and on the right. -/
inductive IStmt where
  | child (lt li rt ri : Nat)
  | str (lt li rt ri : Nat)
  | val (lt li rt ri : Nat)
  deriving DecidableEq, Repr

/-- The places that a statement uses (`cocogen/dynamic_backend/gen_copy_traversal.c:79-116`).  A child in the place of an attribute and the
reverse are left out: they end the compilation. -/
def resolve (hd : Header) (enum : List CStr) : CStmt → Res IStmt
  | .child l r => do
    let a ← place hd enum l
    let b ← place hd enum r
    match a, b with
    | .kid lt li, .kid rt ri => .ok (.child lt li rt ri)
    | _, _ => .abort "type"
  | .str l r => do
    let a ← place hd enum l
    let b ← place hd enum r
    match a, b with
    | .attr lt li, .attr rt ri => .ok (.str lt li rt ri)
    | _, _ => .abort "type"
  | .val l r => do
    let a ← place hd enum l
    let b ← place hd enum r
    match a, b with
    | .attr lt li, .attr rt ri => .ok (.val lt li rt ri)
    | _, _ => .abort "type"

/-- The same for all statements (`cocogen/dynamic_backend/gen_copy_traversal.c:69-70`). -/
def resolveAll (hd : Header) (enum : List CStr) : List CStmt → Res (List IStmt)
  | [] => .ok []
  | s :: rest => do
    let i ← resolve hd enum s
    let is ← resolveAll hd enum rest
    .ok (i :: is)

/-- The statements as code, before the code `k` (`cocogen/dynamic_backend/gen_copy_traversal.c:79-116`). -/
def code (new : Mem → Option Addr) (arg q : Ptr) (k : Trav.Prog) : List IStmt → Trav.Prog
  | [] => k
  | .child lt li rt ri :: rest =>
    Trav.expr (fun m => do
      let c ← Trav.readKid rt arg ri m
      .ok (c, m)) fun c =>
    .call (.travOpt c) fun r =>
    Trav.stmt (Trav.writeKid lt q li r) (code new arg q k rest)
  | .str lt li rt ri :: rest =>
    Trav.stmt (fun m => do
      let v ← Trav.readAttr rt arg ri m
      let p ← v.toPtr
      let r ← Trav.STRcpyM new p m
      Trav.writeAttr lt q li (.ptr r.1) r.2) (code new arg q k rest)
  | .val lt li rt ri :: rest =>
    Trav.stmt (fun m => do
      let v ← Trav.readAttr rt arg ri m
      Trav.writeAttr lt q li v m) (code new arg q k rest)

/-- The call of the constructor (`cocogen/dynamic_backend/gen_constructor_call.c:29-39`): the function with this name, and what it makes of the
arguments. -/
def callCtor (p : NodeGen.Prog) (f : CopyFn) : Res Obj :=
  match p.nodes.find? (fun n => sAST ++ n.name.lwr == f.ctor) with
  | none => .abort "undeclared function"
  | some n =>
    match NodeGen.readArgs f.args with
    | none => .abort "argument list"
    | some rs => do
      let vs ← NodeGen.evalArgs rs
      NodeGen.construct p n vs

/-- A value of `Verif.Model.NodeGen` in memory (`cocogen/gen_helpers/format.c:16-46`). -/
def word : NodeGen.Val → Trav.Val
  | .null => .ptr none
  | .zero => .word 0
  | .fzero => .word 0
  | .cfalse => .word 0
  | .given n => .word n

/-- The children of a new node (`cocogen/dynamic_backend/gen_node_constructor.c:62-73`). -/
def kids (o : Obj) : List CStr → Res (List Ptr)
  | [] => .ok []
  | f :: rest =>
    match o.child f with
    | some .null => do
      let ks ← kids o rest
      .ok (none :: ks)
    | some _ => .abort "type"
    | none => .ub "uninitialised"

/-- An attribute of a new node (`cocogen/dynamic_backend/gen_node_constructor.c:75-89`): a mark beside a computed one. -/
def field (o : Obj) : Member → Field
  | .plain _ g =>
    match o.plain g with
    | none => .plain .undef
    | some v => .plain (word v)
  | .valued _ name _ _ =>
    match o.isSet name with
    | none => .nested .undef .undef
    | some false => .nested (.word 0) .undef
    | some true => .nested (.word 1) .undef
  | .children _ _ _ _ => .plain .undef

/-- The new node in memory (`cocogen/dynamic_backend/gen_node_constructor.c:39-53`).  The structure of a node without children and attributes is
empty; its size is 0 (an extension of C), and `MEMmalloc(0)` is NULL. -/
def alloc (new : Mem → Option Addr) (ty : Nat) (empty : Bool) (d : DataB) (num : Nat) (array : Bool) (m : Mem) : Res (Ptr × Mem) := do
  let n ← Trav.NewNode new m
  match empty with
  | true => do
    let m ← Trav.setNode n.2 (some n.1) fun b => { b with data := none, ty := ty, numChildren := num }
    .ok (some n.1, m)
  | false => do
    let d ← Trav.MEMmalloc new (.data d) n.2
    let m ← Trav.setNode d.2 (some n.1) fun b =>
      { b with data := some d.1, ty := ty, numChildren := num,
               children := match array with
                 | true => some d.1
                 | false => b.children }
    .ok (some n.1, m)

/-- A function, given the choice of `malloc` (`copra/ccn/ccn_types.h:10`). -/
abbrev Code := (Mem → Option Addr) → Addr → Trav.Prog

/-- The function `CPYx` as the compiler reads it (`cocogen/dynamic_backend/gen_copy_traversal.c:59-77`). -/
def copyCode (p : NodeGen.Prog) (hd : Header) (enum : List CStr) (f : CopyFn) : Res (CStr × Code) := do
  let o ← callCtor p f
  let ty ← typeNo enum o.nt
  let s ← structNamed hd o.node
  let ks ← kids o (kidsOf s.members)
  let is ← resolveAll hd enum f.stmts
  .ok (f.name, fun new arg =>
    Trav.expr (alloc new ty s.members.isEmpty ⟨ty, ks, (attrsOf s).map (field o)⟩ o.num o.array.isSome) fun q =>
    Trav.stmt (Trav.CopyBaseNode new q (some arg)) (code new (some arg) q (.ret q) is))

/-- The functions for all nodes (`cocogen/dynamic_backend/gen_copy_traversal.c:55`, `74`). -/
def copyCodes (p : NodeGen.Prog) (hd : Header) (enum : List CStr) : List NodeGen.Node → Res (List (CStr × Code))
  | [] => .ok []
  | n :: rest => do
    let f ← DGCTinode n
    let c ← copyCode p hd enum f
    let cs ← copyCodes p hd enum rest
    .ok (c :: cs)

/-- `MAYBE_UNUSED` (`cocogen/dynamic_backend/gen_copy_traversal.c:34-38`). -/
def sMaybe : CStr := [77, 65, 89, 66, 69, 95, 85, 78, 85, 83, 69, 68]

/-- `ccn_copy.c` (`cocogen/dynamic_backend/gen_copy_traversal.c:24-57`): it includes `ast.h` and defines a macro of its own. -/
def ccn_copy (p : NodeGen.Prog) (enum : List CStr) : Res (List (CStr × Code)) := do
  let hd ← NodeGen.compile p
  match hd.macros.any (·.name == sMaybe) with
  | true => .abort "macro redefined"
  | false => copyCodes p hd enum p.nodes

/-- A statement of `DELx` with positions. -/
inductive FStmt where
  | children
  | str (ty i : Nat)
  | base
  deriving DecidableEq, Repr

/-- What a statement of `DELx` uses (`cocogen/dynamic_backend/gen_free_traversal.c:59`, `63-65`, `92`). -/
def resolveFree (hd : Header) (enum : List CStr) : DStmt → Res FStmt
  | .children => .ok .children
  | .str node member => do
    let s ← structNamed hd node
    let ty ← structNo enum s
    let a ← attrAt ty s member
    match a with
    | .attr ty i => .ok (.str ty i)
    | .kid _ _ => .abort "type"
  | .base node => do
    let _ ← structNamed hd node
    .ok .base

/-- The same for all statements (`cocogen/dynamic_backend/gen_free_traversal.c:58-66`). -/
def resolveFrees (hd : Header) (enum : List CStr) : List DStmt → Res (List FStmt)
  | [] => .ok []
  | s :: rest => do
    let i ← resolveFree hd enum s
    let is ← resolveFrees hd enum rest
    .ok (i :: is)

/-- The statements as code (`cocogen/dynamic_backend/gen_free_traversal.c:58-66`). -/
def freeCode (arg : Ptr) : List FStmt → Trav.Prog
  | [] => .ret none
  | .children :: rest => .call (.travChildren arg) fun _ => freeCode arg rest
  | .str ty i :: rest => Trav.stmt (Trav.freeStr arg ty i) (freeCode arg rest)
  | .base :: rest => Trav.stmt (Trav.freeNode arg) (freeCode arg rest)

/-- The functions `DELx` (`cocogen/dynamic_backend/gen_free_traversal.c:25`, `68`). -/
def freeCodes (hd : Header) (enum : List CStr) : List NodeGen.Node → Res (List (CStr × Code))
  | [] => .ok []
  | n :: rest => do
    let is ← resolveFrees hd enum (DGFTinode n).stmts
    let cs ← freeCodes hd enum rest
    .ok (((DGFTinode n).name, fun _ arg => freeCode (some arg) is) :: cs)

/-- `ccn_free.c` (`cocogen/dynamic_backend/gen_free_traversal.c:16-27`). -/
def ccn_free (p : NodeGen.Prog) (enum : List CStr) : Res (List (CStr × Code)) := do
  let hd ← NodeGen.compile p
  freeCodes hd enum p.nodes

end Verif.CopyGen
