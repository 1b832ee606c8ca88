import Verif.Model.Str

/-!
# Model of the traversal core, `copra/src/dynamic_core.c`

Memory is explicit: nodes, their data and strings live in `Mem`, the traversal stack (a linked list of `struct
ccn_trav`) in `frames`, and the data of traversals in `dmem`.  The three kinds of blocks never overlap, so they are
kept in separate maps.  Where `malloc` puts a block is decided by an oracle that may use released addresses again.

Handlers, passes and the user's `init`/`fini` functions are programs (`Prog`): they can call the functions of
`dynamic_core.h`, use the data of the current traversal through `DATA_X_GET()`, and change `Mem` in any way.  They
cannot write to the traversal stack by other means, nor keep a pointer to the data of an outer traversal.

Recursion is limited by a number (`call`); running out of it is the outcome `diverge`.
-/

namespace Verif.Trav
open Verif.Str

/-- Addresses of blocks. -/
abbrev Addr := Nat

/-- Pointers to blocks; `none` is NULL. -/
abbrev Ptr := Option Addr

/-- Contents of a field: not yet written, a plain value, or a pointer. -/
inductive Val where
  | undef
  | word (n : Nat)
  | ptr (p : Ptr)
  deriving DecidableEq

/-- `struct ccn_node` (`cocogen/dynamic_backend/gen_node_base_and_union.c:46-56`).  `data` is the member `data.N_x`;
`children` points at the array of children, which is a part of a data block. -/
structure NodeB where
  ty : Nat
  data : Ptr
  children : Ptr
  filename : Ptr
  numChildren : Nat
  bline : Nat
  eline : Nat
  bcol : Nat
  ecol : Nat
  deriving DecidableEq

/-- An attribute in `struct NODE_DATA_X` (`cocogen/dynamic_backend/gen_node_structs.c:62-91`): a member, or, for
inherited and synthesized attributes, a struct with the flag `ccn_val_set` and the value. -/
inductive Field where
  | plain (v : Val)
  | nested (set v : Val)
  deriving DecidableEq

/-- `struct NODE_DATA_X` (`cocogen/dynamic_backend/gen_node_structs.c:25-50`) of the node type `ty`: children (a
union of an array and a struct) and attributes, in the order of the declaration. -/
structure DataB where
  ty : Nat
  kids : List Ptr
  attrs : List Field
  deriving DecidableEq

/-- The blocks that user code and generated code work on (`cocogen/dynamic_backend/gen_node_base_and_union.c:46-56`,
`gen_node_structs.c:25-50`, strings of `palm/src/str.c:22-34`). -/
inductive Blk where
  | node (b : NodeB)
  | data (b : DataB)
  | str (s : CStr)
  deriving DecidableEq

/-- Memory for nodes, node data and strings: the blocks that are allocated. -/
abbrev Mem := Addr → Option Blk

/-- Change a map at one place. -/
def upd {α : Type} (m : Addr → Option α) (a : Addr) (v : Option α) : Addr → Option α :=
  fun b => if b = a then v else m b

/-- `struct ccn_trav` (`copra/ccn/dynamic_core.h:7-11`).  `data` is the pointer in the union `TRAV_DATA`; `none` is a
pointer that was never written. -/
structure Frame where
  prev : Ptr
  ty : Nat
  data : Ptr
  deriving DecidableEq

/-- What is observed: the function in `trav_data_init_vtable` is called for a `struct ccn_trav`, the function in
`trav_data_free_vtable` returns, a handler is called for a node (`copra/src/dynamic_core.c:26`, `36`, `51`). -/
inductive Event where
  | init (frame : Addr) (ty : Nat)
  | fini (frame : Addr) (ty : Nat)
  | visit (frame : Addr) (node : Addr)
  deriving DecidableEq

/-- The state: memory, the blocks of type `struct ccn_trav`, the blocks of type `struct data_x`, the variable
`current_traversal` (`copra/src/dynamic_core.c:17`), and what happened. -/
structure St where
  mem : Mem
  frames : Addr → Option Frame
  dmem : Addr → Option (List Val)
  cur : Ptr
  trace : List Event

/-- Calls of functions of `copra/ccn/dynamic_core.h:13-26`. -/
inductive Op where
  | travDo (p : Ptr)
  | travOpt (p : Ptr)
  | travChildren (p : Ptr)
  | travStart (p : Ptr) (ty : Nat)
  | passStart (p : Ptr) (ty : Nat)
  | push (ty : Nat)
  | pop
  deriving DecidableEq

/-- User code and generated handlers (`ccn_trav_ft` and `ccn_pass_ft`, `copra/ccn/ccn_types.h:10-11`): return a
node, end the process, call the core, change memory, or use the data of the current traversal
(`cocogen/dynamic_backend/gen_trav_data_getters.c:7-19`). -/
inductive Prog where
  | ret (p : Ptr)
  | abort (why : String)
  | call (o : Op) (k : Ptr → Prog)
  | mem (f : Mem → Res (Val × Mem)) (k : Val → Prog)
  | data (f : List Val → Res (Val × List Val)) (k : Val → Prog)

/-- An entry of `trav_data_init_vtable` and the entry of `trav_data_free_vtable` (`ccn_trav_data_ft`,
`copra/ccn/ccn_types.h:12`): `TRAVdataNOP`, or for traversals with data the functions generated by
`cocogen/dynamic_backend/gen_trav_data_ctors.c:9-36`.  The values are the defaults of the fields, the program is the
user's function. -/
inductive DataInit where
  | nop
  | data (defaults : List Val) (init : Prog)

/-- See `DataInit` (`cocogen/dynamic_backend/gen_trav_data_ctors.c:30-33`). -/
inductive DataFree where
  | nop
  | data (fini : Prog)

/-- The generated tables (`copra/ccn/ccn_types.h:14-17`) and the choices of `malloc` for blocks of type `struct
ccn_trav` and `struct data_x`; `none` if there is no memory, then the process ends (`palm/src/memory.c:16-38`). -/
structure Env where
  vtable : List (List (Addr → Prog))
  initTable : List DataInit
  freeTable : List DataFree
  passes : List (Ptr → Prog)
  newFrame : St → Option Addr
  newData : St → Option Addr

/-- `struct ccn_node *` is followed: the node at an address. -/
def nodeAt (m : Mem) (p : Ptr) : Res (Addr × NodeB) :=
  match p with
  | none => .ub "NULL is followed"
  | some a =>
    match m a with
    | some (.node b) => .ok (a, b)
    | _ => .ub "no node at the address"

/-- A node data block is accessed. -/
def dataAt (m : Mem) (p : Ptr) : Res (Addr × DataB) :=
  match p with
  | none => .ub "NULL is followed"
  | some a =>
    match m a with
    | some (.data b) => .ok (a, b)
    | _ => .ub "no node data at the address"

/-- Run a program; `C` runs calls of the core. -/
def runProg (C : Op → St → Res (Ptr × St)) : Prog → St → Res (Ptr × St)
  | .ret p, s => .ok (p, s)
  | .abort why, _ => .abort why
  | .call o k, s => do
    let r ← C o s
    runProg C (k r.1) r.2
  | .mem f k, s => do
    let r ← f s.mem
    runProg C (k r.1) { s with mem := r.2 }
  | .data f k, s =>
    match s.cur with
    | none => .ub "no current traversal"
    | some a =>
      match s.frames a with
      | none => .ub "the traversal is released"
      | some fr =>
        match fr.data with
        | none => .ub "the traversal has no data"
        | some d =>
          match s.dmem d with
          | none => .ub "the data is released"
          | some vs => do
            let r ← f vs
            runProg C (k r.1) { s with dmem := upd s.dmem d (some r.2) }

/-- `TRAVdataInitX` or `TRAVdataNOP` (`cocogen/dynamic_backend/gen_trav_data_ctors.c:22-28`,
`copra/src/dynamic_core.c:11-15`), called for the `struct ccn_trav` at `a`. -/
def TRAVdataInit (E : Env) (R : Prog → St → Res (Ptr × St)) (i : DataInit) (a : Addr) (s : St) : Res St :=
  match i with
  | .nop => .ok s
  | .data defaults init =>
    match s.frames a with
    | none => .ub "the traversal is released"
    | some fr =>
      match E.newData s with
      | none => .abort "out of memory"
      | some d => do
        let s := { s with frames := upd s.frames a (some { fr with data := some d }), dmem := upd s.dmem d (some defaults) }
        let r ← R init s
        .ok r.2

/-- `TRAVdataFreeX` or `TRAVdataNOP` (`cocogen/dynamic_backend/gen_trav_data_ctors.c:30-33`,
`copra/src/dynamic_core.c:11-15`), called for the `struct ccn_trav` at `a`. -/
def TRAVdataFree (R : Prog → St → Res (Ptr × St)) (i : DataFree) (a : Addr) (s : St) : Res St :=
  match i with
  | .nop => .ok s
  | .data fini => do
    let r ← R fini s
    match r.2.frames a with
    | none => .ub "the traversal is released"
    | some fr =>
      match fr.data with
      | none => .ub "the traversal has no data"
      | some d =>
        match r.2.dmem d with
        | none => .ub "the data is released twice"
        | some _ => .ok { r.2 with dmem := upd r.2.dmem d none }

/-- `TRAVpush` (`copra/src/dynamic_core.c:19-27`). -/
def TRAVpush (E : Env) (R : Prog → St → Res (Ptr × St)) (ty : Nat) (s : St) : Res St :=
  match E.newFrame s with
  | none => .abort "out of memory"
  | some a =>
    let s := { s with frames := upd s.frames a (some { prev := s.cur, ty := ty, data := none }), cur := some a }
    match E.initTable[ty]? with
    | none => .ub "index out of bounds"
    | some i => TRAVdataInit E R i a { s with trace := s.trace ++ [.init a ty] }

/-- `TRAVpop` (`copra/src/dynamic_core.c:29-40`).  `current_traversal` is read again after the call. -/
def TRAVpop (E : Env) (R : Prog → St → Res (Ptr × St)) (s : St) : Res St :=
  match s.cur with
  | none => .abort "Error in framework."
  | some a =>
    match s.frames a with
    | none => .ub "the traversal is released"
    | some fr =>
      match E.freeTable[fr.ty]? with
      | none => .ub "index out of bounds"
      | some i => do
        let s ← TRAVdataFree R i a s
        let s : St := { s with trace := s.trace ++ [.fini a fr.ty] }
        match s.cur with
        | none => .ok { s with cur := fr.prev }
        | some b =>
          match s.frames b with
          | none => .ub "the traversal is released twice"
          | some _ => .ok { s with frames := upd s.frames b none, cur := fr.prev }

/-- `TRAVdo` (`copra/src/dynamic_core.c:48-52`). -/
def TRAVdo (E : Env) (R : Prog → St → Res (Ptr × St)) (p : Ptr) (s : St) : Res (Ptr × St) :=
  match s.cur with
  | none => .ub "no current traversal"
  | some f =>
    match s.frames f with
    | none => .ub "the traversal is released"
    | some fr =>
      match E.vtable[fr.ty]? with
      | none => .ub "index out of bounds"
      | some row => do
        let n ← nodeAt s.mem p
        match row[n.2.ty]? with
        | none => .ub "index out of bounds"
        | some h => R (h n.1) { s with trace := s.trace ++ [.visit f n.1] }

/-- `TRAVopt` (`copra/src/dynamic_core.c:65-70`). -/
def TRAVopt (E : Env) (R : Prog → St → Res (Ptr × St)) (p : Ptr) (s : St) : Res (Ptr × St) :=
  match p with
  | some _ => TRAVdo E R p s
  | none => .ok (p, s)

/-- `TRAVstart` (`copra/src/dynamic_core.c:55-60`). -/
def TRAVstart (E : Env) (R : Prog → St → Res (Ptr × St)) (p : Ptr) (ty : Nat) (s : St) : Res (Ptr × St) := do
  let s ← TRAVpush E R ty s
  let r ← TRAVopt E R p s
  let s ← TRAVpop E R r.2
  .ok (r.1, s)

/-- `NODE_CHILDREN(n)[i]` is read (`copra/src/dynamic_core.c:82`): the child, and the block it is in. -/
def getChild (m : Mem) (p : Ptr) (i : Nat) : Res (Ptr × Ptr) := do
  let n ← nodeAt m p
  let d ← dataAt m n.2.children
  match d.2.kids[i]? with
  | none => .ub "index out of bounds"
  | some c => .ok (c, n.2.children)

/-- `NODE_CHILDREN(n)[i]` is written (`copra/src/dynamic_core.c:82`).  It is unspecified whether the pointer
`NODE_CHILDREN(n)` for the left side is read before or after the call on the right side; a change of it by the call
is treated as undefined behaviour. -/
def setChild (m : Mem) (p : Ptr) (i : Nat) (block : Ptr) (c : Ptr) : Res Mem := do
  let n ← nodeAt m p
  if n.2.children = block then
    let d ← dataAt m n.2.children
    if i < d.2.kids.length then
      .ok (upd m d.1 (some (.data { d.2 with kids := d.2.kids.set i c })))
    else .ub "index out of bounds"
  else .ub "order of evaluation"

/-- Largest value of `int`. -/
def INT_MAX : Nat := 2147483647

/-- The loop in `TRAVchildren` (`copra/src/dynamic_core.c:81-83`), from index `i` on; at most `fuel` rounds. -/
def childLoop (E : Env) (R : Prog → St → Res (Ptr × St)) : Nat → Ptr → Nat → St → Res St
  | 0, _, _, _ => .diverge
  | fuel + 1, p, i, s => do
    let n ← nodeAt s.mem p
    if i < n.2.numChildren then
      let c ← getChild s.mem p i
      let r ← TRAVopt E R c.1 s
      let m ← setChild r.2.mem p i c.2 r.1
      if i < INT_MAX then childLoop E R fuel p (i + 1) { r.2 with mem := m } else .ub "overflow of int"
    else .ok s

/-- `TRAVchildren` (`copra/src/dynamic_core.c:80-85`). -/
def TRAVchildren (E : Env) (R : Prog → St → Res (Ptr × St)) (fuel : Nat) (p : Ptr) (s : St) : Res (Ptr × St) := do
  let s ← childLoop E R fuel p 0 s
  .ok (p, s)

/-- `PASSstart` (`copra/src/dynamic_core.c:94-97`). -/
def PASSstart (E : Env) (R : Prog → St → Res (Ptr × St)) (p : Ptr) (ty : Nat) (s : St) : Res (Ptr × St) :=
  match E.passes[ty]? with
  | none => .ub "index out of bounds"
  | some f => R (f p) s

/-- A call of the core (`copra/ccn/dynamic_core.h:13-26`), with at most `n` calls nested into each other. -/
def call (E : Env) : Nat → Op → St → Res (Ptr × St)
  | 0, _, _ => .diverge
  | n + 1, o, s =>
    let R := runProg (call E n)
    match o with
    | .travDo p => TRAVdo E R p s
    | .travOpt p => TRAVopt E R p s
    | .travChildren p => TRAVchildren E R n p s
    | .travStart p ty => TRAVstart E R p ty s
    | .passStart p ty => PASSstart E R p ty s
    | .push ty => do
      let s ← TRAVpush E R ty s
      .ok (none, s)
    | .pop => do
      let s ← TRAVpop E R s
      .ok (none, s)

/-- `TRAVnop` (`copra/src/dynamic_core.c:73`). -/
def TRAVnop : Addr → Prog := fun a => .ret (some a)

/-- `TRAVchildren` used as a handler (`copra/src/dynamic_core.c:80-85`). -/
def TRAVchildrenH : Addr → Prog := fun a => .call (.travChildren (some a)) .ret

/-- `TRAVerror` (`copra/src/dynamic_core.c:87-92`). -/
def TRAVerror : Addr → Prog := fun _ => .abort "Traversing trough unkown node"

/-- `PASSerror` (`copra/src/dynamic_core.c:99-102`). -/
def PASSerror : Ptr → Prog := fun _ => .abort "PASSerror"

end Verif.Trav
