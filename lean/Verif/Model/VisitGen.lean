import Verif.Model.EvalGen
import Verif.Model.Cti

/-!
# Model of the generation of visit functions

`cocogen/dynamic_backend/gen_visit_source.c` (all but the evaluation of an attribute, which is in `Verif.Model.EvalGen`)
and `cocogen/dynamic_backend/gen_visit_header.c`.

As in `Verif.Model.EvalGen`, the generated C text is kept as the tree a C compiler reads from it: names, types and
expressions are the texts that are printed.  White space, comments and `MAYBE_UNUSED` are left out.

The second part of the file says which of these functions a C compiler accepts and what they do when they are called.  It
is part of the trusted base: it models C, not the code in the repository.
-/

namespace Verif.VisitGen
open Verif.Str Verif.Ids Verif.EvalGen

/-! ### The generator -/

/-- A `visit` node as far as callers see it (`cocogen/main.ccn:900-911`): the name of its node type, its index and the
lists of inputs and outputs.  An index is not negative: it is a position in an array
(`cocogen/frontend/attribute_scheduler/generate_visits.c:640-700`). -/
structure Visit where
  inode : Id
  index : Nat
  inputs : List ARef
  outputs : List ARef
  deriving DecidableEq, Repr

/-- A `visit_sequence_visit` or `visit_sequence_dummy` in a chain of alternatives (`cocogen/main.ccn:922-942`), with the
visit that `fill_visit_stubs` put into it (`cocogen/frontend/attribute_scheduler/fill_visit_stubs.c:34-49`). -/
inductive Alt where
  | visit (v : Visit)
  | dummy (inode : Id)
  deriving DecidableEq, Repr

/-- An element of a visit sequence (`cocogen/main.ccn:913-942`): the evaluation of an attribute, or a visit of a child
with its chain of alternatives.  All alternatives are of the same child
(`cocogen/frontend/attribute_scheduler/generate_visits.c:335`). -/
inductive Elem where
  | eval (a : ARef)
  | visit (c : Child) (alts : List Alt)
  deriving DecidableEq, Repr

/-- What happens to the value of a call: nothing, it becomes the value of a variable, which is declared if there is a
type, or it becomes the value of a new variable that is a structure
(`cocogen/dynamic_backend/gen_visit_source.c:427-456`). -/
inductive Bind where
  | none
  | var (type : Option CStr) (v : CStr)
  | struct (tag v : CStr)
  deriving DecidableEq, Repr

/-- Statements without blocks: a declaration; an assertion on the type of a node; a call; taking a member out of a
structure (`cocogen/dynamic_backend/gen_visit_source.c:422-483`, `517-525`). -/
inductive Simple where
  | decl (type v : CStr)
  | assertType (expr tag : CStr)
  | call (bind : Bind) (fn expr : CStr) (args : List CStr)
  | field (type : Option CStr) (v svar fld : CStr)
  deriving DecidableEq, Repr

/-- Statements in a row, or `if (NODE_TYPE(expr) == tag) {…} else if … else { DBUG_ASSERT(false, …); }`
(`cocogen/dynamic_backend/gen_visit_source.c:535-575`). -/
inductive Body where
  | plain (l : List Simple)
  | chain (expr : CStr) (alts : List (CStr × List Simple))
  deriving DecidableEq, Repr

/-- The statements of a visit function: a statement without block, the evaluation of an attribute, statements that are
executed if a child is there, a body, and `node->data.N_%s->_%s = v`, which stands for both assignments of
`print_set_value` (`cocogen/dynamic_backend/gen_visit_source.c:32-40`, `265-388`, `506-585`). -/
inductive Stmt where
  | simple (s : Simple)
  | eval (o : Out)
  | notNull (expr : CStr) (b : Body)
  | body (b : Body)
  | set (node attr v : CStr)
  deriving DecidableEq, Repr

/-- The type a visit function returns (`cocogen/dynamic_backend/gen_visit_source.c:123-132`). -/
inductive RType where
  | void
  | one (type : CStr)
  | struct (tag : CStr)
  deriving DecidableEq, Repr

/-- How a visit function ends (`cocogen/dynamic_backend/gen_visit_source.c:160-180`): nothing is returned, a variable, or
a structure, which is declared here and filled from variables. -/
inductive Ret where
  | void
  | var (v : CStr)
  | struct (tag v : CStr) (fields : List (CStr × CStr))
  deriving DecidableEq, Repr

/-- A visit function; the parameter `node_st *node` is left out (`cocogen/dynamic_backend/gen_visit_source.c:117-188`). -/
structure Fn where
  type : RType
  name : CStr
  params : List (CStr × CStr)
  body : List Stmt
  ret : Ret
  deriving DecidableEq, Repr

/-- The declaration of a visit function, with the members of the structure it returns, if it returns one
(`cocogen/dynamic_backend/gen_visit_header.c:68-105`). -/
structure Decl where
  type : RType
  fields : List (CStr × CStr)
  name : CStr
  params : List (CStr × CStr)
  deriving DecidableEq, Repr

/-- `CCNvisit_%s_%d` (`cocogen/dynamic_backend/gen_visit_source.c:120-122`, `412-414`,
`cocogen/dynamic_backend/gen_visit_header.c:71-73`). -/
def visitName (v : Visit) : CStr :=
  [67, 67, 78, 118, 105, 115, 105, 116, 95] ++ v.inode.lwr ++ [95] ++ Cti.decNat v.index

/-- `%s_out`, the name of a structure (`cocogen/dynamic_backend/gen_visit_source.c:131`, `449`,
`cocogen/dynamic_backend/gen_visit_header.c:81`). -/
def outTag (v : Visit) : CStr := visitName v ++ [95, 111, 117, 116]

/-- `%s_output`, the variable of a call (`cocogen/dynamic_backend/gen_visit_source.c:449`). -/
def outVar (v : Visit) : CStr := visitName v ++ [95, 111, 117, 116, 112, 117, 116]

/-- `NT_%s` (`cocogen/dynamic_backend/gen_visit_source.c:424`, `551`, `558`). -/
def ntText (i : Id) : CStr := [78, 84, 95] ++ i.upr

/-- `%s_%s` of a child and an attribute (`cocogen/dynamic_backend/gen_visit_source.c:440-442`, `463-465`, `476-478`,
`522-523`). -/
def childVar (c : Child) (a : ARef) : CStr := c.name.lwr ++ [95] ++ a.iattr.lwr

/-- `print_argument`: type and name (`cocogen/dynamic_backend/gen_visit_source.c:74-81`,
`cocogen/dynamic_backend/gen_visit_header.c:45-54`). -/
def argument (a : ARef) : CStr × CStr := (a.type, varText a)

/-- The type that is returned (`cocogen/dynamic_backend/gen_visit_source.c:123-132`,
`cocogen/dynamic_backend/gen_visit_header.c:74-89`). -/
def returnType (v : Visit) : RType :=
  match v.outputs with
  | [] => .void
  | [a] => .one a.type
  | _ :: _ :: _ => .struct (outTag v)

/-- `is_desired` (`cocogen/dynamic_backend/gen_visit_source.c:390-404`): without any candidate, `NODE_TYPE` of a null
pointer is taken.  `output` is never a null pointer. -/
def is_desired (output : ARef) (outputs : List ARef) : Res Bool :=
  match outputs with
  | [] => .ub "NODE_TYPE(NULL)"
  | _ :: _ => .ok (outputs.any fun c => STReq (some output.iattr.lwr) (some c.iattr.lwr))

/-- The type in front of a variable, if it is declared (`cocogen/dynamic_backend/gen_visit_source.c:431-434`,
`472-475`). -/
def declType (declare : Bool) (a : ARef) : Option CStr :=
  match declare with
  | true => some a.type
  | false => none

/-- What is printed in front of a call (`cocogen/dynamic_backend/gen_visit_source.c:427-456`). -/
def bindOf (c : Child) (v : Visit) (outputs : List ARef) (declare : Bool) : Res Bind :=
  match v.outputs with
  | [] => .ok .none
  | [a] =>
    match declare with
    | true => .ok (.var (declType declare a) (childVar c a))
    | false => do
      let d ← is_desired a outputs
      match d with
      | true => .ok (.var (declType declare a) (childVar c a))
      | false => .ok .none
  | _ :: _ :: _ => .ok (.struct (outTag v) (outVar v))

/-- The members of a structure that are taken out after a call (`cocogen/dynamic_backend/gen_visit_source.c:468-484`). -/
def fieldsOf (c : Child) (v : Visit) (outputs : List ARef) (declare : Bool) : List ARef → Res (List Simple)
  | [] => .ok []
  | a :: rest => do
    let d ← is_desired a outputs
    let l ← fieldsOf c v outputs declare rest
    match d with
    | true => .ok (.field (declType declare a) (childVar c a) (outVar v) (varText a) :: l)
    | false => .ok l

/-- The members are taken out if there are several outputs (`cocogen/dynamic_backend/gen_visit_source.c:447-448`,
`468`). -/
def manyFields (c : Child) (v : Visit) (outputs : List ARef) (declare : Bool) : Res (List Simple) :=
  match v.outputs with
  | _ :: _ :: _ => fieldsOf c v outputs declare v.outputs
  | _ => .ok []

/-- `print_visit_call` (`cocogen/dynamic_backend/gen_visit_source.c:406-489`). -/
def print_visit_call (n : Node) (c : Child) (v : Visit) (outputs : List ARef) (declare isNodeset : Bool) :
    Res (List Simple) := do
  let b ← bindOf c v outputs declare
  let fs ← manyFields c v outputs declare
  let call := Simple.call b (visitName v) (childText n c) (v.inputs.map (childVar c)) :: fs
  match isNodeset with
  | true => .ok call
  | false => .ok (.assertType (childText n c) (ntText v.inode) :: call)

/-- The loop over the alternatives (`cocogen/dynamic_backend/gen_visit_source.c:546-567`). -/
def altLoop (n : Node) (c : Child) (outputs : List ARef) : List Alt → Res (List (CStr × List Simple))
  | [] => .ok []
  | .visit v :: rest => do
    let b ← print_visit_call n c v outputs false true
    let l ← altLoop n c outputs rest
    .ok ((ntText v.inode, b) :: l)
  | .dummy i :: rest => do
    let l ← altLoop n c outputs rest
    .ok ((ntText i, []) :: l)

/-- The middle of `DGVSvisit_sequence_visit` (`cocogen/dynamic_backend/gen_visit_source.c:535-575`). -/
def visitBody (n : Node) (c : Child) (v : Visit) (alts : List Alt) : Res Body :=
  match alts with
  | [] => do
    let l ← print_visit_call n c v v.outputs c.mandatory false
    .ok (.plain l)
  | _ :: _ => do
    let l ← altLoop n c v.outputs (.visit v :: alts)
    .ok (.chain (childText n c) l)

/-- The declarations in front (`cocogen/dynamic_backend/gen_visit_source.c:515-530`). -/
def visitDecls (c : Child) (v : Visit) (alts : List Alt) : List Stmt :=
  match (decide (alts ≠ []) || !c.mandatory) with
  | true => v.outputs.map fun a => .simple (.decl a.type (childVar c a))
  | false => []

/-- `DGVSvisit_sequence_visit` for one element (`cocogen/dynamic_backend/gen_visit_source.c:506-585`); `alts` are the
alternatives behind `v`. -/
def DGVSvisit_sequence_visit (n : Node) (c : Child) (v : Visit) (alts : List Alt) : Res (List Stmt) := do
  let b ← visitBody n c v alts
  match c.mandatory with
  | true => .ok (visitDecls c v alts ++ [.body b])
  | false => .ok (visitDecls c v alts ++ [.notNull (childText n c) b])

/-- What the traversal does at a chain of alternatives in a sequence.  The traversal has no function for
`visit_sequence_dummy`; its table has `TRAVchildren` there, which goes on to the next alternative (`cocogen/main.ccn:448-451`,
`935-942`; `C28`). -/
def seqVisit (n : Node) (c : Child) : List Alt → Res (List Stmt)
  | [] => .ok []
  | .dummy _ :: rest => seqVisit n c rest
  | .visit v :: rest => DGVSvisit_sequence_visit n c v rest

/-- `DGVSvisit_sequence_eval` (`cocogen/dynamic_backend/gen_visit_source.c:265-388`) with the call of `print_set_value`
(`32-40`).  The name of the attribute is that of the reference (`cocogen/frontend/attribute_scheduler/generate_visits.c:415-417`).
The number is the number of reported errors. -/
def seqEval (n : Node) (a : ARef) : Res (Nat × List Stmt) := do
  let o ← DGVSvisit_sequence_eval n a
  match o with
  | none => .ok (1, [])
  | some o =>
    match o.store with
    | none => .ok (0, [.eval o])
    | some v => .ok (0, [.eval o, .set n.name.lwr a.iattr.lwr v])

/-- `TRAVsequence` (`cocogen/dynamic_backend/gen_visit_source.c:158`, `386`, `583`). -/
def sequence (n : Node) : List Elem → Res (Nat × List Stmt)
  | [] => .ok (0, [])
  | .eval a :: rest => do
    let (e, l) ← seqEval n a
    let (e', l') ← sequence n rest
    .ok (e + e', l ++ l')
  | .visit c alts :: rest => do
    let l ← seqVisit n c alts
    let (e', l') ← sequence n rest
    .ok (e', l ++ l')

/-- `visit_output` (`cocogen/dynamic_backend/gen_visit_source.c:169`). -/
def visit_output : CStr := [118, 105, 115, 105, 116, 95, 111, 117, 116, 112, 117, 116]

/-- The end of a visit function (`cocogen/dynamic_backend/gen_visit_source.c:160-180`). -/
def returnOf (v : Visit) : Ret :=
  match v.outputs with
  | [] => .void
  | [a] => .var (varText a)
  | _ :: _ :: _ => .struct (outTag v) visit_output (v.outputs.map fun a => (varText a, varText a))

/-- `DGVSvisit` (`cocogen/dynamic_backend/gen_visit_source.c:117-188`) for a visit of the node `n`; the number is the
number of reported errors. -/
def DGVSvisit (n : Node) (v : Visit) (seq : List Elem) : Res (Nat × Fn) := do
  let (e, l) ← sequence n seq
  .ok (e, ⟨returnType v, visitName v, v.inputs.map argument,
    v.inputs.map (fun a => Stmt.set n.name.lwr a.iattr.lwr (varText a)) ++ l, returnOf v⟩)

/-- The members of the structure in the header (`cocogen/dynamic_backend/gen_visit_header.c:80-87`). -/
def declFields (v : Visit) : List (CStr × CStr) :=
  match v.outputs with
  | _ :: _ :: _ => v.outputs.map argument
  | _ => []

/-- `DGVFvisit` (`cocogen/dynamic_backend/gen_visit_header.c:68-105`). -/
def DGVFvisit (v : Visit) : Decl := ⟨returnType v, declFields v, visitName v, v.inputs.map argument⟩

/-! ### What a C compiler says (trusted base)

Types of variables and expressions are not compared, and the expressions that reach children and attributes of the node
are not looked at (`C53`, `C54`). -/

/-- The variables of a block, the latest first, with the name of the structure if it is one; models C scopes, used for
`cocogen/dynamic_backend/gen_visit_source.c:117-188`. -/
abbrev Scope := List (CStr × Option CStr)

/-- A variable is declared in a block (C11 6.7 paragraph 3; `cocogen/dynamic_backend/gen_visit_source.c:431-452`). -/
def declare (here : Scope) (v : CStr) (tag : Option CStr) : Res Scope :=
  match here.any fun x => x.1 == v with
  | true => .abort "redefinition"
  | false => .ok ((v, tag) :: here)

/-- A variable is used (C11 6.5.1 paragraph 2; `cocogen/dynamic_backend/gen_visit_source.c:460-466`). -/
def usable (s : Scope) (v : CStr) : Res (Option CStr) :=
  match s.find? fun x => x.1 == v with
  | some x => .ok x.2
  | none => .abort "undeclared"

/-- All variables are declared (C11 6.5.1 paragraph 2; `cocogen/dynamic_backend/gen_visit_source.c:460-466`). -/
def usableAll (s : Scope) : List CStr → Res Unit
  | [] => .ok ()
  | v :: rest => do
    let _ ← usable s v
    usableAll s rest

/-- The declaration of a function (C11 6.5.2.2; `cocogen/dynamic_backend/gen_visit_header.c:68-105`). -/
def lookupDecl (h : List Decl) (fn : CStr) : Res Decl :=
  match h.find? fun d => d.name == fn with
  | some d => .ok d
  | none => .abort "undeclared function"

/-- The members of a structure: they come with the function that returns it
(C11 6.7.2.1; `cocogen/dynamic_backend/gen_visit_header.c:80-87`). -/
def lookupStruct (h : List Decl) (tag : CStr) : Res Decl :=
  match h.find? fun d => d.type == .struct tag with
  | some d => .ok d
  | none => .abort "unknown structure"

/-- The value of a call fits what is done with it (C11 6.5.16.1; `cocogen/dynamic_backend/gen_visit_source.c:427-456`); a
variable of a structure type cannot hold a single value. -/
def bindFits (s : Scope) (t : RType) : Bind → Res Unit
  | .none => .ok ()
  | .var _ v => do
    let tag ← usable s v
    match t, tag with
    | .one _, none => .ok ()
    | _, _ => .abort "incompatible types"
  | .struct tag _ =>
    match t == .struct tag with
    | true => .ok ()
    | false => .abort "incompatible types"

/-- The variable of a call is declared (`cocogen/dynamic_backend/gen_visit_source.c:427-456`). -/
def bindDeclare (here : Scope) : Bind → Res Scope
  | .none => .ok here
  | .var none _ => .ok here
  | .var (some _) v => declare here v none
  | .struct tag v => declare here v (some tag)

/-- The variable of a member that is taken out is declared (`cocogen/dynamic_backend/gen_visit_source.c:472-482`). -/
def fieldDeclare (here : Scope) (type : Option CStr) (v : CStr) : Res Scope :=
  match type with
  | none => .ok here
  | some _ => declare here v none

/-- A statement without block, in a block with variables `here` inside blocks with variables `outer`
(`cocogen/dynamic_backend/gen_visit_source.c:422-483`). -/
def checkSimple (h : List Decl) (outer here : Scope) : Simple → Res Scope
  | .decl _ v => declare here v none
  | .assertType _ _ => .ok here
  | .call b fn _ args => do
    let d ← lookupDecl h fn
    let here ← bindDeclare here b
    bindFits (here ++ outer) d.type b
    usableAll (here ++ outer) args
    match args.length == d.params.length with
    | true => .ok here
    | false => .abort "wrong number of arguments"
  | .field type v svar fld => do
    let here ← fieldDeclare here type v
    let _ ← usable (here ++ outer) v
    let tag ← usable (here ++ outer) svar
    match tag with
    | none => .abort "not a structure"
    | some tag => do
      let d ← lookupStruct h tag
      match d.fields.any fun f => f.2 == fld with
      | true => .ok here
      | false => .abort "no such member"

/-- Statements in a row (`cocogen/dynamic_backend/gen_visit_source.c:406-489`). -/
def checkSimples (h : List Decl) (outer : Scope) : Scope → List Simple → Res Scope
  | here, [] => .ok here
  | here, s :: rest => do
    let here ← checkSimple h outer here s
    checkSimples h outer here rest

/-- The blocks of a chain (`cocogen/dynamic_backend/gen_visit_source.c:546-573`). -/
def checkAlts (h : List Decl) (outer : Scope) : List (CStr × List Simple) → Res Unit
  | [] => .ok ()
  | (_, l) :: rest => do
    let _ ← checkSimples h outer [] l
    checkAlts h outer rest

/-- A body in the block with variables `here` (`cocogen/dynamic_backend/gen_visit_source.c:535-575`). -/
def checkBody (h : List Decl) (outer here : Scope) : Body → Res Scope
  | .plain l => checkSimples h outer here l
  | .chain _ alts => do
    checkAlts h (here ++ outer) alts
    .ok here

/-- A statement of a visit function (`cocogen/dynamic_backend/gen_visit_source.c:117-188`). -/
def checkStmt (h : List Decl) (here : Scope) : Stmt → Res Scope
  | .simple s => checkSimple h [] here s
  | .eval o => declare here o.var none
  | .notNull _ b => do
    let _ ← checkBody h here [] b
    .ok here
  | .body b => checkBody h [] here b
  | .set _ _ v => do
    let _ ← usable here v
    .ok here

/-- The statements of a visit function (`cocogen/dynamic_backend/gen_visit_source.c:117-188`). -/
def checkStmts (h : List Decl) : Scope → List Stmt → Res Scope
  | here, [] => .ok here
  | here, s :: rest => do
    let here ← checkStmt h here s
    checkStmts h here rest

/-- The parameters are variables of the outermost block (C11 6.2.1 paragraph 4 and 6.9.1;
`cocogen/dynamic_backend/gen_visit_source.c:134-140`). -/
def checkParams : Scope → List (CStr × CStr) → Res Scope
  | here, [] => .ok here
  | here, (_, v) :: rest => do
    let here ← declare here v none
    checkParams here rest

/-- The members are there and the variables are declared (`cocogen/dynamic_backend/gen_visit_source.c:170-178`). -/
def checkFields (d : Decl) (here : Scope) : List (CStr × CStr) → Res Unit
  | [] => .ok ()
  | (f, v) :: rest => do
    let _ ← usable here v
    match d.fields.any fun x => x.2 == f with
    | true => checkFields d here rest
    | false => .abort "no such member"

/-- The end of a visit function (`cocogen/dynamic_backend/gen_visit_source.c:160-180`). -/
def checkRet (h : List Decl) (here : Scope) : Ret → Res Unit
  | .void => .ok ()
  | .var v => do
    let _ ← usable here v
    .ok ()
  | .struct tag v fs => do
    let here ← declare here v (some tag)
    let d ← lookupStruct h tag
    checkFields d here fs

/-- The declaration and the definition agree (C11 6.7 paragraph 4; `cocogen/dynamic_backend/gen_visit_header.c:68-105`,
`cocogen/dynamic_backend/gen_visit_source.c:117-140`). -/
def checkHead (d : Decl) (f : Fn) : Res Unit :=
  match (d.type == f.type && (d.params.map (·.1) == f.params.map (·.1))) with
  | true => .ok ()
  | false => .abort "conflicting types"

/-- The C compiler accepts a visit function (`cocogen/dynamic_backend/gen_visit_source.c:117-188`). -/
def compile (h : List Decl) (f : Fn) : Res Unit := do
  let d ← lookupDecl h f.name
  checkHead d f
  let here ← checkParams [([110, 111, 100, 101], none)] f.params
  let here ← checkStmts h here f.body
  checkRet h here f.ret

/-! ### What a visit function does (trusted base) -/

/-- What a visit function returns: nothing, a value, or the members of a structure with their values
(`cocogen/dynamic_backend/gen_visit_source.c:123-132`). -/
inductive RVal (V : Type) where
  | void
  | one (v : V)
  | struct (fs : List (CStr × V))
  deriving DecidableEq, Repr

/-- The world a visit function runs in: states `σ`, values `V`; whether the expression of a child is NULL, the type of the
node it gives, the value of the expression of an attribute, the evaluation functions (`C36`), the visit functions, and
the storing of an attribute of the node (`cocogen/dynamic_backend/gen_visit_source.c:32-40`, `242-254`, `326-361`,
`458-466`).  `reading` may fail: attributes that are not set cannot be read (`C54`). -/
structure World (σ V : Type) where
  isNull : σ → CStr → Bool
  nodeType : σ → CStr → CStr
  reading : σ → CStr → Res V
  evalFn : CStr → List V → σ → Res (V × σ)
  visitFn : CStr → CStr → List V → σ → Res (RVal V × σ)
  storing : CStr → CStr → V → σ → Res σ

/-- What a variable holds: nothing yet, a value or a structure (`cocogen/dynamic_backend/gen_visit_source.c:431-452`). -/
inductive Slot (V : Type) where
  | unset
  | val (v : V)
  | struct (fs : List (CStr × V))
  deriving DecidableEq, Repr

/-- The variables, the latest first (`cocogen/dynamic_backend/gen_visit_source.c:117-188`). -/
abbrev Env (V : Type) := List (CStr × Slot V)

/-- An assignment changes the innermost variable of that name (`cocogen/dynamic_backend/gen_visit_source.c:437-446`). -/
def assign {V : Type} (v : CStr) (x : Slot V) : Env V → Res (Env V)
  | [] => .abort "undeclared"
  | (w, y) :: rest =>
    match w == v with
    | true => .ok ((w, x) :: rest)
    | false => do
      let r ← assign v x rest
      .ok ((w, y) :: r)

/-- The value of a variable; using one that is not set is undefined (C11 6.3.2.1;
`cocogen/dynamic_backend/gen_visit_source.c:460-466`). -/
def value {V : Type} (env : Env V) (v : CStr) : Res V :=
  match env.find? fun x => x.1 == v with
  | none => .abort "undeclared"
  | some (_, .unset) => .ub "uninitialized variable"
  | some (_, .val x) => .ok x
  | some (_, .struct _) => .abort "incompatible types"

/-- The values of variables (`cocogen/dynamic_backend/gen_visit_source.c:460-466`). -/
def values {V : Type} (env : Env V) : List CStr → Res (List V)
  | [] => .ok []
  | v :: rest => do
    let x ← value env v
    let l ← values env rest
    .ok (x :: l)

/-- The values of the arguments of an evaluation function (`cocogen/dynamic_backend/gen_visit_source.c:217-260`). -/
def readings {σ V : Type} (W : World σ V) (s : σ) : List CStr → Res (List V)
  | [] => .ok []
  | e :: rest => do
    let x ← W.reading s e
    let l ← readings W s rest
    .ok (x :: l)

/-- Variables that are declared by a call exist before it (C11 6.2.1 paragraph 7;
`cocogen/dynamic_backend/gen_visit_source.c:427-456`). -/
def bindEnv {V : Type} (env : Env V) : Bind → Env V
  | .none => env
  | .var none _ => env
  | .var (some _) v => (v, .unset) :: env
  | .struct _ v => (v, .unset) :: env

/-- The value of a call is kept (`cocogen/dynamic_backend/gen_visit_source.c:427-456`). -/
def bindValue {V : Type} (env : Env V) (r : RVal V) : Bind → Res (Env V)
  | .none => .ok env
  | .var _ v =>
    match r with
    | .one x => assign v (.val x) env
    | _ => .abort "incompatible types"
  | .struct _ v =>
    match r with
    | .struct fs => assign v (.struct fs) env
    | _ => .abort "incompatible types"

/-- A member of a structure (`cocogen/dynamic_backend/gen_visit_source.c:476-481`). -/
def member {V : Type} (env : Env V) (svar fld : CStr) : Res V :=
  match env.find? fun x => x.1 == svar with
  | some (_, .struct fs) =>
    match fs.find? fun f => f.1 == fld with
    | some f => .ok f.2
    | none => .abort "no such member"
  | some (_, .unset) => .ub "uninitialized variable"
  | some (_, .val _) => .abort "not a structure"
  | none => .abort "undeclared"

/-- The type of a node; `NODE_TYPE` dereferences its argument (`cocogen/dynamic_backend/gen_visit_source.c:424`,
`550`). -/
def typeAt {σ V : Type} (W : World σ V) (s : σ) (expr : CStr) : Res CStr :=
  match W.isNull s expr with
  | true => .ub "NODE_TYPE(NULL)"
  | false => .ok (W.nodeType s expr)

/-- A variable is declared with the member that is taken out (`cocogen/dynamic_backend/gen_visit_source.c:472-482`). -/
def fieldEnv {V : Type} (env : Env V) (type : Option CStr) (v : CStr) : Env V :=
  match type with
  | none => env
  | some _ => (v, .unset) :: env

/-- A statement without block (`cocogen/dynamic_backend/gen_visit_source.c:422-483`).  `DBUG_ASSERT` is that of a debug
build. -/
def runSimple {σ V : Type} (W : World σ V) (env : Env V) (s : σ) : Simple → Res (Env V × σ)
  | .decl _ v => .ok ((v, .unset) :: env, s)
  | .assertType expr tag => do
    let t ← typeAt W s expr
    match t == tag with
    | true => .ok (env, s)
    | false => .abort "Problem in visit"
  | .call b fn expr args => do
    let env := bindEnv env b
    let xs ← values env args
    let (r, s) ← W.visitFn fn expr xs s
    let env ← bindValue env r b
    .ok (env, s)
  | .field type v svar fld => do
    let env := fieldEnv env type v
    let x ← member env svar fld
    let env ← assign v (.val x) env
    .ok (env, s)

/-- Statements in a row (`cocogen/dynamic_backend/gen_visit_source.c:406-489`). -/
def runSimples {σ V : Type} (W : World σ V) : Env V → σ → List Simple → Res (Env V × σ)
  | env, s, [] => .ok (env, s)
  | env, s, x :: rest => do
    let (env, s) ← runSimple W env s x
    runSimples W env s rest

/-- At the end of a block its variables are gone (C11 6.2.4; `cocogen/dynamic_backend/gen_visit_source.c:565`, `580`). -/
def leave {V : Type} (before after : Env V) : Env V := after.drop (after.length - before.length)

/-- A chain (`cocogen/dynamic_backend/gen_visit_source.c:546-573`). -/
def runAlts {σ V : Type} (W : World σ V) (env : Env V) (s : σ) (expr : CStr) :
    List (CStr × List Simple) → Res (Env V × σ)
  | [] => .abort "Problem in visit"
  | (tag, l) :: rest => do
    let t ← typeAt W s expr
    match t == tag with
    | true => do
      let (env', s) ← runSimples W env s l
      .ok (leave env env', s)
    | false => runAlts W env s expr rest

/-- A body (`cocogen/dynamic_backend/gen_visit_source.c:535-575`). -/
def runBody {σ V : Type} (W : World σ V) (env : Env V) (s : σ) : Body → Res (Env V × σ)
  | .plain l => runSimples W env s l
  | .chain expr alts => runAlts W env s expr alts

/-- The call in a chain of evaluation functions: the first part whose comparisons with NULL all hold
(`cocogen/dynamic_backend/gen_visit_source.c:309-368`). -/
def pick (isNull : CStr → Bool) : List Branch → Res Call
  | [] => .ub "uninitialized variable"
  | b :: rest =>
    match b.guard with
    | none => .ok b.call
    | some [] => .abort "syntax error"
    | some (g :: gs) =>
      match (g :: gs).all isNull with
      | true => .ok b.call
      | false => pick isNull rest

/-- A statement of a visit function (`cocogen/dynamic_backend/gen_visit_source.c:117-188`). -/
def runStmt {σ V : Type} (W : World σ V) (env : Env V) (s : σ) : Stmt → Res (Env V × σ)
  | .simple x => runSimple W env s x
  | .eval o => do
    let c ← pick (W.isNull s) o.chain
    let xs ← readings W s c.args
    let (x, s) ← W.evalFn c.fn xs s
    .ok ((o.var, .val x) :: env, s)
  | .notNull expr b =>
    match W.isNull s expr with
    | true => .ok (env, s)
    | false => do
      let (env', s) ← runBody W env s b
      .ok (leave env env', s)
  | .body b => runBody W env s b
  | .set node attr v => do
    let x ← value env v
    let s ← W.storing node attr x s
    .ok (env, s)

/-- The statements of a visit function (`cocogen/dynamic_backend/gen_visit_source.c:117-188`). -/
def runStmts {σ V : Type} (W : World σ V) : Env V → σ → List Stmt → Res (Env V × σ)
  | env, s, [] => .ok (env, s)
  | env, s, x :: rest => do
    let (env, s) ← runStmt W env s x
    runStmts W env s rest

/-- The values of the members (`cocogen/dynamic_backend/gen_visit_source.c:170-178`). -/
def retFields {V : Type} (env : Env V) : List (CStr × CStr) → Res (List (CStr × V))
  | [] => .ok []
  | (f, v) :: rest => do
    let x ← value env v
    let l ← retFields env rest
    .ok ((f, x) :: l)

/-- The end of a visit function (`cocogen/dynamic_backend/gen_visit_source.c:160-180`). -/
def runRet {V : Type} (env : Env V) : Ret → Res (RVal V)
  | .void => .ok .void
  | .var v => do
    let x ← value env v
    .ok (.one x)
  | .struct _ _ fs => do
    let l ← retFields env fs
    .ok (.struct l)

/-- The parameters hold the arguments (`cocogen/dynamic_backend/gen_visit_source.c:134-140`). -/
def runParams {V : Type} : Env V → List (CStr × CStr) → List V → Res (Env V)
  | env, [], [] => .ok env
  | env, (_, v) :: ps, x :: xs => runParams ((v, .val x) :: env) ps xs
  | _, _, _ => .abort "wrong number of arguments"

/-- A call of a visit function (`cocogen/dynamic_backend/gen_visit_source.c:117-188`). -/
def runFn {σ V : Type} (W : World σ V) (f : Fn) (args : List V) (s : σ) : Res (RVal V × σ) := do
  let env ← runParams [] f.params args
  let (env, s) ← runStmts W env s f.body
  let r ← runRet env f.ret
  .ok (r, s)

end Verif.VisitGen
