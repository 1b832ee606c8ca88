import Verif.Model.Schedule
import Verif.Model.VisitGen
import Verif.Spec.AttrTree

/-!
# Model of the generated attribute evaluator as a whole

* The visits of the scheduler (`Verif.Model.Schedule`) become the AST that the back end reads (`Verif.Model.VisitGen`):
  `cocogen/frontend/attribute_scheduler/generate_visits.c:319-442`, `590-690` and
  `cocogen/frontend/attribute_scheduler/fill_visit_stubs.c`.
* `cocogen/dynamic_backend/gen_ag_source.c`: `CCNevaluateAttributes`.
* The last part runs the generated functions on a tree.  It is part of the trusted base: it models C and the access
  functions (`C53`, `C54`), which are not expanded here.  The functions that users write are functions of their arguments: they
  return, and change nothing.

The scheduler has numbers for pointers; the names behind them are in `Names`.  What is printed for a type of an attribute is the
text `ctype`.
-/

namespace Verif.Evaluator
open Verif.Str Verif.Ids Verif.Induce Verif.Schedule
open Verif.EvalGen (ARef)
open Verif.VisitGen (Visit Alt Elem Fn World RVal)
open Verif.Spec.AttrTree (Tree Vertex)

/-- The names of types, children and attributes, whether a child is mandatory, and the types of attributes in C, by address
(`cocogen/main.ccn:679-711`, `761-774`, `846-861`: `INODE_NAME`, `INODESET_NAME`, `CHILD_NAME`, `ATTRIBUTE_NAME`, `CHILD_IS_MANDATORY`,
`ATTRIBUTE_TYPE`). -/
structure Names where
  type : Nat → Id
  child : Nat → Id
  attr : Nat → Id
  mandatory : Nat → Bool
  ctype : Nat → CStr

/-! ### The visits as AST -/

/-- An attribute reference in an equation (`cocogen/main.ccn:878-889`); the type of the node or child was put into it by the check
of equations (`cocogen/frontend/check_product_rules.c:142-153`). -/
def toRef (D : Names) (S : Spec) (n : INode) (r : Ref) : ARef :=
  ⟨r.child.map D.child, D.attr r.attr.addr,
    D.type (match r.child with
      | none => n.addr
      | some c => get_node_type S c),
    D.ctype r.attr.addr, r.attr.syn⟩

/-- A child (`cocogen/main.ccn:761-774`). -/
def toChild (D : Names) (c : Child) : EvalGen.Child := ⟨UInt64.ofNat c.addr, D.child c.addr, D.mandatory c.addr⟩

/-- A node type (`cocogen/main.ccn:679-695`). -/
def toNode (D : Names) (S : Spec) (n : INode) : EvalGen.Node :=
  ⟨D.type n.addr, n.children.map (toChild D), n.eqs.map fun q => ⟨toRef D S n q.rule, q.args.map (toRef D S n)⟩⟩

/-- The reference for an evaluation (`cocogen/frontend/attribute_scheduler/generate_visits.c:409-422`). -/
def evalRef (D : Names) (S : Spec) (n : INode) (x : Place) : ARef :=
  ⟨match decide (x.1 = n.addr) with
    | true => none
    | false => some (D.child x.1),
    D.attr x.2, D.type (get_node_type S x.1), D.ctype x.2, (attrs S).syn x.2⟩

/-- A reference in the list of inputs or outputs (`cocogen/frontend/attribute_scheduler/generate_visits.c:590-632`); the graph nodes
of a visit of a node type are those of the node itself (`C41`). -/
def visitRef (D : Names) (S : Spec) (t a : Nat) : ARef := ⟨none, D.attr a, D.type t, D.ctype a, (attrs S).syn a⟩

/-- `ASTvisit` (`cocogen/frontend/attribute_scheduler/generate_visits.c:664-666`): the index is counted from one. -/
def toVisit (D : Names) (S : Spec) (t i : Nat) (v : Visits.AVisit) : Visit :=
  ⟨D.type t, i + 1, v.inputs.map (visitRef D S t), v.outputs.map (visitRef D S t)⟩

/-- The visit that `fill_visit_stubs` puts into an alternative
(`cocogen/frontend/attribute_scheduler/fill_visit_stubs.c:34-49`); NULL if there is none. -/
def stub (D : Names) (S : Spec) (P : Plan) (t i : Nat) : Option Visit :=
  match P.visits t with
  | none => none
  | some vs => (vs[i]?).map (toVisit D S t i)

/-- The alternatives of a visit of a child (`cocogen/frontend/attribute_scheduler/generate_visits.c:319-360`, `383-396`). -/
def toAlts (D : Names) (S : Spec) (P : Plan) : List (Nat × Option Nat) → Res (List Alt)
  | [] => .ok []
  | (t, none) :: rest => do
    let l ← toAlts D S P rest
    .ok (.dummy (D.type t) :: l)
  | (t, some i) :: rest =>
    match stub D S P t i with
    | none => .ub "VISIT_INODE(NULL)"
    | some v => do
      let l ← toAlts D S P rest
      .ok (.visit v :: l)

/-- The child at an address (`cocogen/frontend/attribute_scheduler/generate_visits.c:388`: a pointer). -/
def childAt (n : INode) (c : Nat) : Res Child :=
  match n.children.find? fun x => x.addr == c with
  | some x => .ok x
  | none => .ub "not a child"

/-- The elements of a sequence (`cocogen/frontend/attribute_scheduler/generate_visits.c:378-442`). -/
def toElems (D : Names) (S : Spec) (P : Plan) (n : INode) : List Act → Res (List Elem)
  | [] => .ok []
  | .eval x :: rest => do
    let l ← toElems D S P n rest
    .ok (.eval (evalRef D S n x) :: l)
  | .visit c _ alts :: rest => do
    let ch ← childAt n c
    let as ← toAlts D S P alts
    let l ← toElems D S P n rest
    .ok (.visit (toChild D ch) as :: l)

/-! ### The generated code -/

/-- `DGVSvisit` for the visits of a node type from index `i` on (`cocogen/dynamic_backend/gen_visit_source.c:117-188`), with the
number of errors. -/
def genVisits (D : Names) (S : Spec) (P : Plan) (n : INode) (i : Nat) : List Visits.AVisit → List (List Act) → Res (Nat × List Fn)
  | v :: vs, seq :: seqs => do
    let es ← toElems D S P n seq
    let (k, f) ← VisitGen.DGVSvisit (toNode D S n) (toVisit D S n.addr i v) es
    let (k', l) ← genVisits D S P n (i + 1) vs seqs
    .ok (k + k', f :: l)
  | _, _ => .ok (0, [])

/-- `DGVSast`: the visits of all node types (`cocogen/dynamic_backend/gen_visit_source.c:83-112`). -/
def genNodes (D : Names) (S : Spec) (P : Plan) : List INode → Res (Nat × List Fn)
  | [] => .ok (0, [])
  | n :: rest => do
    let (k, l) ← genVisits D S P n 0 ((P.visits n.addr).getD []) ((P.seqs n.addr).getD [])
    let (k', l') ← genNodes D S P rest
    .ok (k + k', l ++ l')

/-- A function `CCNevaluateAttributes_%s` (`cocogen/dynamic_backend/gen_ag_source.c:109-118`): its name and the visit functions
it calls with `node`. -/
structure Start where
  name : CStr
  calls : List CStr
  deriving DecidableEq, Repr

/-- `CCNevaluateAttributes_%s` (`cocogen/dynamic_backend/gen_ag_source.c:112`, `121`). -/
def startName (D : Names) (n : INode) : CStr :=
  [67, 67, 78, 101, 118, 97, 108, 117, 97, 116, 101, 65, 116, 116, 114, 105, 98, 117, 116, 101, 115, 95] ++ (D.type n.addr).lwr

/-- The loop over the visits (`cocogen/dynamic_backend/gen_ag_source.c:101-106`). -/
def has_inherited_attributes : List Visits.AVisit → Bool
  | [] => false
  | v :: rest =>
    match v.inputs with
    | [] => has_inherited_attributes rest
    | _ :: _ => true

/-- `DGAGSvisit` (`cocogen/dynamic_backend/gen_ag_source.c:133-144`). -/
def DGAGSvisit (D : Names) (S : Spec) (t : Nat) (i : Nat) : List Visits.AVisit → Res (List CStr)
  | [] => .ok []
  | v :: rest =>
    match v.inputs with
    | _ :: _ => .abort "assert(!VISIT_INPUTS(node))"
    | [] => do
      let l ← DGAGSvisit D S t (i + 1) rest
      .ok (VisitGen.visitName (toVisit D S t i v) :: l)

/-- `DGAGSinode` in the state `create_function` (`cocogen/dynamic_backend/gen_ag_source.c:101-118`, `127`). -/
def createFunctions (D : Names) (S : Spec) (P : Plan) : List INode → Res (List Start)
  | [] => .ok []
  | n :: rest =>
    match (P.visits n.addr).getD [] with
    | [] => createFunctions D S P rest
    | v :: vs =>
      match has_inherited_attributes (v :: vs) with
      | true => createFunctions D S P rest
      | false => do
        let calls ← DGAGSvisit D S n.addr 0 (v :: vs)
        let l ← createFunctions D S P rest
        .ok (⟨startName D n, calls⟩ :: l)

/-- `DGAGSinode` in the state `call_function` (`cocogen/dynamic_backend/gen_ag_source.c:101-108`, `119-127`): the cases of the
switch, with the functions that are called. -/
def callFunctions (D : Names) (P : Plan) : List INode → List (CStr × CStr)
  | [] => []
  | n :: rest =>
    match (P.visits n.addr).getD [] with
    | [] => callFunctions D P rest
    | v :: vs =>
      match has_inherited_attributes (v :: vs) with
      | true => callFunctions D P rest
      | false => (VisitGen.ntText (D.type n.addr), startName D n) :: callFunctions D P rest

/-- What is generated: the visit functions, the functions that start an evaluation, and the cases of `CCNevaluateAttributes`
(`cocogen/dynamic_backend/gen_ag_source.c:59-88`). -/
structure Prog where
  fns : List Fn
  starts : List Start
  cases : List (CStr × CStr)

/-- The back end for the visits (`cocogen/dynamic_backend/gen_visit_source.c:83-112`,
`cocogen/dynamic_backend/gen_ag_source.c:59-88`); the number is that of the reported errors.  The names that are used in error
messages (`nodetypeToName`) are left out. -/
def generate (D : Names) (S : Spec) (P : Plan) : Res (Nat × Prog) := do
  let (k, fns) ← genNodes D S P S.nodes
  let starts ← createFunctions D S P S.nodes
  .ok (k, ⟨fns, starts, callFunctions D P S.nodes⟩)

/-! ### Running it (trusted base) -/

/-- The attributes of the nodes of a tree that have a value (`cocogen/dynamic_backend/gen_node_base_and_union.c:48-68`; of
inherited and synthesized attributes: `ccn_val_set`, `cocogen/dynamic_backend/gen_node_access_funcs.c:141`). -/
abbrev Store (V : Type) := Vertex → Option V

/-- The part of a subtree (`cocogen/dynamic_backend/gen_visit_source.c:459`: a visit function of a child gets a pointer to it). -/
def below {V : Type} (c : Nat) (s : Store V) : Store V := fun v => s (c :: v.1, v.2)

/-- What a visit function of a child has changed (`cocogen/dynamic_backend/gen_visit_source.c:459`). -/
def back {V : Type} (c : Nat) (b s : Store V) : Store V := fun v =>
  match v.1 with
  | [] => s v
  | d :: path =>
    match decide (d = c) with
    | true => b (path, v.2)
    | false => s v

/-- The assignments of `print_set_value` (`cocogen/dynamic_backend/gen_visit_source.c:32-40`). -/
def setAt {V : Type} (s : Store V) (v : Vertex) (x : V) : Store V := fun u =>
  match decide (u = v) with
  | true => some x
  | false => s u

/-- What the evaluator is run with: names, specification, generated code and the functions of the user, by name
(`cocogen/dynamic_backend/gen_user_equations.c:138-200`). -/
structure Runtime (V : Type) where
  D : Names
  S : Spec
  prog : Prog
  user : CStr → List V → V

/-- The macro for a child, `%s_%s(node)` (`cocogen/dynamic_backend/gen_node_macros.c:52`: `C53`). -/
def childMacro (D : Names) (n : INode) (c : Child) : CStr :=
  (D.type n.addr).upr ++ [95] ++ (D.child c.addr).upr ++ [40, 110, 111, 100, 101, 41]

/-- The child an expression stands for: the first with that macro (`cocogen/dynamic_backend/gen_visit_source.c:334-336`, `424`,
`459`). -/
def kidAt (D : Names) (n : INode) (e : CStr) : Option Child := n.children.find? fun c => childMacro D n c == e

/-- The macro for an attribute of the node, `%s_%s(node)` (`cocogen/dynamic_backend/gen_visit_source.c:252-254`, `cocogen/dynamic_backend/gen_node_macros.c:60-72`). -/
def ownMacro (D : Names) (n : INode) (x : Attr) : CStr :=
  (D.type n.addr).upr ++ [95] ++ (D.attr x.addr).upr ++ [40, 110, 111, 100, 101, 41]

/-- The macro for an attribute of the type of a child (`cocogen/dynamic_backend/gen_visit_source.c:246-251`). -/
def kidMacro (D : Names) (n : INode) (c : Child) (x : Attr) : CStr :=
  (D.type c.type).upr ++ [95] ++ (D.attr x.addr).upr ++ [40] ++ childMacro D n c ++ [41]

/-- The attributes of the children, as of their types (`cocogen/dynamic_backend/gen_nodeset_access_funcs.c:53-128`,
`cocogen/dynamic_backend/gen_node_access_funcs.c:95-160`). -/
def kidAttrs (S : Spec) (n : INode) : List (Child × Attr) :=
  n.children.flatMap fun c =>
    match get_node_attributes S c.type with
    | .ok l => l.map fun x => (c, x)
    | _ => []

/-- The value of an attribute.  In a debug build an inherited or synthesized attribute that is not set ends the program; the value
of another one is not defined (`cocogen/dynamic_backend/gen_node_access_funcs.c:140-156`). -/
def load {V : Type} (s : Store V) (path : List Nat) (x : Attr) : Res V :=
  match s (path, x.addr) with
  | some y => .ok y
  | none =>
    match computed x with
    | true => .abort "CCNaccesserror"
    | false => .ub "uninitialized attribute"

/-- The attribute of that name of a node, through the macro of the node type or of a nodeset it is in
(`cocogen/dynamic_backend/gen_nodeset_access_funcs.c:83-123`). -/
def loadKid {V : Type} (s : Store V) (c : Nat) (x : Attr) : Tree → Res V
  | .null => .ub "NODE_TYPE(NULL)"
  | .node m _ =>
    match m.attrs.find? fun y => y.name == x.name with
    | some y => load s [c] y
    | none => .abort "CCNaccesserror"

/-- The value of the expression of an attribute (`cocogen/dynamic_backend/gen_visit_source.c:242-254`). -/
def readExpr {V : Type} (D : Names) (S : Spec) (n : INode) (kids : Nat → Tree) (s : Store V) (e : CStr) : Res V :=
  match n.attrs.find? fun x => ownMacro D n x == e with
  | some x => load s [] x
  | none =>
    match (kidAttrs S n).find? fun p => kidMacro D n p.1 p.2 == e with
    | some p => loadKid s p.1.addr p.2 (kids p.1.addr)
    | none => .abort "undeclared"

/-- `node->data.N_%s->_%s` is set (`cocogen/dynamic_backend/gen_visit_source.c:32-40`); another member of the union than that of
the type of the node is of no use. -/
def storeAttr {V : Type} (D : Names) (n : INode) (node attr : CStr) (x : V) (s : Store V) : Res (Store V) :=
  match (D.type n.addr).lwr == node with
  | false => .ub "wrong member of a union"
  | true =>
    match n.attrs.find? fun y => y.name == attr with
    | some y => .ok (setAt s ([], y.addr) x)
    | none => .abort "no such member"

/-- The macro of a child is NULL (`cocogen/dynamic_backend/gen_visit_source.c:326-337`, `531`). -/
def isNull : Tree → Bool
  | .null => true
  | .node _ _ => false

/-- `NODE_TYPE`, if it is a node (`cocogen/dynamic_backend/gen_node_base_and_union.c:40`). -/
def nodeType (D : Names) : Tree → CStr
  | .null => []
  | .node m _ => VisitGen.ntText (D.type m.addr)

/-- A visit function is called with the root of a tree (`cocogen/dynamic_backend/gen_visit_source.c:117-188`, `459`). -/
def call {V : Type} (R : Runtime V) : Tree → CStr → List V → Store V → Res (RVal V × Store V)
  | .null, _, _, _ => .ub "NULL->data"
  | .node n kids, fn, args, s =>
    match R.prog.fns.find? fun f => f.name == fn with
    | none => .abort "undefined function"
    | some f =>
      VisitGen.runFn (σ := Store V) (V := V)
        { isNull := fun _ e =>
            match kidAt R.D n e with
            | some c => isNull (kids c.addr)
            | none => true
          nodeType := fun _ e =>
            match kidAt R.D n e with
            | some c => nodeType R.D (kids c.addr)
            | none => []
          reading := readExpr R.D R.S n kids
          evalFn := fun fn xs s => .ok (R.user fn xs, s)
          visitFn := fun fn e xs s =>
            match kidAt R.D n e with
            | none => .abort "undeclared"
            | some c => do
              let (r, b) ← call R (kids c.addr) fn xs (below c.addr s)
              .ok (r, back c.addr b s)
          storing := storeAttr R.D n } f args s

/-- The calls of `CCNevaluateAttributes_%s` (`cocogen/dynamic_backend/gen_ag_source.c:133-144`): what is returned is not used. -/
def callAll {V : Type} (R : Runtime V) (T : Tree) : List CStr → Store V → Res (Store V)
  | [], s => .ok s
  | fn :: rest, s => do
    let (_, s) ← call R T fn [] s
    callAll R T rest s

/-- `CCNevaluateAttributes` (`cocogen/dynamic_backend/gen_ag_source.c:75-87`). -/
def CCNevaluateAttributes {V : Type} (R : Runtime V) (T : Tree) (s : Store V) : Res (Store V) :=
  match T with
  | .null => .ub "NODE_TYPE(NULL)"
  | .node n _ =>
    match R.prog.cases.find? fun x => x.1 == VisitGen.ntText (R.D.type n.addr) with
    | none => .abort "CCNevaluateAttributes called with node of invalid node type"
    | some x =>
      match R.prog.starts.find? fun f => f.name == x.2 with
      | none => .abort "undefined function"
      | some f => callAll R T f.calls s

end Verif.Evaluator
