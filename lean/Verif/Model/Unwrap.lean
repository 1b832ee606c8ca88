import Verif.Model.Sets
import Verif.Model.SetGrammar

/-!
# Model of set-expression resolution (`cocogen/frontend/unwrap_setexpr.c`)

Expression nodes live in a heap, because the code frees nodes that other activations still point to.  A whole literal
(a search tree of `setliteral` nodes, see `Verif.Model.Sets`) is one cell: `C22_*` show that literals do not share
blocks.  A freed or never allocated address has no cell, and using it is undefined behaviour.
-/

namespace Verif.Unwrap
open Verif.Ids Verif.Sets Verif.Grammar

/-- An expression node (`cocogen/main.ccn:800-831`): `setoperation`, `setreference`, or a `setliteral` tree. -/
inductive Cell where
  | op (o : Op) (l r : Option Nat)
  | ref (i : Id)
  | lit (t : Tree)

/-- The memory: expression nodes, the next unused address for them, the heap of set nodes, and `INODESET_EXPR` of each
nodeset in the order of the `next` links (`cocogen/main.ccn:697-711`). -/
structure St where
  cells : Nat → Option Cell := fun _ => none
  next : Nat := 0
  sets : Nat := 0
  nodesets : List (Option Nat) := []

/-- Put a node in a fresh block (`cocogen/ccngen/ast.c:176-215`). -/
def alloc (c : Cell) (st : St) : Nat × St :=
  (st.next, { st with cells := fun x => if x = st.next then some c else st.cells x, next := st.next + 1 })

/-- Write to a node. -/
def put (a : Nat) (c : Cell) (st : St) : St := { st with cells := fun x => if x = a then some c else st.cells x }

/-- The semantic actions of the rules `setexpr`, `setoperation` and `setliterals`
(`cocogen/frontend/scanAndParse/dsl-parser.y:551-595`): build the nodes of an expression. -/
def load : Expr → St → Res (Nat × St)
  | .lit names, st => do
    let (t, h) ← insertAll st.sets .null names
    .ok (alloc (.lit t) { st with sets := h })
  | .ref i, st => .ok (alloc (.ref i) st)
  | .op o l r, st => do
    let (l, st) ← load l st
    let (r, st) ← load r st
    .ok (alloc (.op o (some l) (some r)) st)

/-- Build a list of expressions. -/
def loadAll : List Expr → St → Res (List (Option Nat) × St)
  | [], st => .ok ([], st)
  | e :: es, st => do
    let (a, st) ← load e st
    let (l, st) ← loadAll es st
    .ok (some a :: l, st)

/-- The memory after parsing: the nodesets with these expressions, and the pointers to the expressions of the
traversals (`cocogen/frontend/scanAndParse/dsl-parser.y:545-549,1105-1139`). -/
def parsed (sets travs : List Expr) : Res (List (Option Nat) × St) := do
  let (ns, st) ← loadAll sets {}
  let (ts, st) ← loadAll travs st
  .ok (ts, { st with nodesets := ns })

/-- Free one block (`cocogen/ccngen/ccn_free.c:105-127`). -/
def freeCell (a : Nat) (st : St) : Res St :=
  match st.cells a with
  | none => .ub "free of a freed node"
  | some _ => .ok { st with cells := fun x => if x = a then none else st.cells x }

/-- Free a child (`TRAVopt` with `TRAV_free`, `copra/src/dynamic_core.c:65-70`). -/
def freeOpt (p : Option Nat) (st : St) : Res St :=
  match p with
  | none => .ok st
  | some a => freeCell a st

/-- The literal a pointer points to, with the assertions on the node type
(`cocogen/frontend/unwrap_setexpr.c:28-33,66-70`). -/
def litAt (st : St) (p : Option Nat) : Res Tree :=
  match p with
  | none => .ok .null
  | some a =>
    match st.cells a with
    | none => .ub "use of a freed node"
    | some (.lit t) => .ok t
    | some _ => .abort "assert NT_SETLITERAL"

/-- The switch of `USEsetoperation` (`cocogen/frontend/unwrap_setexpr.c:34-47`).  The operands are freed afterwards, so
their state is dropped. -/
def setOp (o : Op) (h : Nat) (l r : Tree) : Res (Tree × Nat) := do
  let r ← match o with
    | .union => SETIDunion h l r
    | .inter => SETIDintersect h l r
    | .diff => SETIDdifference h l r
  .ok (r.new, r.heap)

/-- A pointer to a new literal; NULL for the empty set. -/
def newLit (t : Tree) (st : St) : Option Nat × St :=
  match t.isNull with
  | true => (none, st)
  | false => let (a, st) := alloc (.lit t) st; (some a, st)

/-- `USEsetoperation` after its `TRAVchildren` (`cocogen/frontend/unwrap_setexpr.c:28-49`): the operands are literals
or NULL, so freeing the operation frees these and the node itself. -/
def combine (a : Nat) (st : St) : Res (Option Nat × St) :=
  match st.cells a with
  | some (.op o l r) => do
    let tl ← litAt st l
    let tr ← litAt st r
    let (t, h) ← setOp o st.sets tl tr
    let (p, st) := newLit t { st with sets := h }
    let st ← freeOpt l st
    let st ← freeOpt r st
    let st ← freeCell a st
    .ok (p, st)
  | _ => .ub "use of a freed node"

/-- Store the first child of an operation (`copra/src/dynamic_core.c:80-85`). -/
def setLeft (a : Nat) (p : Option Nat) (st : St) : Res St :=
  match st.cells a with
  | some (.op o _ r) => .ok (put a (.op o p r) st)
  | _ => .ub "use of a freed node"

/-- Read the second child of an operation. -/
def rightOf (a : Nat) (st : St) : Res (Option Nat) :=
  match st.cells a with
  | some (.op _ _ r) => .ok r
  | _ => .ub "use of a freed node"

/-- Store the second child of an operation. -/
def setRight (a : Nat) (p : Option Nat) (st : St) : Res St :=
  match st.cells a with
  | some (.op o l _) => .ok (put a (.op o l p) st)
  | _ => .ub "use of a freed node"

/-- The test in `USEsetreference` (`cocogen/frontend/unwrap_setexpr.c:63`): the nodeset has an expression that is not a
literal. -/
def unresolved (p : Option Nat) (st : St) : Res Bool :=
  match p with
  | none => .ok false
  | some a =>
    match st.cells a with
    | none => .ub "use of a freed node"
    | some (.lit _) => .ok false
    | some _ => .ok true

/-- The end of `USEsetreference` (`cocogen/frontend/unwrap_setexpr.c:66-79`) for the nodeset at position `k`. -/
def copyRef (a k : Nat) (st : St) : Res (Option Nat × St) :=
  match st.nodesets[k]? with
  | none => .ub "no such nodeset"
  | some none => do
    let st ← freeCell a st
    .ok (none, st)
  | some (some b) => do
    let t ← litAt st (some b)
    let (t, h) := copySet st.sets t
    let (p, st) := newLit t { st with sets := h }
    let st ← freeCell a st
    .ok (p, st)

/-- The nodeset that the reference stands for (`cocogen/frontend/unwrap_setexpr.c:61-62`). -/
def target (tab : List (Ste Decl)) (i : Id) : Res Nat := do
  let d ← STlookup tab (some i)
  match d with
  | some ⟨.nodeset, k⟩ => .ok k
  | _ => .abort "assert NT_INODESET"

/-- `TRAVopt` (`copra/src/dynamic_core.c:65-70`). -/
def opt (f : Nat → St → Res (Option Nat × St)) (p : Option Nat) (st : St) : Res (Option Nat × St) :=
  match p with
  | none => .ok (none, st)
  | some a => f a st

mutual
/-- One expression node: `USEsetoperation`, `USEsetreference` or `USEsetliteral`
(`cocogen/frontend/unwrap_setexpr.c:25-84`), with fuel for the recursion. -/
def visit (tab : List (Ste Decl)) : Nat → Nat → St → Res (Option Nat × St)
  | 0, _, _ => .diverge
  | fuel + 1, a, st =>
    match st.cells a with
    | none => .ub "use of a freed node"
    | some (.lit _) => .ok (some a, st)
    | some (.op _ l _) => do
      let (p, st) ← opt (visit tab fuel) l st
      let st ← setLeft a p st
      let r ← rightOf a st
      let (p, st) ← opt (visit tab fuel) r st
      let st ← setRight a p st
      combine a st
    | some (.ref i) => do
      let k ← target tab i
      match st.nodesets[k]? with
      | none => .ub "no such nodeset"
      | some p => do
        let u ← unresolved p st
        let st ← match u with
          | true => visitSet tab fuel k st
          | false => .ok st
        copyRef a k st
/-- `TRAVchildren` on the nodeset at position `k` (`copra/src/dynamic_core.c:80-85`,
`cocogen/ccngen/vtables.c:15`): the expression, and then the next nodeset (attributes and names are not traversed). -/
def visitSet (tab : List (Ste Decl)) : Nat → Nat → St → Res St
  | 0, _, _ => .diverge
  | fuel + 1, k, st =>
    match st.nodesets[k]? with
    | none => .ok st
    | some p => do
      let (p, st) ← opt (visit tab fuel) p st
      visitSet tab fuel (k + 1) { st with nodesets := st.nodesets.set k p }
end

/-- The expressions of the traversals (`cocogen/main.ccn:659-670`) are traversed first. -/
def visitTravs (tab : List (Ste Decl)) (fuel : Nat) : List (Option Nat) → St → Res (List (Option Nat) × St)
  | [], st => .ok ([], st)
  | p :: rest, st => do
    let (p, st) ← opt (visit tab fuel) p st
    let (rest, st) ← visitTravs tab fuel rest st
    .ok (p :: rest, st)

/-- `USEast` (`cocogen/frontend/unwrap_setexpr.c:18-23`) on the memory after parsing. -/
def USEast (tab : List (Ste Decl)) (fuel : Nat) (sets travs : List Expr) : Res (List (Option Nat) × St) := do
  let (ts, st) ← parsed sets travs
  let (ts, st) ← visitTravs tab fuel ts st
  let st ← visitSet tab fuel 0 st
  .ok (ts, st)

end Verif.Unwrap
