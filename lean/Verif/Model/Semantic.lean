import Verif.Model.CheckExist
import Verif.Model.ChildTable
import Verif.Model.Unwrap
import Verif.Model.CheckAttrs
import Verif.Model.ProductRules
import Verif.Model.Schedule
import Verif.Model.Parse
import Verif.Spec.Str

/-!
# Model of the phase `semantic` as a whole (`cocogen/main.ccn:29-44`)

The models of the actions are put together: each reads the tree as the ones before have left it.

* `buildSymbolTable` and `checkExistance` end the program if they have reported errors (`CTIabortOnError`); after
  `nodesetChildTable`, `propagateAttributes`, `checkProductRules` and `scheduleAttributeVisits` the phase driver ends it if they have
  called `CCNerrorAction`; what calls `CCNerrorPhase` ends it after the last action
  (`copra/src/phase_driver.c:61-125`, `200-255`).
* The action `reachability` changes nothing that later actions of the phase read, and is left out (see `Verif.Model.Reach`).
* The models of the actions have numbers for names, nodes and nodesets; nodes and nodesets are numbered in the order of their lists.
-/

namespace Verif.Semantic
open Verif.Str Verif.Ids Verif.Grammar
open Verif.Spec.Str (lowerB upperB)
open Verif.Propagate (Target Entry PState)

/-! ### Names and addresses -/

/-- The number for a text: the models `Verif.Model.Propagate` and `Verif.Model.ProductRules` compare numbers where the program compares
texts (`palm/src/str.c:196-210`). -/
def code : CStr → Nat
  | [] => 0
  | c :: s => c.toNat + 1 + 257 * code s

/-- The text of a number, with a bound for its length. -/
def decodeAux : Nat → Nat → CStr
  | 0, _ => []
  | k + 1, n =>
    match n with
    | 0 => []
    | m + 1 => UInt8.ofNat (m % 257) :: decodeAux k ((m + 1) / 257)

/-- The text of a number (the other direction of `code`). -/
def decode (n : Nat) : CStr := decodeAux n n

/-- The things that have addresses: nodes, nodesets, the children of a node, the attributes of a node or nodeset
(`cocogen/main.ccn:679-711`, `761-774`, `846-861`).  Children and attributes are given by their names. -/
inductive Loc where
  | node (i : Nat)
  | set (i : Nat)
  | child (i name : Nat)
  | attr (t : Target) (name : Nat)
  deriving DecidableEq, Repr

/-! ### The tree of the parser as the other models read it -/

/-- The `id` of a name (`cocogen/frontend/scanAndParse/dsl-parser.y:1243-1250`).  Names of the scanner are ASCII texts without NUL, for
which `newId` gives this. -/
def idOf (n : Parse.Name) : Id := ⟨n.orig, n.orig.map lowerB, n.orig.map upperB⟩

/-- A set expression (`cocogen/main.ccn:800-831`). -/
def exprOf : Parse.SetE → Expr
  | .lit names => .lit (names.map idOf)
  | .ref n => .ref (idOf n)
  | .op .iunion l r => .op .union (exprOf l) (exprOf r)
  | .op .intersect l r => .op .inter (exprOf l) (exprOf r)
  | .op .difference l r => .op .diff (exprOf l) (exprOf r)

/-- The type of an attribute (`cocogen/main.ccn:786-791`). -/
def typeOf : Parse.AT → CheckExist.AType
  | .user => .user
  | .link_or_enum => .linkOrEnum
  | _ => .prim

/-- An attribute (`cocogen/main.ccn:846-861`). -/
def attrOf (a : Parse.Attr) : CheckExist.Attr := ⟨idOf a.name, typeOf a.type, a.ref.map idOf⟩

/-- Data of a traversal (`cocogen/main.ccn:833-844`). -/
def dataOf (a : Parse.TravData) : CheckExist.Attr := ⟨idOf a.name, typeOf a.type, a.ref.map idOf⟩

/-- A child (`cocogen/main.ccn:761-774`). -/
def childOf (c : Parse.Child) : CheckExist.Child := ⟨idOf c.name, some (idOf c.type), .none⟩

/-- The tree as the check of references reads it (`cocogen/main.ccn:606-711`, `944-955`). -/
def progOf (A : Parse.Ast) : CheckExist.Prog where
  phases := A.phases.map fun p => ⟨idOf p.name, p.uid.map idOf, p.start, p.actions.map idOf⟩
  traversals := A.traversals.map fun t => ⟨idOf t.name, some (idOf t.uid), t.nodes.map exprOf, t.data.map dataOf⟩
  passes := A.passes.map fun p => ⟨idOf p.name, p.uid.map idOf, p.func.map idOf⟩
  nodes := A.nodes.map fun n => ⟨idOf n.name, n.root, n.children.map childOf, n.attrs.map attrOf⟩
  sets := A.nodesets.map fun s => ⟨idOf s.name, some (exprOf s.expr), s.attrs.map attrOf⟩
  enums := A.enums.map fun e => ⟨idOf e.name, idOf e.pre⟩

/-- A set expression as the construction of child tables reads it: references are looked up
(`cocogen/frontend/nodesets/nodeset_child_table.c:147-178`). -/
def shapeOf (tab : List (Ste Decl)) : Expr → ChildTable.SExpr
  | .lit _ => .lit
  | .ref i => .ref ((stFind i.lwr tab).map (·.index))
  | .op o l r =>
    .op (match o with
      | .union => false
      | .inter => true
      | .diff => true) (shapeOf tab l) (shapeOf tab r)

/-! ### The propagation of attributes -/

/-- The numbers of the primitive types (`cocogen/main.ccn:786-791`). -/
def primOf : Parse.AT → Nat
  | .user => 0
  | .link_or_enum => 2
  | .int => 3
  | .string => 4
  | .bool => 5
  | .int8 => 6
  | .int16 => 7
  | .int32 => 8
  | .int64 => 9
  | .float => 10
  | .double => 11
  | .uint8 => 13
  | .uint16 => 14
  | .uint32 => 15
  | .uint64 => 16

/-- An attribute as the parser has left it, with the type the check of references has filled in
(`cocogen/main.ccn:846-861`). -/
def pAttr (a : Parse.Attr) (c : CheckExist.Attr) : Propagate.Attr where
  name := code c.name.lwr
  type :=
    match c.type with
    | .link => .link
    | .linkOrEnum => .linkOrEnum
    | .user => .user
    | .prim => .basic (primOf a.type)
  ref :=
    match c.ref with
    | none => 0
    | some r => code r.orig
  ctor := a.ctor
  inh := a.inherited
  syn := a.synthesized
  propagated := false
  lifetimes := a.lifetimes
  orig := code c.name.orig

/-- The attributes before they are propagated (`cocogen/frontend/nodesets/propagate_attributes.c:172-176`). -/
def initOf (A : Parse.Ast) (p : CheckExist.Prog) : Target → List Propagate.Attr
  | .node i =>
    match A.nodes[i]?, p.nodes[i]? with
    | some n, some m => List.zipWith pAttr n.attrs m.attrs
    | _, _ => []
  | .set i =>
    match A.nodesets[i]?, p.sets[i]? with
    | some n, some m => List.zipWith pAttr n.attrs m.attrs
    | _, _ => []

/-- The names of a literal in the order in which it is traversed: the node before its children
(`cocogen/frontend/nodesets/propagate_attributes.c:201-208`,
`cocogen/frontend/attribute_scheduler/schedule_attribute_visits.c:239-254`, `cocogen/main.ccn:810-816`). -/
def preorder : Sets.Tree → List Id
  | .null => []
  | .node _ _ i l r => i :: (preorder l ++ preorder r)

/-- What a name in a literal is looked up to (`cocogen/frontend/nodesets/propagate_attributes.c:202-204`). -/
def entryOf (tab : List (Ste Decl)) (i : Id) : Entry :=
  match stFind i.lwr tab with
  | none => .null
  | some ⟨.node, k⟩ => .node k
  | some _ => .other

/-- The literals that resolution has left in the nodesets at these positions (`cocogen/frontend/unwrap_setexpr.c:18-84`). -/
def treesOf (st : Unwrap.St) : List Nat → Res (List Sets.Tree)
  | [] => .ok []
  | k :: rest =>
    match st.nodesets[k]? with
    | none => .ub "no such nodeset"
    | some p => do
      let t ← Unwrap.litAt st p
      let ts ← treesOf st rest
      .ok (t :: ts)

/-- What the propagation of attributes reads (`cocogen/frontend/nodesets/propagate_attributes.c:172-208`). -/
def praEnv (A : Parse.Ast) (tab : List (Ste Decl)) (table : Nat → List Nat) (trees : List Sets.Tree) : Propagate.Env where
  sets := A.nodesets.length
  table := table
  members := fun i => (preorder ((trees[i]?).getD .null)).map (entryOf tab)
  kids := fun i =>
    match A.nodes[i]? with
    | some n => n.children.map fun c => code (idOf c.name).lwr
    | none => []

/-! ### The check of attributes -/

/-- What the check of attributes reads (`cocogen/frontend/check_attributes.c:22-50`). -/
def declsOf (A : Parse.Ast) (illegal : Nat → Bool) (attrs : Target → List Propagate.Attr) : CheckAttrs.Decls where
  nodes := A.nodes.mapIdx fun i n => (n.root, attrs (.node i))
  sets := A.nodesets.mapIdx fun i _ => (illegal i, attrs (.set i))

/-- Whether `CCNerrorAction` is called for the first attribute of a nodeset (`cocogen/frontend/check_attributes.c:70-78`). -/
def ctorStops : List Propagate.Attr → Bool
  | [] => false
  | a :: _ => !a.propagated && a.ctor

/-! ### The check of equations -/

/-- A reference in an equation (`cocogen/main.ccn:878-889`). -/
def refOf (r : Parse.Ref) : ProductRules.ARef := ⟨r.node.map fun n => code (idOf n).lwr, code (idOf r.attr).lwr⟩

/-- The equations (`cocogen/main.ccn:863-876`). -/
def eqnOf (e : Parse.Equation) : ProductRules.Eqn := ⟨refOf e.rule, e.args.map refOf⟩

/-- What the symbol table has for a name (`cocogen/frontend/check_product_rules.c:159-172`, `280-289`). -/
def symOf (tab : List (Ste Decl)) (name : Nat) : Option ProductRules.Sym :=
  match stFind (decode name) tab with
  | none => none
  | some ⟨.node, k⟩ => some (.node k)
  | some ⟨.nodeset, k⟩ => some (.set k)
  | some _ => some .other

/-- What the check of equations reads (`cocogen/frontend/check_product_rules.c:226-301`). -/
def cprEnv (A : Parse.Ast) (tab : List (Ste Decl)) (attrs : Target → List Propagate.Attr) : ProductRules.Env where
  nodes := A.nodes.mapIdx fun i n =>
    ⟨n.children.map fun c => ⟨code (idOf c.name).lwr, code (idOf c.type).lwr⟩, attrs (.node i), n.equations.map eqnOf⟩
  sets := A.nodesets.mapIdx fun i _ => attrs (.set i)
  lookup := symOf tab

/-! ### What the scheduler reads -/

/-- An attribute of a node or nodeset (`cocogen/main.ccn:846-861`). -/
def iAttr (addr : Loc → Nat) (t : Target) (a : Propagate.Attr) : Induce.Attr := ⟨addr (.attr t a.name), decode a.name, a.inh, a.syn⟩

/-- The node or nodeset that is the type of a child (`cocogen/frontend/attribute_scheduler/common.h:35-44`): looked up by name. -/
def targetOf (env : ProductRules.Env) (type : Nat) : Option Target :=
  match env.lookup type with
  | some (.node k) => some (.node k)
  | some (.set k) => some (.set k)
  | _ => none

/-- The address of a node or nodeset. -/
def addrOf (addr : Loc → Nat) : Target → Nat
  | .node k => addr (.node k)
  | .set k => addr (.set k)

/-- A reference with what the check of equations has stored in it (`cocogen/frontend/check_product_rules.c:157-158`, `184`); without
attribute the pointer is NULL. -/
def iRef (addr : Loc → Nat) (env : ProductRules.Env) (i : Nat) (y : ProductRules.Resolution) : Res Induce.Ref :=
  match y.attr with
  | none => .ub "ATTRIBUTE_REFERENCE(NULL)"
  | some a =>
    match y.child with
    | none => .ok ⟨none, iAttr addr (.node i) a⟩
    | some c =>
      match targetOf env c.type with
      | none => .ub "NODE_TYPE(NULL)"
      | some t => .ok ⟨some (addr (.child i c.name)), iAttr addr t a⟩

/-- The arguments of an equation; what was stored comes in the order of the text
(`cocogen/frontend/check_product_rules.c:257-261`). -/
def iArgs (addr : Loc → Nat) (env : ProductRules.Env) (i : Nat) : List ProductRules.ARef → List ProductRules.Resolution →
    Res (List Induce.Ref × List ProductRules.Resolution)
  | [], log => .ok ([], log)
  | _ :: _, [] => .ub "reference not visited"
  | _ :: rest, y :: log => do
    let r ← iRef addr env i y
    let (rs, log) ← iArgs addr env i rest log
    .ok (r :: rs, log)

/-- The equations of a node (`cocogen/frontend/check_product_rules.c:247-252`). -/
def iEqns (addr : Loc → Nat) (env : ProductRules.Env) (i : Nat) : List ProductRules.Eqn → List ProductRules.Resolution →
    Res (List Induce.Eqn × List ProductRules.Resolution)
  | [], log => .ok ([], log)
  | _ :: _, [] => .ub "reference not visited"
  | e :: rest, y :: log => do
    let r ← iRef addr env i y
    let (as, log) ← iArgs addr env i e.args log
    let (es, log) ← iEqns addr env i rest log
    .ok (⟨r, as⟩ :: es, log)

/-- The children of a node (`cocogen/main.ccn:761-774`); types are looked up
(`cocogen/frontend/attribute_scheduler/common.h:35-44`). -/
def iChildren (addr : Loc → Nat) (env : ProductRules.Env) (i : Nat) : List ProductRules.Child → Res (List Induce.Child)
  | [] => .ok []
  | c :: rest =>
    match targetOf env c.type with
    | none => .ub "NODE_TYPE(NULL)"
    | some t => do
      let cs ← iChildren addr env i rest
      .ok (⟨addr (.child i c.name), addrOf addr t⟩ :: cs)

/-- The nodes from the number `i` on (`cocogen/main.ccn:679-695`). -/
def iNodes (addr : Loc → Nat) (env : ProductRules.Env) : Nat → List ProductRules.NodeD → List ProductRules.Resolution →
    Res (List Induce.INode)
  | _, [], _ => .ok []
  | i, nd :: rest, log => do
    let cs ← iChildren addr env i nd.children
    let (es, log) ← iEqns addr env i nd.eqns log
    let ns ← iNodes addr env (i + 1) rest log
    .ok (⟨addr (.node i), nd.attrs.map (iAttr addr (.node i)), cs, es⟩ :: ns)

/-- The members of a nodeset (`cocogen/frontend/attribute_scheduler/schedule_attribute_visits.c:239-254`), in the order of the literal;
the assertion is that of line 248. -/
def iMembers (nodes : List Induce.INode) : List Entry → Res (List Induce.INode)
  | [] => .ok []
  | .node k :: rest =>
    match nodes[k]? with
    | none => .ub "no such node"
    | some n => do
      let l ← iMembers nodes rest
      .ok (n :: l)
  | _ :: _ => .abort "assert node->node != NULL"

/-- The nodesets (`cocogen/main.ccn:697-711`); the list of members is built from its end. -/
def iSets (addr : Loc → Nat) (nodes : List Induce.INode) (members : Nat → List Entry) : Nat → List (List Propagate.Attr) →
    Res (List Induce.NSet)
  | _, [] => .ok []
  | i, l :: rest => do
    let ms ← iMembers nodes (members i)
    let ss ← iSets addr nodes members (i + 1) rest
    .ok (⟨addr (.set i), l.map (iAttr addr (.set i)), ms.reverse⟩ :: ss)

/-! ### The phase -/

/-- The phase driver after an action in which `CCNerrorAction` may have been called (`copra/src/phase_driver.c:61-125`). -/
def stop (errors : Nat) : Res Unit :=
  match errors with
  | 0 => .ok ()
  | _ + 1 => .abort "action error"

/-- What the actions before the scheduler leave: what the scheduler reads, and the number of errors of which the phase driver learns at
the end of the phase (`cocogen/frontend/check_attributes.c:59-95`).  Later phases read the symbol table and the start phase
(`cocogen/main.ccn:616-623`), the attributes, and the members of nodesets. -/
structure Out where
  spec : Induce.Spec
  errors : Nat
  tab : List (Ste Decl)
  start : Option Nat
  attrs : Target → List Propagate.Attr
  members : Nat → List Entry

/-- The actions before the scheduler (`cocogen/main.ccn:33-41`).  `addr` gives the addresses, `fuel` bounds the recursion in the
resolution of set expressions; the recursion of the child tables is not deeper than there are nodesets. -/
def checks (addr : Loc → Nat) (fuel : Nat) (A : Parse.Ast) : Res Out := do
  let tab ← BSTast (progOf A).ids
  let o ← CheckExist.CEXast tab (progOf A)
  let s1 ← ChildTable.NCTast (A.nodesets.map fun s => shapeOf tab (exprOf s.expr)) A.nodesets.length
  stop s1.errors
  let (_, st) ← Unwrap.USEast tab fuel (A.nodesets.map fun s => exprOf s.expr)
    (A.traversals.filterMap fun t => t.nodes.map exprOf)
  let trees ← treesOf st (List.range A.nodesets.length)
  let env := praEnv A tab s1.table trees
  let s2 ← Propagate.PRAast env (initOf A o.prog)
  stop s2.errors
  let d := declsOf A s1.illegal s2.attrs
  stop ((d.sets.filter fun x => ctorStops x.2).length)
  let cenv := cprEnv A tab s2.attrs
  let s3 ← ProductRules.CPRast cenv
  stop s3.errors
  let nodes ← iNodes addr cenv 0 cenv.nodes s3.log
  let sets ← iSets addr nodes env.members 0 cenv.sets
  .ok ⟨⟨nodes, sets⟩, CheckAttrs.CHAstart d, tab, o.start, s2.attrs, env.members⟩

/-- The phase `semantic` (`cocogen/main.ccn:29-44`): the visits of the attributes, with what they are for.  The arguments besides the tree
are those of `checks` and of `Verif.Schedule.SAVast`. -/
def semantic (addr : Loc → Nat) (fuel max : Nat) (order : List (Nat × List Graph.Graph) → List (Nat × List Graph.Graph))
    (A : Parse.Ast) : Res (Induce.Spec × Schedule.Plan) := do
  let o ← checks addr fuel A
  let P ← Schedule.SAVast fuel max order o.spec
  match P with
  | none => .abort "action error"
  | some P =>
    match o.errors with
    | 0 => .ok (o.spec, P)
    | _ + 1 => .abort "phase error"

end Verif.Semantic
