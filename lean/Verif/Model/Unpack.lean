import Verif.Model.Lifetimes
import Verif.Model.Semantic

/-!
# Model of the phase `unpackLifetimes` as a whole (`cocogen/main.ccn:46-75`)

The models of numbering and resolving (`Verif.Model.Lifetimes`) run on the tree that the phase `semantic` has left; what comes out is
what the generator of the check (`cocogen/dynamic_backend/gen_check_traversal.c`) reads.

* `checkLifetimes` and `mapIdToLifetime` end the program if they have reported errors (`CTIabortOnError`).
* `MITLilifetime` does not visit `next`: further lifetimes keep the numbers of the constructor, 0.
* Errors are counted, their texts are left out.
-/

namespace Verif.Unpack
open Verif.Str Verif.Ids
open Verif.Semantic (idOf)
open Verif.Propagate (Target Entry)

/-- What the reference of an action is looked up to (`cocogen/frontend/lifetimes/assign_id_to_actions.c:30`,
`cocogen/frontend/lifetimes/map_id_to_lifetimes.c:63`). -/
def actionOf (A : Parse.Ast) (tab : List (Ste Decl)) (n : Parse.Name) : Life.Ref :=
  match stFind (idOf n).lwr tab with
  | none => .missing
  | some ⟨.phase, k⟩ => .phase k
  | some ⟨.traversal, k⟩ =>
    match A.traversals[k]? with
    | some t => .leaf (idOf t.name) (some (idOf t.uid))
    | none => .missing
  | some ⟨.pass, k⟩ =>
    match A.passes[k]? with
    | some p => .leaf (idOf p.name) (p.uid.map idOf)
    | none => .missing
  | some _ => .other

/-- The phases (`cocogen/main.ccn:638-651`). -/
def phasesOf (A : Parse.Ast) (tab : List (Ste Decl)) : List Life.Phase :=
  A.phases.map fun p => ⟨idOf p.name, p.uid.map idOf, p.actions.map (actionOf A tab)⟩

/-- `enum lifetime_type` (`cocogen/main.ccn:723-728`). -/
def kindOf : Parse.LT → Life.Kind
  | .disallowed => .disallowed
  | .mandatory => .mandatory
  | .optional => .optional
  | .allowed => .allowed

/-- `CLTattribute` (`cocogen/frontend/lifetimes/check_lifetimes.c:28-39`): whether an error is reported. -/
def CLTattribute (a : Propagate.Attr) : Bool :=
  match a.lifetimes with
  | [] => false
  | _ :: _ =>
    match a.type with
    | .link => false
    | .basic n => n != Semantic.primOf .string
    | _ => true

/-- `CLTast` (`cocogen/frontend/lifetimes/check_lifetimes.c:18-23`): the number of errors for the attributes of nodes and nodesets. -/
def CLTast (A : Parse.Ast) (attrs : Target → List Propagate.Attr) : Nat :=
  (((List.range A.nodes.length).flatMap fun k => attrs (.node k)).filter CLTattribute).length +
    (((List.range A.nodesets.length).flatMap fun k => attrs (.set k)).filter CLTattribute).length

/-- `CTIabortOnError` (`palm/src/ctinfo.c:393-398`). -/
def abortOnError (errors : Nat) : Res Unit :=
  match errors with
  | 0 => .ok ()
  | _ + 1 => .abort "CTIabortOnError"

/-- What the resolving reads: the phases, the numbers of the actions, the first phase
(`cocogen/frontend/lifetimes/map_id_to_lifetimes.c:16-22`, `142`). -/
structure Env where
  ph : List Life.Phase
  ids : Life.Addr → Nat
  fuel : Nat
  start : Nat

/-- `MITLlifetime_range` (`cocogen/frontend/lifetimes/map_id_to_lifetimes.c:106-133`): the range with its numbers, and the number of
errors (whether there is one). -/
def MITLrange (E : Env) (r : Parse.Range) : Res (Life.Range × Nat) := do
  let x ← Life.MITLlifetime_range E.ph E.ids E.fuel E.start (r.target.map idOf)
  match x with
  | none => .ok (⟨r.inclusive, ⟨0, 0⟩⟩, 1)
  | some n => .ok (⟨r.inclusive, n⟩, 0)

/-- `TRAVbegin` and `TRAVend` (`cocogen/frontend/lifetimes/map_id_to_lifetimes.c:98-101`). -/
def MITLopt (E : Env) : Option Parse.Range → Res (Option Life.Range × Nat)
  | none => .ok (none, 0)
  | some r => do
    let (x, e) ← MITLrange E r
    .ok (some x, e)

/-- The error for nodes (`cocogen/frontend/lifetimes/map_id_to_lifetimes.c:95-97`). -/
def nodeError (inNode : Bool) (l : Parse.Lifetime) : Nat :=
  match inNode, l.type with
  | true, .mandatory => 1
  | true, .optional => 1
  | _, _ => 0

/-- `MITLilifetime` (`cocogen/frontend/lifetimes/map_id_to_lifetimes.c:93-103`). -/
def MITLilifetime (E : Env) (inNode : Bool) (l : Parse.Lifetime) : Res (Life.Lifetime × Nat) := do
  let (b, e1) ← MITLopt E l.begin?
  let (f, e2) ← MITLopt E l.end?
  .ok (⟨kindOf l.type, b, f⟩, nodeError inNode l + e1 + e2)

/-- A lifetime that is not visited (`cocogen/frontend/lifetimes/map_id_to_lifetimes.c:93-103`, `cocogen/main.ccn:742-752`). -/
def unvisited (l : Parse.Lifetime) : Life.Lifetime :=
  ⟨kindOf l.type, l.begin?.map fun r => ⟨r.inclusive, ⟨0, 0⟩⟩, l.end?.map fun r => ⟨r.inclusive, ⟨0, 0⟩⟩⟩

/-- `TRAVlifetimes` (`cocogen/frontend/lifetimes/map_id_to_lifetimes.c:53`, `93-103`): the first lifetime. -/
def MITLlifetimes (E : Env) (inNode : Bool) : List Parse.Lifetime → Res (List Life.Lifetime × Nat)
  | [] => .ok ([], 0)
  | l :: rest => do
    let (x, e) ← MITLilifetime E inNode l
    .ok (x :: rest.map unvisited, e)

/-- A list of things with lifetimes, one after the other: `TRAVichildren`, `TRAViattributes`
(`cocogen/frontend/lifetimes/map_id_to_lifetimes.c:55-56`). -/
def MITLall (E : Env) : List (List Parse.Lifetime) → Res (List (List Life.Lifetime) × Nat)
  | [] => .ok ([], 0)
  | ls :: rest => do
    let (x, e1) ← MITLlifetimes E false ls
    let (xs, e2) ← MITLall E rest
    .ok (x :: xs, e1 + e2)

/-- The lifetimes of a node and of what belongs to it. -/
structure Lives where
  node : List Life.Lifetime
  children : List (List Life.Lifetime)
  attrs : List (List Life.Lifetime)

/-- `MITLinode` without `TRAVnext` (`cocogen/frontend/lifetimes/map_id_to_lifetimes.c:48-59`). -/
def MITLinode (E : Env) (n : Parse.Node) (attrs : List Propagate.Attr) : Res (Lives × Nat) := do
  let (l, e1) ← MITLlifetimes E true n.lifetimes
  let (cs, e2) ← MITLall E (n.children.map (·.lifetimes))
  let (as, e3) ← MITLall E (attrs.map (·.lifetimes))
  .ok (⟨l, cs, as⟩, e1 + e2 + e3)

/-- `MITLinode` along the list of nodes from the number `i` on (`cocogen/frontend/lifetimes/map_id_to_lifetimes.c:48-59`). -/
def MITLinodes (E : Env) (attrs : Target → List Propagate.Attr) : Nat → List Parse.Node → Res (List Lives × Nat)
  | _, [] => .ok ([], 0)
  | i, n :: rest => do
    let (x, e1) ← MITLinode E n (attrs (.node i))
    let (xs, e2) ← MITLinodes E attrs (i + 1) rest
    .ok (x :: xs, e1 + e2)

/-- `CSMilifetime` along the list of lifetimes; `TRAVchildren` visits `next`
(`cocogen/frontend/lifetimes/children_set_mandatory.c:52-61`). -/
def CSMlifetimes : List Parse.Lifetime → Bool → Bool
  | [], flag => flag
  | l :: rest, flag =>
    match l.type, l.begin?, l.end? with
    | .mandatory, none, none => CSMlifetimes rest true
    | _, _, _ => CSMlifetimes rest flag

/-- `CSMast` (`cocogen/frontend/lifetimes/children_set_mandatory.c:23-47`): the fields `is_mandatory` of the children of all nodes,
which start as `false`. -/
def CSMast (A : Parse.Ast) : List (List Bool) :=
  A.nodes.map fun n => n.children.map fun c => CSMlifetimes c.lifetimes false

/-- The number of a node in a literal (`cocogen/dynamic_backend/gen_check_traversal.c:216-228`). -/
def entryNode : Entry → Option Nat
  | .node k => some k
  | _ => none

/-- The node types a child may have: `CHILD_TYPE_REFERENCE`, a node, or a nodeset whose members `TypeIs…` compares with
(`cocogen/dynamic_backend/gen_check_traversal.c:117-128`, `145-150`; `cocogen/frontend/check_existance.c:177-194` sets `CHILD_TYPE`). -/
def typesOf (tab : List (Ste Decl)) (members : Nat → List Entry) (c : Parse.Child) : List Nat :=
  match stFind (idOf c.type).lwr tab with
  | some ⟨.node, k⟩ => [k]
  | some ⟨.nodeset, k⟩ => (members k).filterMap entryNode
  | _ => []

/-- A node as the generator of the check reads it (`cocogen/dynamic_backend/gen_check_traversal.c:87-170`). -/
def declOf (o : Semantic.Out) (n : Parse.Node) (l : Lives) : Life.NodeDecl :=
  ⟨List.zipWith (fun c ls => ⟨typesOf o.tab o.members c, ls⟩) n.children l.children, l.attrs, l.node⟩

/-- What the phase leaves: the nodes with resolved lifetimes, and which children are marked as mandatory. -/
structure Out where
  decls : List Life.NodeDecl
  mandatory : List (List Bool)

/-- The phase `unpackLifetimes` (`cocogen/main.ccn:46-75`) on what the phase `semantic` has left.  `fuel` bounds the recursion over
phases. -/
def unpack (fuel : Nat) (A : Parse.Ast) (o : Semantic.Out) : Res Out := do
  abortOnError (CLTast A o.attrs)
  let ids ← Life.AITAast (phasesOf A o.tab) fuel o.start
  match o.start with
  | none => .ub "AST_START_PHASE(NULL)"
  | some start => do
    let (ls, e) ← MITLinodes ⟨phasesOf A o.tab, ids, fuel, start⟩ o.attrs 0 A.nodes
    abortOnError e
    .ok ⟨List.zipWith (declOf o) A.nodes ls, CSMast A⟩

end Verif.Unpack
