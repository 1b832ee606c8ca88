import Verif.Base
import Verif.Model.Ids

/-!
# Model of the lifetimes

Resolving: `cocogen/frontend/lifetimes/assign_id_to_actions.c`, `map_id_to_lifetimes.c`.
Checking: `cocogen/dynamic_backend/gen_check_traversal.c` and the code it writes.

* The phases are a list in the order of the `next` links.  An `iactions` node is named by the position of its phase in
  that list and its position among the actions of that phase.
* Every action carries the result of `STlookup` for its reference instead of the reference.
* Counters are unbounded (`uint64_t` and `int` in C).
* Recursion over phases is bounded by `fuel`; phases that contain themselves recurse without end in C (`diverge`).
-/

namespace Verif.Life
open Verif.Str Verif.Ids

/-- What `STlookup(ste, IACTIONS_REFERENCE(node))` finds (`cocogen/frontend/lifetimes/assign_id_to_actions.c:30`,
`map_id_to_lifetimes.c:63`): a phase (its position in the list of phases), a pass or traversal, another symbol, or
nothing. -/
inductive Ref where
  | phase (q : Nat)
  | leaf (name : Id) (uid : Option Id)
  | other
  | missing
  deriving DecidableEq

/-- An `iphase` (`cocogen/main.ccn:638-651`): name, `iprefix` and actions. -/
structure Phase where
  name : Id
  uid : Option Id
  actions : List Ref

/-- An `iactions` node (`cocogen/main.ccn:628-636`): position of the phase, position in the phase. -/
abbrev Addr := Nat × Nat

/-- The action at an address; `none` behind the last action of a phase (`IACTIONS_NEXT` is NULL,
`cocogen/main.ccn:628-636`). -/
def actionAt (ph : List Phase) (p k : Nat) : Option Ref :=
  match ph[p]? with
  | some x => x.actions[k]?
  | none => none

/-- The fields `action_id` of all `iactions` nodes and the counter `curr_action_id`
(`cocogen/frontend/lifetimes/assign_id_to_actions.c:16`, `29`). -/
structure Num where
  ids : Addr → Nat
  curr : Nat

/-- Assignment to `IACTIONS_ACTION_ID(node)` (`cocogen/frontend/lifetimes/assign_id_to_actions.c:29`). -/
def Num.assign (s : Num) (a : Addr) : Num :=
  { ids := fun b => if b = a then s.curr else s.ids b, curr := s.curr + 1 }

/-- `AITAiactions` called through `TRAVopt` (`cocogen/frontend/lifetimes/assign_id_to_actions.c:27-36`).  A reference
that is not found makes `NODE_TYPE` read through NULL. -/
def AITAiactions (ph : List Phase) : Nat → Nat → Nat → Num → Res Num
  | 0, _, _, _ => .diverge
  | fuel + 1, p, k, s =>
    match actionAt ph p k with
    | none => .ok s
    | some .missing => .ub "NODE_TYPE(NULL)"
    | some (.phase q) => do
      let s ← AITAiactions ph fuel q 0 (s.assign (p, k))
      AITAiactions ph fuel p (k + 1) s
    | some _ => AITAiactions ph fuel p (k + 1) (s.assign (p, k))

/-- `TRAVdo` of a phase in this traversal: `TRAVchildren`, because the traversal has no handler for phases
(`cocogen/main.ccn:56-59`): first the actions, then the rest of the list of phases.  `n` is the number of phases that
are left. -/
def AITAiphase (ph : List Phase) (fuel : Nat) : Nat → Nat → Num → Res Num
  | 0, _, s => .ok s
  | n + 1, p, s => do
    let s ← AITAiactions ph fuel p 0 s
    AITAiphase ph fuel n (p + 1) s

/-- `AITAast` (`cocogen/frontend/lifetimes/assign_id_to_actions.c:19-25`); the fields start at 0 and the counter at 2. -/
def AITAast (ph : List Phase) (fuel : Nat) (start : Option Nat) : Res (Addr → Nat) :=
  match start with
  | none => .abort "assert"
  | some p => do
    let s ← AITAiphase ph fuel (ph.length - p) p { ids := fun _ => 0, curr := 2 }
    .ok s.ids

/-- `CompareID` (`cocogen/frontend/lifetimes/map_id_to_lifetimes.c:30-36`). -/
def compareID (a b : Option Id) : Bool :=
  match a, b with
  | some a, some b => STReq (some a.lwr) (some b.lwr)
  | _, _ => false

/-- The search state: `last_action` and `last_node` (`cocogen/frontend/lifetimes/map_id_to_lifetimes.c:16-17`), which
are always set together. -/
abbrev Last := Option (Addr × Ref)

/-- `MITLiactions` called through `TRAVopt` (`cocogen/frontend/lifetimes/map_id_to_lifetimes.c:61-91`). -/
def MITLiactions (ph : List Phase) (target : Id) : Nat → Nat → Nat → Last → Res Last
  | 0, _, _, _ => .diverge
  | fuel + 1, p, k, last =>
    match actionAt ph p k with
    | none => .ok last
    | some .missing => .ub "NODE_TYPE(NULL)"
    | some (.phase q) =>
      match ph[q]? with
      | none => .ub "no such phase"
      | some x =>
        if compareID (some x.name) (some target) || compareID x.uid (some target) then .ok (some ((p, k), .phase q))
        else do
          let last ← MITLiactions ph target fuel q 0 last
          if last.isNone then MITLiactions ph target fuel p (k + 1) last else .ok last
    | some (.leaf n u) =>
      if compareID (some n) (some target) || compareID u (some target) then .ok (some ((p, k), .leaf n u))
      else if last.isNone then MITLiactions ph target fuel p (k + 1) last else .ok last
    | some .other => if last.isNone then MITLiactions ph target fuel p (k + 1) last else .ok last

/-- `MITLid` on the list of names of a target (`cocogen/frontend/lifetimes/map_id_to_lifetimes.c:135-166`).  The second
component counts the errors reported here. -/
def MITLid (ph : List Phase) (fuel start : Nat) : List Id → Last → Nat → Res (Last × Nat)
  | [], last, errs => .ok (last, errs)
  | t :: ts, none, errs => do
    let last ← MITLiactions ph t fuel start 0 none
    if last.isSome then MITLid ph fuel start ts last errs else .ok (last, errs)
  | t :: ts, some (_, .phase q), errs => do
    let last ← MITLiactions ph t fuel q 0 none
    if last.isSome then MITLid ph fuel start ts last errs else .ok (last, errs)
  | _ :: ts, some (a, r), errs => MITLid ph fuel start ts (some (a, r)) (errs + 1)

/-- The resolved numbers of a range: `LIFETIME_RANGE_ACTION_ID` and `LIFETIME_RANGE_NEXT_ACTION_ID`
(`cocogen/main.ccn:742-752`). -/
structure Nums where
  id : Nat
  next : Nat
  deriving DecidableEq

/-- `MITLlifetime_range` with `last_action` reset by the caller (`cocogen/frontend/lifetimes/map_id_to_lifetimes.c:93-133`).
`none`: an error was reported, so that `CTIabortOnError` in `MITLast` ends the generator. -/
def MITLlifetime_range (ph : List Phase) (ids : Addr → Nat) (fuel start : Nat) (target : List Id) : Res (Option Nums) := do
  let r ← MITLid ph fuel start target none 0
  match r.1 with
  | none => .ok none
  | some (a, .phase q) =>
    match ph[q]? with
    | none => .ub "no such phase"
    | some x =>
      match x.actions.length with
      | 0 => .ub "IACTIONS_NEXT(NULL)"
      | n + 1 => .ok (if r.2 = 0 then some { id := ids a, next := ids (q, n) + 1 } else none)
  | some (a, _) => .ok (if r.2 = 0 then some { id := ids a, next := ids a + 1 } else none)

/-! ## The generated check -/

/-- `enum lifetime_type` (`cocogen/main.ccn:723-728`). -/
inductive Kind where
  | disallowed
  | allowed
  | mandatory
  | optional
  deriving DecidableEq

/-- A resolved `lifetime_range` (`cocogen/main.ccn:742-752`). -/
structure Range where
  inclusive : Bool
  nums : Nums
  deriving DecidableEq

/-- An `ilifetime` (`cocogen/main.ccn:730-740`); the list is linked by `next`. -/
structure Lifetime where
  kind : Kind
  begin : Option Range
  fin : Option Range
  deriving DecidableEq

/-- A comparison of `action_id` with a number in the written code (`cocogen/dynamic_backend/gen_check_traversal.c:249-308`). -/
inductive Cmp where
  | ge (n : Nat)
  | lt (n : Nat)
  deriving DecidableEq

/-- The function that reports the error in the written code: `CTI`, or `CTIerror`, which the library does not have
(`cocogen/dynamic_backend/gen_check_traversal.c:277`, `397`, `570`). -/
inductive Reporter where
  | CTI
  | CTIerror
  deriving DecidableEq

/-- A written statement: `if (<conds> && true)` or `if (<conds> || false)`, in it the test of the field (`none`: no
test, `some true`: `!= NULL`, `some false`: `== NULL`), in it the report
(`cocogen/dynamic_backend/gen_check_traversal.c:249-403`). -/
structure Stmt where
  conj : Bool
  conds : List Cmp
  test : Option Bool
  reporter : Reporter
  deriving DecidableEq

/-- The conditions written for a range that holds inside: `LifetimeNodeDisallowed`, `LifetimeChildDisallowed`,
`LifetimeChildMandatory`, `LifetimeAttributeDisallowed`, `LifetimeAttributeMandatory`
(`cocogen/dynamic_backend/gen_check_traversal.c:249-280`, `331-370`, `405-444`, `508-545`, `578-615`). -/
def inside (l : Lifetime) : List Cmp :=
  (match l.begin with
    | some r => [if r.inclusive then .ge r.nums.id else .ge r.nums.next]
    | none => []) ++
  (match l.fin with
    | some r => [if r.inclusive then .lt r.nums.next else .lt r.nums.id]
    | none => [])

/-- The conditions written for a range that holds outside: `LifetimeNodeAllowed`, `LifetimeChildAllowed`,
`LifetimeChildOptional`, `LifetimeAttributeAllowed`, `LifetimeAttributeOptional`
(`cocogen/dynamic_backend/gen_check_traversal.c:282-306`, `371-403`, `446-478`, `546-576`, `617-647`). -/
def outside (l : Lifetime) : List Cmp :=
  (match l.begin with
    | some r => [if r.inclusive then .lt r.nums.id else .lt r.nums.next]
    | none => []) ++
  (match l.fin with
    | some r => [if r.inclusive then .ge r.nums.next else .ge r.nums.id]
    | none => [])

/-- `LifetimeNodeGen` (`cocogen/dynamic_backend/gen_check_traversal.c:310-329`); without a range
the report of a disallowed node is unconditional, as for the empty list of conditions. -/
def nodeGen (l : Lifetime) : Res (List Stmt) :=
  match l.kind with
  | .mandatory => .abort "assert"
  | .optional => .abort "assert"
  | .disallowed => .ok [⟨true, inside l, none, .CTI⟩]
  | .allowed => .ok (if l.begin.isNone && l.fin.isNone then [] else [⟨false, outside l, none, .CTI⟩])

/-- `LifetimeChildGen` (`cocogen/dynamic_backend/gen_check_traversal.c:481-506`) and `LifetimeAttributeGen`
(`cocogen/dynamic_backend/gen_check_traversal.c:649-677`), which write the same statements for a field. -/
def fieldGen (l : Lifetime) : List Stmt :=
  if l.begin.isNone && l.fin.isNone then
    match l.kind with
    | .disallowed => [⟨true, [], some true, .CTI⟩]
    | .mandatory => [⟨true, [], some false, .CTI⟩]
    | .allowed => []
    | .optional => []
  else
    match l.kind with
    | .disallowed => [⟨true, inside l, some true, .CTI⟩]
    | .allowed => [⟨false, outside l, some true, .CTIerror⟩]
    | .mandatory => [⟨true, inside l, some false, .CTI⟩]
    | .optional => [⟨false, outside l, some false, .CTI⟩]

/-- `DGCHTilifetime` on the list of lifetimes of a node: `next` is not followed
(`cocogen/dynamic_backend/gen_check_traversal.c:679-691`). -/
def nodeLifetimes : List Lifetime → Res (List Stmt)
  | [] => .ok []
  | l :: _ => nodeGen l

/-- `DGCHTilifetime` on the list of lifetimes of a child or attribute
(`cocogen/dynamic_backend/gen_check_traversal.c:679-691`). -/
def fieldLifetimes : List Lifetime → List Stmt
  | [] => []
  | l :: _ => fieldGen l

/-- A child in the specification: the node types it may have (`CHILD_TYPE_REFERENCE`, a node or a nodeset whose members
`TypeIs…` compares with, `cocogen/dynamic_backend/gen_check_traversal.c:117-128`, `145-150`) and its lifetimes. -/
structure Child where
  types : List Nat
  lifetimes : List Lifetime

/-- A node type in the specification (`cocogen/main.ccn:679-700`): children, the lifetimes of the attributes, own
lifetimes. -/
structure NodeDecl where
  children : List Child
  attrs : List (List Lifetime)
  lifetimes : List Lifetime

/-- The function `CHK<node>` as written by `DGCHTinode` (`cocogen/dynamic_backend/gen_check_traversal.c:87-115`): for
every child the allowed types and the statements of its lifetimes, for every attribute its statements, the statements
of the node. -/
structure Chk where
  children : List (List Nat × List Stmt)
  attrs : List (List Stmt)
  node : List Stmt

/-- `DGCHTinode`, `DGCHTchild`, `DGCHTattribute` (`cocogen/dynamic_backend/gen_check_traversal.c:87-115`, `136-170`). -/
def genNode (d : NodeDecl) : Res Chk := do
  let n ← nodeLifetimes d.lifetimes
  .ok { children := d.children.map (fun c => (c.types, fieldLifetimes c.lifetimes)),
        attrs := d.attrs.map fieldLifetimes, node := n }

/-- All functions, in the order of the node types (`DGCHTast`, `cocogen/dynamic_backend/gen_check_traversal.c:34-58`). -/
def genAll : List NodeDecl → Res (List Chk)
  | [] => .ok []
  | d :: ds => do
    let c ← genNode d
    let cs ← genAll ds
    .ok (c :: cs)

/-- The statement only uses functions that exist (`cocogen/dynamic_backend/gen_check_traversal.c:397`, `570`). -/
def Stmt.builds (s : Stmt) : Bool :=
  match s.reporter with
  | .CTI => true
  | .CTIerror => false

/-- The written file can be compiled and linked: no call of `CTIerror`
(`cocogen/dynamic_backend/gen_check_traversal.c:397`, `570`; `palm/include/palm/ctinfo.h` has no such function). -/
def builds (cs : List Chk) : Bool :=
  cs.all (fun c => c.children.all (fun x => x.2.all Stmt.builds) && c.attrs.all (fun x => x.all Stmt.builds) &&
    c.node.all Stmt.builds)

/-- A comparison at run time, `action_id` being the result of `CCNgetCurrentActionId`
(`cocogen/dynamic_backend/gen_check_traversal.c:101`). -/
def Cmp.eval (i : Nat) : Cmp → Bool
  | .ge n => decide (n ≤ i)
  | .lt n => decide (i < n)

/-- Whether the statement reports an error at action `i`; `present` is whether the field is not NULL
(`cocogen/dynamic_backend/gen_check_traversal.c:249-403`). -/
def Stmt.run (i : Nat) (present : Bool) (s : Stmt) : Bool :=
  (if s.conj then s.conds.all (Cmp.eval i) else s.conds.any (Cmp.eval i)) &&
  match s.test with
  | none => true
  | some b => b == present

mutual
/-- A node of the tree of the generated compiler: type, children, and which attributes are not NULL (only pointers
matter, `cocogen/frontend/lifetimes/check_lifetimes.c:28-39`). -/
inductive Node where
  | mk (ty : Nat) (kids : Kids) (attrs : List Bool)
/-- The children of a node in the order of the specification; `none`: NULL. -/
inductive Kids where
  | nil
  | none (rest : Kids)
  | some (n : Node) (rest : Kids)
end

/-- `NODE_TYPE` (`cocogen/dynamic_backend/gen_node_base_and_union.c:40`). -/
def Node.ty : Node → Nat
  | .mk t _ _ => t

/-- The children as a list (`cocogen/dynamic_backend/gen_check_traversal.c:142-155` looks at each of them). -/
def Kids.list : Kids → List (Option Node)
  | .nil => []
  | .none r => Option.none :: r.list
  | .some n r => Option.some n :: r.list

/-- What an error is reported about: the node itself, a child, the type of a child, an attribute
(`cocogen/dynamic_backend/gen_check_traversal.c:151`, `277`, `364`, `540`). -/
inductive Report where
  | node
  | child (k : Nat)
  | type (k : Nat)
  | attr (k : Nat)
  deriving DecidableEq

/-- The written code for the children from number `k` on (`cocogen/dynamic_backend/gen_check_traversal.c:136-160`). -/
def chkChildren (i : Nat) : Nat → List (List Nat × List Stmt) → List (Option Node) → List Report
  | k, c :: cs, x :: xs =>
    (match x with
      | some n => if c.1.contains n.ty then [] else [Report.type k]
      | none => []) ++
    (c.2.filter (Stmt.run i x.isSome)).map (fun _ => Report.child k) ++ chkChildren i (k + 1) cs xs
  | _, _, _ => []

/-- The written code for the attributes from number `k` on (`cocogen/dynamic_backend/gen_check_traversal.c:162-170`). -/
def chkAttrs (i : Nat) : Nat → List (List Stmt) → List Bool → List Report
  | k, c :: cs, x :: xs => (c.filter (Stmt.run i x)).map (fun _ => Report.attr k) ++ chkAttrs i (k + 1) cs xs
  | _, _, _ => []

/-- The errors one call of `CHK<node>` reports about its own node
(`cocogen/dynamic_backend/gen_check_traversal.c:87-115`). -/
def chkNode (i : Nat) (c : Chk) (kids : List (Option Node)) (attrs : List Bool) : List Report :=
  chkChildren i 0 c.children kids ++ chkAttrs i 0 c.attrs attrs ++
    (c.node.filter (Stmt.run i true)).map (fun _ => Report.node)

mutual
/-- `CHK<node>` with the recursion of `TRAVchildren` (`cocogen/dynamic_backend/gen_check_traversal.c:108-110`); a type
without a function is undefined behaviour (the dispatch table is indexed by the type). -/
def chk (i : Nat) (cs : List Chk) : Node → Res (List Report)
  | .mk ty kids attrs =>
    match cs[ty]? with
    | none => .ub "no entry in the dispatch table"
    | some c => do
      let rest ← chkKids i cs kids
      .ok (chkNode i c kids.list attrs ++ rest)
/-- `TRAVchildren` (`copra/src/dynamic_core.c:80-85`): `TRAVopt` on every child. -/
def chkKids (i : Nat) (cs : List Chk) : Kids → Res (List Report)
  | .nil => .ok []
  | .none r => chkKids i cs r
  | .some n r => do
    let a ← chk i cs n
    let b ← chkKids i cs r
    .ok (a ++ b)
end

end Verif.Life
