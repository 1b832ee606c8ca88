import Verif.Model.Propagate

/-!
# Model of reachability and of the dispatch tables of user traversals

`cocogen/frontend/reachability.c`, `cocogen/dynamic_backend/gen_node_trav_table.c` and
`cocogen/dynamic_backend/gen_trav_v_table.c`.

* A node is its `INODE_INDEX`: the parser gives each node another number
  (`cocogen/frontend/scanAndParse/dsl-parser.y:232-238`).  `nodes` is the list of the nodes in the order of the list in the
  tree.
* The pass runs after set expressions have been unwrapped: an expression is a tree of literals, here the list of them in the
  order in which they are visited (`cocogen/frontend/reachability.c:122-143`).
* `STlookup` of a name is resolved in the lists.
* The static variables are the state; `ste`, `ast` and `trav_index` are parameters.
-/

namespace Verif.Reach
open Verif.Propagate (Entry)

/-- What the type of a child is looked up to (`cocogen/frontend/reachability.c:100-102`). -/
inductive CType where
  | null
  | other
  | node (i : Nat)
  | set (j : Nat)
  deriving DecidableEq, Repr

/-- The grammar: the number of nodes, the list of nodes, the types of the children of a node and the literals of the
nodesets (`cocogen/main.ccn:606-615`, `679-711`). -/
structure Env where
  num : Nat
  nodes : List Nat
  kids : Nat → List CType
  sets : List (List Entry)

/-- The values of the matrix (`cocogen/frontend/reachability.h:4-6`); `zero` is what `memset` writes. -/
inductive Cell where
  | zero | notHandled | trav | user
  deriving DecidableEq, Repr

/-- `child_visited` and `child_is_reachable` (`cocogen/frontend/reachability.c:34-36`). -/
structure RS where
  visited : Nat → Bool
  reach : Bool

/-- `reach && reach != RCB_NODE_NOT_HANDLED` (`cocogen/frontend/reachability.c:109`, `133`). -/
def Cell.handled : Cell → Bool
  | .zero => false
  | .notHandled => false
  | .trav => true
  | .user => true

/-- `RCBsetliteral` for the literals of a nodeset (`cocogen/frontend/reachability.c:122-143`, not `is_traversal_nodes`);
`call` is what is done for the node. -/
def rcbLiterals (call : Nat → RS → Res RS) : List Entry → RS → Res RS
  | [], s => .ok s
  | .null :: _, _ => .ub "NODE_TYPE(NULL)"
  | .other :: _, _ => .abort "assert NT_INODE"
  | .node i :: rest, s => do
    let s ← call i s
    rcbLiterals call rest s

/-- `RCBinodeset` (`cocogen/frontend/reachability.c:92-96`): `TRAVchildren` also goes to the next nodeset.  The other
children of a nodeset have no handlers. -/
def RCBinodeset (call : Nat → RS → Res RS) : List (List Entry) → RS → Res RS
  | [], s => .ok s
  | l :: rest, s => do
    let s ← rcbLiterals call l s
    RCBinodeset call rest s

/-- The first half of `RCBchild` (`cocogen/frontend/reachability.c:100-115`). -/
def rcbType (env : Env) (call : Nat → RS → Res RS) : CType → RS → Res RS
  | .null, _ => .ub "NODE_TYPE(NULL)"
  | .other, _ => .abort "assert NT_INODE or NT_INODESET"
  | .set j, s => RCBinodeset call (env.sets.drop j) s
  | .node i, s => call i s

/-- `RCBchild` (`cocogen/frontend/reachability.c:98-120`). -/
def RCBchild (env : Env) (call : Nat → RS → Res RS) : List CType → RS → Res RS
  | [], s => .ok s
  | c :: rest, s => do
    let s ← rcbType env call c s
    match s.reach with
    | true => .ok s
    | false => RCBchild env call rest s

/-- The code that is the same in `RCBchild` and `RCBsetliteral` (`cocogen/frontend/reachability.c:106-114`, `130-138`). -/
def rcbNode (env : Env) (m : Nat → Cell) : Nat → Nat → RS → Res RS
  | 0, _, _ => .diverge
  | fuel + 1, i, s =>
    match decide (i < env.num) with
    | false => .ub "child_visited out of bounds"
    | true =>
      match s.visited i with
      | true => .ok s
      | false =>
        let s := { s with visited := fun k => if k = i then true else s.visited k }
        match (m i).handled with
        | true => .ok { s with reach := true }
        | false => RCBchild env (rcbNode env m fuel) (env.kids i) s

/-- `RCBinode` (`cocogen/frontend/reachability.c:77-90`). -/
def RCBinode (env : Env) (fuel : Nat) : List Nat → (Nat → Cell) → RS → Res ((Nat → Cell) × RS)
  | [], m, s => .ok (m, s)
  | i :: rest, m, s =>
    match decide (i < env.num) with
    | false => .ub "reachability_matrix out of bounds"
    | true =>
      match decide (m i = .zero) with
      | false => RCBinode env fuel rest m s
      | true => do
        let s ← RCBchild env (rcbNode env m fuel) (env.kids i) { visited := fun _ => false, reach := false }
        match s.reach with
        | true => RCBinode env fuel rest (fun k => if k = i then .trav else m k) s
        | false => RCBinode env fuel rest m s

/-- `RCBsetliteral` for the nodes of a traversal (`cocogen/frontend/reachability.c:122-143`, `is_traversal_nodes`). -/
def rcbTargets (env : Env) : List Entry → (Nat → Cell) → Res (Nat → Cell)
  | [], m => .ok m
  | .null :: _, _ => .ub "NODE_TYPE(NULL)"
  | .other :: _, _ => .abort "assert NT_INODE"
  | .node i :: rest, m =>
    match decide (i < env.num) with
    | false => .ub "reachability_matrix out of bounds"
    | true => rcbTargets env rest fun k => if k = i then .user else m k

/-- `RCBitraversal` for one traversal (`cocogen/frontend/reachability.c:54-71`): the row of the matrix.  An expression
without literals is `NULL`. -/
def RCBitraversal (env : Env) (fuel : Nat) (targets : List Entry) (s : RS) : Res ((Nat → Cell) × RS) :=
  match targets with
  | [] => .ok (fun k => if k < env.num then .user else .zero, s)
  | e :: l => do
    let m ← rcbTargets env (e :: l) fun _ => .zero
    RCBinode env fuel env.nodes m { s with reach := false }

/-- `RCBast` (`cocogen/frontend/reachability.c:42-52`): the rows of the traversals, each with its `ITRAVERSAL_INDEX`;
`numTravs` is `AST_NUM_TRAVERSALS`. -/
def RCBast (env : Env) (fuel numTravs : Nat) :
    List (Nat × List Entry) → (Nat → Option (Nat → Cell)) → RS → Res (Nat → Option (Nat → Cell))
  | [], rows, _ => .ok rows
  | (idx, targets) :: rest, rows, s =>
    match decide (idx < numTravs) with
    | false => .ub "reachability_matrix out of bounds"
    | true => do
      let (row, s) ← RCBitraversal env fuel targets s
      RCBast env fuel numTravs rest (fun k => if k = idx then some row else rows k) s

/-- An entry of a dispatch table (`cocogen/dynamic_backend/gen_node_trav_table.c:26-32`). -/
inductive Handler where
  | error | user (i : Nat) | children | nop
  deriving DecidableEq, Repr

/-- `DGNFTTinode` (`cocogen/dynamic_backend/gen_node_trav_table.c:22-38`) for the nodes in order. -/
def DGNFTTinode (row : Nat → Cell) : List Nat → List Handler
  | [] => []
  | i :: rest =>
    (match row i with
    | .user => Handler.user i
    | .trav => .children
    | .zero => .nop
    | .notHandled => .nop) :: DGNFTTinode row rest

/-- `DGTVitraversal` (`cocogen/dynamic_backend/gen_trav_v_table.c:25-35`): the tables in order. -/
def DGTVitraversal (env : Env) (rows : Nat → Option (Nat → Cell)) : List Nat → Res (List (List Handler))
  | [] => .ok []
  | idx :: rest =>
    match rows idx with
    | none => .ub "no such row"
    | some row => do
      let l ← DGTVitraversal env rows rest
      .ok ((.error :: DGNFTTinode row env.nodes) :: l)

end Verif.Reach
