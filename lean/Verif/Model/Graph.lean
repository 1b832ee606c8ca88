import Verif.Base

/-!
# Model of attribute dependency graphs (`cocogen/frontend/attribute_scheduler/graph.c`)

A node of the graph is a pair of pointers, to an AST node (a node type or a child) and to one of its attributes; both
are numbers.  `struct GRnode *` is modelled by the position in `graph->nodes`: nodes are appended and never removed.
The hash tables are modelled by the finite maps they implement (properties C01–C03).
-/

namespace Verif.Graph

/-- `enum GRedge_type` (`cocogen/frontend/attribute_scheduler/graph.h:16-21`). -/
inductive EdgeType where
  | normal | induced | intravisit | intravisitInduced
  deriving DecidableEq, Repr

/-- `struct GRerror` (`cocogen/frontend/attribute_scheduler/graph.h:42-58`), apart from `GR_error_none`: the type of the
edge and the two nodes. -/
structure GErr where
  type : EdgeType
  n1 : Nat
  n2 : Nat
  deriving DecidableEq, Repr

/-- `struct GRgraph` with its internals (`cocogen/frontend/attribute_scheduler/graph.h:36-40`,
`cocogen/frontend/attribute_scheduler/graph.c:14-19`): the nodes (AST node and attribute), the edge table, and the list
of edges. -/
structure Graph where
  nodes : List (Nat × Nat)
  edge : Nat → Nat → Option EdgeType
  edges : List (Nat × Nat × EdgeType)

/-- `GRnew` (`cocogen/frontend/attribute_scheduler/graph.c:62-81`). -/
def GRnew : Graph := { nodes := [], edge := fun _ _ => none, edges := [] }

/-- Position of a node in the list. -/
def findNode (n : Nat × Nat) : List (Nat × Nat) → Option Nat
  | [] => none
  | m :: rest => if m = n then some 0 else (findNode n rest).map (· + 1)

/-- `GRlookup_node` (`cocogen/frontend/attribute_scheduler/graph.c:153-158`). -/
def GRlookup_node (g : Graph) (node attr : Nat) : Option Nat := findNode (node, attr) g.nodes

/-- `GRadd_node` (`cocogen/frontend/attribute_scheduler/graph.c:131-151`). -/
def GRadd_node (g : Graph) (node attr : Nat) : Res (Nat × Graph) :=
  match GRlookup_node g node attr with
  | some _ => .abort "assert node is new"
  | none => .ok (g.nodes.length, { g with nodes := g.nodes ++ [(node, attr)] })

/-- `add_edge_internal` (`cocogen/frontend/attribute_scheduler/graph.c:198-220`). -/
def addEdge (g : Graph) (n1 n2 : Nat) (t : EdgeType) : Res Graph :=
  match g.edge n1 n2 with
  | some _ => .abort "assert edge is new"
  | none => .ok { g with
      edge := fun a b => if a = n1 ∧ b = n2 then some t else g.edge a b
      edges := g.edges ++ [(n1, n2, t)] }

/-- `check_cycle` (`cocogen/frontend/attribute_scheduler/graph.c:222-250`). -/
def checkCycle (g : Graph) (n1 n2 : Nat) (t : EdgeType) : Option GErr :=
  match g.edge n2 n1 with
  | some _ => some ⟨t, n1, n2⟩
  | none => none

/-- `GRadd_edge` (`cocogen/frontend/attribute_scheduler/graph.c:252-260`). -/
def GRadd_edge (g : Graph) (n1 n2 : Nat) (t : EdgeType) : Res (Option GErr × Graph) :=
  match checkCycle g n1 n2 t with
  | some e => .ok (some e, g)
  | none => do
    let g ← addEdge g n1 n2 t
    .ok (none, g)

/-- `GRlookup_edge` (`cocogen/frontend/attribute_scheduler/graph.c:262-273`): is there an edge, with intravisit edges
only if asked for. -/
def GRlookup_edge (g : Graph) (src dst : Nat) (intravisit : Bool) : Bool :=
  match g.edge src dst with
  | none => false
  | some .intravisit => intravisit
  | some .intravisitInduced => intravisit
  | some _ => true

/-- The node (or child) a graph node belongs to. -/
def owner (g : Graph) (i : Nat) : Option Nat := (g.nodes[i]?).map (·.1)

/-- State of `GRclose_transitivity`: the graph, `*added_edges` (newest first), `changed`, and the error once there is
one. -/
structure Close where
  graph : Graph
  added : List (Nat × Nat)
  changed : Bool
  err : Option GErr

/-- The innermost loop of `GRclose_transitivity` (`cocogen/frontend/attribute_scheduler/graph.c:300-305`): is there a
node to go through. -/
def via (g : Graph) (i j : Nat) : List Nat → Bool
  | [] => false
  | k :: ks => (i ≠ k && j ≠ k && (g.edge i k).isSome && (g.edge k j).isSome) || via g i j ks

/-- The body of the second loop (`cocogen/frontend/attribute_scheduler/graph.c:296-319`) for the nodes `i` and `j`.  The
type is `true`, that is `GRinduced`. -/
def closePair (i j : Nat) (st : Close) : Res Close :=
  match decide (i = j) || (st.graph.edge i j).isSome with
  | true => .ok st
  | false =>
    match via st.graph i j (List.range st.graph.nodes.length) with
    | false => .ok st
    | true => do
      let g ← addEdge st.graph i j .induced
      .ok { graph := g
            added := if owner g i = owner g j then (i, j) :: st.added else st.added
            changed := true
            err := checkCycle g i j .induced }

/-- The second loop (`cocogen/frontend/attribute_scheduler/graph.c:295-320`); an error ends everything. -/
def closeRow (i : Nat) : List Nat → Close → Res Close
  | [], st => .ok st
  | j :: js, st => do
    let st ← closePair i j st
    match st.err with
    | some _ => .ok st
    | none => closeRow i js st

/-- The outer `for` loop (`cocogen/frontend/attribute_scheduler/graph.c:294-321`). -/
def closeRows : List Nat → Close → Res Close
  | [], st => .ok st
  | i :: is, st => do
    let st ← closeRow i (List.range st.graph.nodes.length) st
    match st.err with
    | some _ => .ok st
    | none => closeRows is st

/-- The `do … while (changed)` loop (`cocogen/frontend/attribute_scheduler/graph.c:292-322`). -/
def closeLoop : Nat → Close → Res Close
  | 0, _ => .diverge
  | fuel + 1, st => do
    let st ← closeRows (List.range st.graph.nodes.length) { st with changed := false }
    match st.err, st.changed with
    | some _, _ => .ok st
    | none, true => closeLoop fuel st
    | none, false => .ok st

/-- `GRclose_transitivity` (`cocogen/frontend/attribute_scheduler/graph.c:288-324`). -/
def GRclose_transitivity (fuel : Nat) (g : Graph) (added : List (Nat × Nat)) : Res Close :=
  closeLoop fuel { graph := g, added := added, changed := false, err := none }

/-- How the scheduler adds the dependencies of a node's equations
(`cocogen/frontend/attribute_scheduler/schedule_attribute_visits.c:338-374`): every error is counted
(`handle_graph_error`) and the loop goes on.  The pairs are positions of nodes that were looked up.  The type is
`false`, that is `GRnormal`. -/
def addDeps (g : Graph) (added : List (Nat × Nat)) (errors : Nat) : List (Nat × Nat) → Res (Graph × List (Nat × Nat) × Nat)
  | [] => .ok (g, added, errors)
  | (n1, n2) :: rest => do
    let (e, g) ← GRadd_edge g n1 n2 .normal
    let errors := if e.isSome then errors + 1 else errors
    let added := if owner g n1 = owner g n2 then (n1, n2) :: added else added
    addDeps g added errors rest

/-- The end of `generate_graph_node` (`cocogen/frontend/attribute_scheduler/schedule_attribute_visits.c:338-378`): add
the dependencies of the equations, and close.  The result is the graph, the edges inside a node, and the number of
errors. -/
def graphOf (fuel : Nat) (g : Graph) (deps : List (Nat × Nat)) : Res (Graph × List (Nat × Nat) × Nat) := do
  let (g, added, errors) ← addDeps g [] 0 deps
  let st ← GRclose_transitivity fuel g added
  .ok (st.graph, st.added, if st.err.isSome then errors + 1 else errors)

end Verif.Graph
