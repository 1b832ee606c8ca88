import Verif.Model.Graph
import Verif.Model.Str

/-!
# Model of the dependency phase of the scheduler

`cocogen/frontend/attribute_scheduler/schedule_attribute_visits.c`, up to the point where the errors are counted
(line 560).  AST nodes and attributes are numbers (their addresses).  References are resolved: a reference holds the child
and the attribute (`cocogen/frontend/check_product_rules.c:139-197` fills them in).  The dump of the graphs to files, the
messages, and releasing memory are left out.
-/

namespace Verif.Induce
open Verif.Graph Verif.Str

/-- An attribute: its address, its name in lower case, and its kind (`cocogen/main.ccn:846-861`). -/
structure Attr where
  addr : Nat
  name : CStr
  inh : Bool
  syn : Bool
  deriving DecidableEq, Repr

/-- A child: its address and the address of the node or nodeset it has as type (`cocogen/main.ccn:761-774`). -/
structure Child where
  addr : Nat
  type : Nat
  deriving DecidableEq, Repr

/-- A resolved attribute reference: the child, none for the node itself, and the attribute (`cocogen/main.ccn:878-889`). -/
structure Ref where
  child : Option Nat
  attr : Attr
  deriving DecidableEq, Repr

/-- An equation (`cocogen/main.ccn:863-876`). -/
structure Eqn where
  rule : Ref
  args : List Ref
  deriving DecidableEq, Repr

/-- A node type (`cocogen/main.ccn:679-695`). -/
structure INode where
  addr : Nat
  attrs : List Attr
  children : List Child
  eqs : List Eqn
  deriving DecidableEq, Repr

/-- A nodeset (`cocogen/main.ccn:697-711`); the members are the node types its literals refer to, in the order of the list
that `add_nodeset_entries` builds (`cocogen/frontend/attribute_scheduler/schedule_attribute_visits.c:239-254`). -/
structure NSet where
  addr : Nat
  attrs : List Attr
  members : List INode
  deriving DecidableEq, Repr

/-- The part of a specification the scheduler looks at (`cocogen/main.ccn:606-623`). -/
structure Spec where
  nodes : List INode
  sets : List NSet
  deriving DecidableEq, Repr

/-- A place in a graph: an AST node and an attribute (`cocogen/frontend/attribute_scheduler/graph.h:5-9`). -/
abbrev Place := Nat × Nat

/-- An edge between places (`cocogen/frontend/attribute_scheduler/graph.h:23-27`). -/
abbrev PEdge := Place × Place

/-- `ATTRIBUTE_IS_INHERITED(attr) || ATTRIBUTE_IS_SYNTHESIZED(attr)`
(`cocogen/frontend/attribute_scheduler/schedule_attribute_visits.c:189`). -/
def computed (a : Attr) : Bool := a.inh || a.syn

/-- `get_node_type` (`cocogen/frontend/attribute_scheduler/common.h:35-44`): the type of a child, or the node or nodeset
itself. -/
def get_node_type (S : Spec) (o : Nat) : Nat :=
  match (S.nodes.flatMap fun n => n.children).find? fun c => c.addr == o with
  | some c => c.type
  | none => o

/-- `get_node_attributes` of a node or nodeset that the symbol table has
(`cocogen/frontend/attribute_scheduler/common.h:15-22`); NULL would be dereferenced. -/
def get_node_attributes (S : Spec) (t : Nat) : Res (List Attr) :=
  match S.nodes.find? fun n => n.addr == t with
  | some n => .ok n.attrs
  | none =>
    match S.sets.find? fun s => s.addr == t with
    | some s => .ok s.attrs
    | none => .ub "NODE_TYPE(NULL)"

/-- `add_attributes` (`cocogen/frontend/attribute_scheduler/schedule_attribute_visits.c:185-193`). -/
def add_attributes (g : Graph) (node : Nat) : List Attr → Res Graph
  | [] => .ok g
  | a :: rest =>
    match computed a with
    | true => do
      let (_, g) ← GRadd_node g node a.addr
      add_attributes g node rest
    | false => add_attributes g node rest

/-- The loop over the children in `generate_graph_node`
(`cocogen/frontend/attribute_scheduler/schedule_attribute_visits.c:334-339`). -/
def addChildren (S : Spec) (g : Graph) : List Child → Res Graph
  | [] => .ok g
  | c :: rest => do
    let as ← get_node_attributes S c.type
    let g ← add_attributes g c.addr as
    addChildren S g rest

/-- The places of an edge of a graph.  Positions are those of nodes of the graph
(`cocogen/frontend/attribute_scheduler/graph.c:275-286`). -/
def placed (g : Graph) (p : Nat × Nat) : PEdge := ((g.nodes[p.1]?).getD (0, 0), (g.nodes[p.2]?).getD (0, 0))

/-- The AST node of a reference (`cocogen/frontend/attribute_scheduler/schedule_attribute_visits.c:343-349`, `362-366`). -/
def refOwner (n : INode) (r : Ref) : Nat :=
  match r.child with
  | none => n.addr
  | some c => c

/-- `handle_graph_error` (`cocogen/frontend/attribute_scheduler/schedule_attribute_visits.c:157-183`): errors are
counted. -/
def counted (errors : Nat) (e : Option GErr) : Nat :=
  match e with
  | none => errors
  | some _ => errors + 1

/-- The loop over the arguments of an equation
(`cocogen/frontend/attribute_scheduler/schedule_attribute_visits.c:353-373`).  The list has the new edges inside a node,
the newest first; here and below lists of new edges have places instead of pointers to graph nodes. -/
def addArgs (n : INode) (n2 : Nat) (g : Graph) (edges : List PEdge) (errors : Nat) :
    List Ref → Res (Graph × List PEdge × Nat)
  | [] => .ok (g, edges, errors)
  | d :: rest =>
    match computed d.attr with
    | false => addArgs n n2 g edges errors rest
    | true =>
      match GRlookup_node g (refOwner n d) d.attr.addr with
      | none => .abort "assert n1"
      | some n1 => do
        let (e, g) ← GRadd_edge g n1 n2 .normal
        let edges :=
          match decide (owner g n1 = owner g n2) with
          | true => placed g (n1, n2) :: edges
          | false => edges
        addArgs n n2 g edges (counted errors e) rest

/-- The loop over the equations (`cocogen/frontend/attribute_scheduler/schedule_attribute_visits.c:341-374`). -/
def addEqns (n : INode) (g : Graph) (edges : List PEdge) (errors : Nat) : List Eqn → Res (Graph × List PEdge × Nat)
  | [] => .ok (g, edges, errors)
  | e :: rest =>
    match GRlookup_node g (refOwner n e.rule) e.rule.attr.addr with
    | none => .abort "assert n2"
    | some n2 => do
      let (g, edges, errors) ← addArgs n n2 g edges errors e.args
      addEqns n g edges errors rest

/-- `GRclose_transitivity` with its error counted, and the places of the edges it adds inside a node put in front of a
list (`cocogen/frontend/attribute_scheduler/schedule_attribute_visits.c:317`, `375`, `403`). -/
def closeInto (fuel : Nat) (g : Graph) (edges : List PEdge) (errors : Nat) : Res (Graph × List PEdge × Nat) := do
  let st ← GRclose_transitivity fuel g []
  .ok (st.graph, st.added.map (placed st.graph) ++ edges, counted errors st.err)

/-- `generate_graph_node` (`cocogen/frontend/attribute_scheduler/schedule_attribute_visits.c:328-378`). -/
def generate_graph_node (fuel : Nat) (S : Spec) (n : INode) (errors : Nat) : Res (Graph × List PEdge × Nat) := do
  let g ← add_attributes GRnew n.addr n.attrs
  let g ← addChildren S g n.children
  let (g, edges, errors) ← addEqns n g [] errors n.eqs
  closeInto fuel g edges errors

/-- `get_equivalent_attribute` (`cocogen/frontend/attribute_scheduler/schedule_attribute_visits.c:264-276`): the last
attribute of that name. -/
def get_equivalent_attribute (a : Attr) (n : INode) : Res Attr :=
  match n.attrs.reverse.find? fun c => STReq (some a.name) (some c.name) with
  | some c => .ok c
  | none => .abort "assert equiv_attr"

/-- `GRlookup_node`, and `GRadd_node` if there is none
(`cocogen/frontend/attribute_scheduler/schedule_attribute_visits.c:298-306`). -/
def lookupOrAdd (g : Graph) (node attr : Nat) : Res (Nat × Graph) :=
  match GRlookup_node g node attr with
  | some i => .ok (i, g)
  | none => GRadd_node g node attr

/-- `handle_graph_error(GRadd_edge(…))` under a condition
(`cocogen/frontend/attribute_scheduler/schedule_attribute_visits.c:308-314`). -/
def edgeIf (b : Bool) (g : Graph) (n1 n2 errors : Nat) : Res (Graph × Nat) :=
  match b with
  | false => .ok (g, errors)
  | true => do
    let (e, g) ← GRadd_edge g n1 n2 .normal
    .ok (g, counted errors e)

/-- The loop over the attributes of a nodeset for one member
(`cocogen/frontend/attribute_scheduler/schedule_attribute_visits.c:291-315`). -/
def linkAttrs (s m : Nat) (n : INode) (g : Graph) (errors : Nat) : List Attr → Res (Graph × Nat)
  | [] => .ok (g, errors)
  | a :: rest =>
    match computed a with
    | false => linkAttrs s m n g errors rest
    | true => do
      let (n1, g) ← lookupOrAdd g s a.addr
      let b ← get_equivalent_attribute a n
      let (n2, g) ← lookupOrAdd g m b.addr
      let (g, errors) ← edgeIf a.inh g n1 n2 errors
      let (g, errors) ← edgeIf a.syn g n2 n1 errors
      linkAttrs s m n g errors rest

/-- The body of the loop over the members in `generate_graph_nodeset`
(`cocogen/frontend/attribute_scheduler/schedule_attribute_visits.c:286-317`). -/
def memberGraph (fuel : Nat) (s : NSet) (n : INode) (edges : List PEdge) (errors : Nat) : Res (Graph × List PEdge × Nat) := do
  let g ← add_attributes GRnew s.addr s.attrs
  let g ← add_attributes g n.addr s.attrs
  let (g, errors) ← linkAttrs s.addr n.addr n g errors s.attrs
  closeInto fuel g edges errors

/-- The loop over the members (`cocogen/frontend/attribute_scheduler/schedule_attribute_visits.c:286-323`); graphs are put
in front of the list. -/
def memberGraphs (fuel : Nat) (s : NSet) (gs : List Graph) (edges : List PEdge) (errors : Nat) :
    List INode → Res (List Graph × List PEdge × Nat)
  | [] => .ok (gs, edges, errors)
  | n :: rest => do
    let (g, edges, errors) ← memberGraph fuel s n edges errors
    memberGraphs fuel s (g :: gs) edges errors rest

/-- `combine_edgelists` (`cocogen/frontend/attribute_scheduler/schedule_attribute_visits.c:206-237`).  The table of induced
edges has the same edges as the list: both start empty and are added to together. -/
def combine_edgelists (S : Spec) (list : List PEdge) : List PEdge → List PEdge
  | [] => list
  | e :: rest =>
    let e' : PEdge := ((get_node_type S e.1.1, e.1.2), (get_node_type S e.2.1, e.2.2))
    match list.contains e' with
    | true => combine_edgelists S list rest
    | false => combine_edgelists S (e' :: list) rest

/-- The state of `SAVast`: the table of graphs, the list of induced edges, and the number of errors
(`cocogen/frontend/attribute_scheduler/schedule_attribute_visits.c:497-503`). -/
structure Sav where
  graphs : List (Nat × List Graph)
  induced : List PEdge
  errors : Nat

/-- The first loop of `SAVast` (`cocogen/frontend/attribute_scheduler/schedule_attribute_visits.c:506-515`). -/
def nodeGraphs (fuel : Nat) (S : Spec) : List INode → Sav → Res Sav
  | [], st => .ok st
  | n :: rest, st => do
    let (g, edges, errors) ← generate_graph_node fuel S n st.errors
    nodeGraphs fuel S rest ⟨st.graphs ++ [(n.addr, [g])], combine_edgelists S st.induced edges, errors⟩

/-- The second loop of `SAVast` (`cocogen/frontend/attribute_scheduler/schedule_attribute_visits.c:518-524`). -/
def setGraphs (fuel : Nat) (S : Spec) : List NSet → Sav → Res Sav
  | [], st => .ok st
  | s :: rest, st => do
    let (gs, edges, errors) ← memberGraphs fuel s [] [] st.errors s.members
    setGraphs fuel S rest ⟨st.graphs ++ [(s.addr, gs)], combine_edgelists S st.induced edges, errors⟩

/-- The body of the inner loop of `add_induced_edges`
(`cocogen/frontend/attribute_scheduler/schedule_attribute_visits.c:387-399`) for one edge and one node of the graph. -/
def addInducedAt (S : Spec) (e : PEdge) (node : Place) (g : Graph) (errors : Nat) : Res (Graph × Nat) :=
  match decide (e.1.1 = get_node_type S node.1) with
  | false => .ok (g, errors)
  | true =>
    match GRlookup_node g node.1 e.1.2, GRlookup_node g node.1 e.2.2 with
    | some i, some j =>
      match GRlookup_edge g i j false with
      | true => .ok (g, errors)
      | false => do
        let (r, g) ← GRadd_edge g i j .induced
        .ok (g, counted errors r)
    | _, _ => .ok (g, errors)

/-- The inner loop of `add_induced_edges` (`cocogen/frontend/attribute_scheduler/schedule_attribute_visits.c:385-400`). -/
def addInducedNodes (S : Spec) (e : PEdge) (g : Graph) (errors : Nat) : List Place → Res (Graph × Nat)
  | [] => .ok (g, errors)
  | p :: rest => do
    let (g, errors) ← addInducedAt S e p g errors
    addInducedNodes S e g errors rest

/-- The outer loop of `add_induced_edges` (`cocogen/frontend/attribute_scheduler/schedule_attribute_visits.c:382-401`). -/
def addInducedAll (S : Spec) (g : Graph) (errors : Nat) : List PEdge → Res (Graph × Nat)
  | [] => .ok (g, errors)
  | e :: rest => do
    let (g, errors) ← addInducedNodes S e g errors g.nodes
    addInducedAll S g errors rest

/-- `add_induced_edges` (`cocogen/frontend/attribute_scheduler/schedule_attribute_visits.c:380-404`). -/
def add_induced_edges (fuel : Nat) (S : Spec) (g : Graph) (current : List PEdge) (errors : Nat) :
    Res (Graph × List PEdge × Nat) := do
  let (g, errors) ← addInducedAll S g errors current
  closeInto fuel g [] errors

/-- The innermost loop of a round (`cocogen/frontend/attribute_scheduler/schedule_attribute_visits.c:538-543`). -/
def roundGraphs (fuel : Nat) (S : Spec) (current : List PEdge) (induced : List PEdge) (errors : Nat) :
    List Graph → Res (List Graph × List PEdge × Nat)
  | [] => .ok ([], induced, errors)
  | g :: rest => do
    let (g, edges, errors) ← add_induced_edges fuel S g current errors
    let (gs, induced, errors) ← roundGraphs fuel S current (combine_edgelists S induced edges) errors rest
    .ok (g :: gs, induced, errors)

/-- One round over the table of graphs (`cocogen/frontend/attribute_scheduler/schedule_attribute_visits.c:536-544`). -/
def roundKeys (fuel : Nat) (S : Spec) (current : List PEdge) (induced : List PEdge) (errors : Nat) :
    List (Nat × List Graph) → Res (List (Nat × List Graph) × List PEdge × Nat)
  | [] => .ok ([], induced, errors)
  | (k, gs) :: rest => do
    let (gs, induced, errors) ← roundGraphs fuel S current induced errors gs
    let (r, induced, errors) ← roundKeys fuel S current induced errors rest
    .ok ((k, gs) :: r, induced, errors)

/-- The loop over the rounds (`cocogen/frontend/attribute_scheduler/schedule_attribute_visits.c:531-552`); `fuel` bounds
the number of rounds and of passes in closing a graph. -/
def rounds (fuel : Nat) (S : Spec) : Nat → Sav → Res Sav
  | 0, _ => .diverge
  | k + 1, st =>
    match st.induced with
    | [] => .ok st
    | _ :: _ => do
      let (gs, induced, errors) ← roundKeys fuel S st.induced [] st.errors st.graphs
      rounds fuel S k ⟨gs, induced, errors⟩

/-- The part of `SAVast` up to the check of the errors
(`cocogen/frontend/attribute_scheduler/schedule_attribute_visits.c:496-560`).  `order` is the order in which the hash table
of graphs is iterated: any rearrangement of its entries, which depends on addresses. -/
def SAVast_graphs (fuel : Nat) (order : List (Nat × List Graph) → List (Nat × List Graph)) (S : Spec) : Res Sav := do
  let st ← nodeGraphs fuel S S.nodes ⟨[], [], 0⟩
  let st ← setGraphs fuel S S.sets st
  rounds fuel S fuel ⟨order st.graphs, st.induced, st.errors⟩

end Verif.Induce
