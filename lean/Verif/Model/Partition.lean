import Verif.Model.Graph
import Verif.Model.Queue
import Verif.Model.Str

/-!
# Model of the partitioning of attributes and the collection of visits

`cocogen/frontend/attribute_scheduler/partition_nodes.c` and `cocogen/frontend/attribute_scheduler/collect_visits.c`.

The AST is seen through two functions of attribute pointers.  A graph node is its position in `graph->nodes` (see
`Verif.Model.Graph`).  A partition table maps lower-case attribute names to partition numbers; 0 is `NULL`, "not there".
The keys are compared as strings, as `HTnew_String` does.
-/

namespace Verif.Partition
open Verif.Graph Verif.Queue

/-- What the scheduler reads of the attributes: `ID_LWR(ATTRIBUTE_NAME(a))` and `ATTRIBUTE_IS_SYNTHESIZED(a)`
(`cocogen/frontend/attribute_scheduler/partition_nodes.c:22-23`).  Only inherited and synthesized attributes are in a
graph (`cocogen/frontend/attribute_scheduler/schedule_attribute_visits.c:186-194`), and no attribute is both, so
`ATTRIBUTE_IS_INHERITED` is the negation. -/
structure Attrs where
  name : Nat → Str.CStr
  syn : Nat → Bool

/-- A partition table (`cocogen/frontend/attribute_scheduler/partition_nodes.c:12`). -/
abbrev Table := Str.CStr → Nat

/-- `HTinsert` for a key that is not there (`cocogen/frontend/attribute_scheduler/partition_nodes.c:31`). -/
def Table.insert (T : Table) (s : Str.CStr) (p : Nat) : Table := fun x => if x = s then p else T x

/-- `node->attribute`; the positions in use are valid (`cocogen/frontend/attribute_scheduler/graph.h:10-14`). -/
def attrOf (g : Graph) (i : Nat) : Nat := ((g.nodes[i]?).map (·.2)).getD 0

/-- `ID_LWR(ATTRIBUTE_NAME(node->attribute))` (`cocogen/frontend/attribute_scheduler/partition_nodes.c:22`). -/
def nameOf (A : Attrs) (g : Graph) (i : Nat) : Str.CStr := A.name (attrOf g i)

/-- `ATTRIBUTE_IS_SYNTHESIZED(node->attribute)` (`cocogen/frontend/attribute_scheduler/partition_nodes.c:23`). -/
def synOf (A : Attrs) (g : Graph) (i : Nat) : Bool := A.syn (attrOf g i)

/-- `GRget_inter_node_dependencies` (`cocogen/frontend/attribute_scheduler/graph.c:160-177`); the list is built from the
back. -/
def GRget_inter_node_dependencies (g : Graph) (node : Nat) : List Nat :=
  ((List.range g.nodes.length).filter fun dep =>
    decide (dep ≠ node) && decide (owner g dep = owner g node) && GRlookup_edge g dep node false).reverse

/-- The loop over the dependencies (`cocogen/frontend/attribute_scheduler/partition_nodes.c:39-57`): the state is
`max_partition` and `assignable`. -/
def scanDeps (A : Attrs) (g : Graph) (T : Table) : List Nat → Nat → Bool → Nat × Bool
  | [], m, b => (m, b)
  | dep :: rest, m, b =>
    match T (nameOf A g dep) with
    | 0 => scanDeps A g T rest m false
    | p + 1 => scanDeps A g T rest (if p + 1 > m then p + 1 else m) b

/-- The body of the main loop (`cocogen/frontend/attribute_scheduler/partition_nodes.c:22-70`) for one graph node. -/
def partStep (A : Attrs) (g : Graph) (node : Nat) (q : Queue Nat) (T : Table) : Res (Queue Nat × Table) :=
  match T (nameOf A g node) with
  | _ + 1 => .ok (q, T)
  | 0 =>
    match GRget_inter_node_dependencies g node with
    | [] => .ok (q, T.insert (nameOf A g node) (if synOf A g node then 3 else 2))
    | dep :: deps =>
      match scanDeps A g T (dep :: deps) 0 true with
      | (_, false) => do
        let q ← QUinsert q (some node)
        .ok (q, T)
      | (m, true) =>
        .ok (q, T.insert (nameOf A g node) (if synOf A g node = decide (m % 2 = 1) then m else m + 1))

/-- The main loop (`cocogen/frontend/attribute_scheduler/partition_nodes.c:21-71`). -/
def partLoop (A : Attrs) (g : Graph) : Nat → Queue Nat → Table → Res (Queue Nat × Table)
  | 0, _, _ => .diverge
  | fuel + 1, q, T => do
    let (node, q) ← QUpop q
    match node with
    | none => .ok (q, T)
    | some node => do
      let (q, T) ← partStep A g node q T
      partLoop A g fuel q T

/-- The first loop (`cocogen/frontend/attribute_scheduler/partition_nodes.c:15-19`). -/
def fillQueue (g : Graph) (tnode : Nat) : List Nat → Queue Nat → Res (Queue Nat)
  | [], q => .ok q
  | i :: rest, q =>
    match decide (owner g i = some tnode) with
    | true => do
      let q ← QUinsert q (some i)
      fillQueue g tnode rest q
    | false => fillQueue g tnode rest q

/-- `partition_nodes` (`cocogen/frontend/attribute_scheduler/partition_nodes.c:11-75`). -/
def partition_nodes (A : Attrs) (fuel : Nat) (g : Graph) (tnode : Nat) : Res Table := do
  let q ← fillQueue g tnode (List.range g.nodes.length) QUcreate
  let (q, T) ← partLoop A g fuel q fun _ => 0
  QUdelete q
  .ok T

/-- `struct visit` (`cocogen/frontend/attribute_scheduler/collect_visits.h`) without its index, which is its position. -/
structure Visit where
  inputs : List Nat
  outputs : List Nat
  deriving DecidableEq, Repr

/-- The visits grow to `visit_index + 1` entries (`cocogen/frontend/attribute_scheduler/collect_visits.c:67-79`). -/
def growVisits (vs : List Visit) (k : Nat) : List Visit := vs ++ List.replicate (k + 1 - vs.length) ⟨[], []⟩

/-- `visit->inputs[…] = gnode` or `visit->outputs[…] = gnode`
(`cocogen/frontend/attribute_scheduler/collect_visits.c:83-97`). -/
def Visit.put (v : Visit) (synthesized : Bool) (i : Nat) : Visit :=
  match synthesized with
  | false => { v with inputs := v.inputs ++ [i] }
  | true => { v with outputs := v.outputs ++ [i] }

/-- The body of the loop of `collect_visits` (`cocogen/frontend/attribute_scheduler/collect_visits.c:59-97`); the number
counts the errors of `lookup_partition` (`cocogen/frontend/attribute_scheduler/collect_visits.c:16-47`), which for a graph
node of a node type or nodeset looks into that node's own table.  For partition 1, `1 / 2 - 1` wraps around to
`SIZE_MAX` and the loop that initialises the visits leaves the array. -/
def collectStep (A : Attrs) (g : Graph) (T : Table) (i : Nat) (vs : List Visit) (errors : Nat) : Res (List Visit × Nat) :=
  match T (nameOf A g i) with
  | 1 => .ub "visits->visits[i] out of bounds"
  | 0 => .ok ((growVisits vs 0).modify 0 fun v => v.put (synOf A g i) i, errors + 1)
  | p + 2 => .ok ((growVisits vs ((p + 2) / 2 - 1)).modify ((p + 2) / 2 - 1) fun v => v.put (synOf A g i) i, errors)

/-- The loop of `collect_visits` (`cocogen/frontend/attribute_scheduler/collect_visits.c:54-98`). -/
def collectLoop (A : Attrs) (g : Graph) (node : Nat) (T : Table) : List Nat → List Visit → Nat → Res (List Visit × Nat)
  | [], vs, errors => .ok (vs, errors)
  | i :: rest, vs, errors =>
    match decide (owner g i = some node) with
    | false => collectLoop A g node T rest vs errors
    | true => do
      let (vs, errors) ← collectStep A g T i vs errors
      collectLoop A g node T rest vs errors

/-- `collect_visits` (`cocogen/frontend/attribute_scheduler/collect_visits.c:49-100`). -/
def collect_visits (A : Attrs) (g : Graph) (node : Nat) (T : Table) : Res (List Visit × Nat) :=
  collectLoop A g node T (List.range g.nodes.length) [] 0

end Verif.Partition
