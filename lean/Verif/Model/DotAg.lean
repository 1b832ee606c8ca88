import Verif.Model.Graph
import Verif.Model.Ids
import Verif.Model.GenFiles

/-!
# Model of the diagrams of dependencies, `cocogen/dot/gen_dot_ag.c`

The text is represented by its parts: clusters with a label, vertices in them, and edges.  Colours, styles other than that of induced edges, and the
first and last line of the file are left out.  `seen` is a hash table of texts and is modelled by the list of its keys.
-/

namespace Verif.DotAg
open Verif.Str Verif.Ids Verif.Graph

/-- What the nodes of a graph point to (`get_node_name`, `cocogen/dot/gen_dot_ag.c:16-25`): the name of a node or child, for children the name of what
`STlookup` finds for their type (`82-87`; it is there, since references are checked), and the name of an attribute. -/
structure Names where
  name : Nat → Id
  type : Nat → Option Id
  attr : Nat → Id

/-- What `lookup_partition` finds for a node of the graph (`cocogen/dot/gen_dot_ag.c:46-51`): no table, a table without the attribute, with or without
other entries, or a number. -/
inductive Lookup where
  | noTable
  | missing (empty : Bool)
  | found (part : Nat)

/-- `lookup_partition` (`cocogen/dot/gen_dot_ag.c:35-63`).  The keys of the table are texts (`50-51`;
`cocogen/frontend/attribute_scheduler/partition_nodes.c:12`) and are used as attributes (`54-57`).  What is written to `stderr` is left out. -/
def lookup_partition : Lookup → Res Nat
  | .noTable => .ok 0
  | .missing true => .ok 0
  | .missing false => .ub "a text as attribute"
  | .found n => .ok n

/-- What is printed behind an attribute (`cocogen/dot/gen_dot_ag.c:99-104`): nothing, or that there is no partition. -/
inductive Mark where
  | absent | nan
  deriving DecidableEq, Repr

/-- The number of the partition (`cocogen/dot/gen_dot_ag.c:99-110`).  For a number other than 0, the format has `%d`, and the argument is `size_t`:
`vfprintf` (`cocogen/generator/generator.c:109`) has no defined behaviour for an argument that is not of the type of its conversion (ISO/IEC 9899:1999, 7.19.6.1, 9). -/
def mark (parts : Option (Nat × Nat → Lookup)) (x : Nat × Nat) : Res Mark :=
  match parts with
  | none => .ok .absent
  | some f => do
    let p ← lookup_partition (f x)
    if p = 0 then .ok .nan else .ub "%d for size_t"

/-- A vertex (`cocogen/dot/gen_dot_ag.c:95-111`): its name, and its label. -/
structure Vertex where
  id : CStr
  label : CStr
  mark : Mark
  deriving DecidableEq, Repr

/-- A cluster (`cocogen/dot/gen_dot_ag.c:79-113`): its name, the two parts of its label, and its vertices. -/
structure Cluster where
  id : CStr
  type : Option CStr
  name : CStr
  vertices : List Vertex
  deriving DecidableEq, Repr

/-- An edge between vertices (`cocogen/dot/gen_dot_ag.c:127-135`); dotted or not. -/
structure Edge where
  src : CStr
  dst : CStr
  dotted : Bool
  deriving DecidableEq, Repr

/-- What is printed for a graph (`cocogen/dot/gen_dot_ag.c:65-140`). -/
structure Drawing where
  clusters : List Cluster
  edges : List Edge
  deriving DecidableEq, Repr

/-- `attr_%s__%s__%s` (`cocogen/dot/gen_dot_ag.c:95-96`, `127-131`). -/
def vertexName (prod : CStr) (N : Names) (x : Nat × Nat) : CStr :=
  b!"attr_" ++ (prod ++ (b!"__" ++ ((N.name x.1).lwr ++ (b!"__" ++ (N.attr x.2).lwr))))

/-- The inner loop (`cocogen/dot/gen_dot_ag.c:90-112`). -/
def attrs (prod : CStr) (N : Names) (parts : Option (Nat × Nat → Lookup)) (node : Nat) : List (Nat × Nat) → Res (List Vertex)
  | [] => .ok []
  | x :: rest =>
    match decide (x.1 = node) with
    | false => attrs prod N parts node rest
    | true => do
      let m ← mark parts x
      let l ← attrs prod N parts node rest
      .ok (⟨vertexName prod N x, (N.attr x.2).orig, m⟩ :: l)

/-- The outer loop (`cocogen/dot/gen_dot_ag.c:74-115`); `all` is `graph->nodes`. -/
def clusters (prod : CStr) (N : Names) (parts : Option (Nat × Nat → Lookup)) (all : List (Nat × Nat)) : List CStr → List (Nat × Nat) → Res (List Cluster)
  | _, [] => .ok []
  | seen, x :: rest =>
    match decide ((N.name x.1).lwr ∈ seen) with
    | true => clusters prod N parts all seen rest
    | false => do
      let vs ← attrs prod N parts x.1 all
      let l ← clusters prod N parts all ((N.name x.1).lwr :: seen) rest
      .ok (⟨prod ++ (b!"__" ++ (N.name x.1).lwr), (N.type x.1).map (·.orig), (N.name x.1).orig, vs⟩ :: l)

/-- The loop over edges (`cocogen/dot/gen_dot_ag.c:117-136`). -/
def edges (prod : CStr) (N : Names) (nodes : List (Nat × Nat)) : List (Nat × Nat × EdgeType) → Res (List Edge)
  | [] => .ok []
  | (i, j, t) :: rest =>
    match nodes[i]?, nodes[j]? with
    | some x, some y =>
      match decide (t = .induced ∧ x.1 ≠ y.1) with
      | true => edges prod N nodes rest
      | false => do
        let l ← edges prod N nodes rest
        .ok (⟨vertexName prod N x, vertexName prod N y, decide (t = .induced)⟩ :: l)
    | _, _ => .ub "no node of the graph"

/-- `GDag_dot_add_graph` (`cocogen/dot/gen_dot_ag.c:65-140`); `prod` is `name`, `parts` stands for `partition_table`, looked up for a node of the graph. -/
def GDag_dot_add_graph (N : Names) (g : Graph) (prod : CStr) (parts : Option (Nat × Nat → Lookup)) : Res Drawing := do
  let c ← clusters prod N parts g.nodes [] g.nodes
  let e ← edges prod N g.nodes g.edges
  .ok ⟨c, e⟩

end Verif.DotAg
