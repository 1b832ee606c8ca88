import Verif.Model.NodeGen
import Verif.Model.Semantic

/-!
# What the generators of nodes read (`cocogen/main.ccn:150-200`)

The specification of `Verif.Model.NodeGen` for a description, as the phase `semantic` leaves it.

Simplifications: a name in a literal of a nodeset is replaced by the name of the node, of which it can differ in letter case: the generators
read the upper-case form only (`cocogen/dynamic_backend/gen_nodeset_access_funcs.c:118-134`).  An attribute of one of the types with a
reference has one.
-/

namespace Verif.Described
open Verif.Str Verif.Ids Verif.Semantic
open Verif.Propagate (Entry Target)

/-- The types in the order of their numbers (`cocogen/main.ccn:786-791`; the other direction of `Verif.Semantic.primOf`). -/
def basicOf : Nat → NodeGen.AT
  | 3 => .int
  | 4 => .string
  | 5 => .bool
  | 6 => .int8
  | 7 => .int16
  | 8 => .int32
  | 9 => .int64
  | 10 => .float
  | 11 => .double
  | 13 => .uint8
  | 14 => .uint16
  | 15 => .uint32
  | 16 => .uint64
  | _ => .uint

/-- The `id` of a text (`cocogen/frontend/scanAndParse/dsl-parser.y:1243-1250`). -/
def idText (n : Nat) : Id := idOf ⟨decode n, 0, 0, 0⟩

/-- An attribute (`cocogen/main.ccn:846-861`). -/
def attrGen (b : Propagate.Attr) : NodeGen.Attr where
  name := idText b.orig
  type :=
    match b.type with
    | .link => .link
    | .linkOrEnum => .linkOrEnum
    | .user => .user
    | .basic k => basicOf k
  ref :=
    match b.type with
    | .basic _ => none
    | _ => some (idText b.ref)
  ctor := b.ctor
  inh := b.inh
  syn := b.syn

/-- A node (`cocogen/main.ccn:679-695`). -/
def nodeGen (o : Out) (k : Nat) (n : Parse.Node) : NodeGen.Node where
  name := idOf n.name
  children := n.children.map fun c => ⟨idOf c.name, c.ctor⟩
  attrs := (o.attrs (.node k)).map attrGen

/-- The name of a member (`cocogen/dynamic_backend/gen_nodeset_access_funcs.c:118-134`). -/
def memberGen (A : Parse.Ast) : Entry → Option Id
  | .node k => A.nodes[k]?.map fun n => idOf n.name
  | _ => none

/-- A nodeset (`cocogen/main.ccn:697-711`). -/
def setGen (A : Parse.Ast) (o : Out) (k : Nat) (s : Parse.NodeSet) : NodeGen.NodeSet where
  name := idOf s.name
  members := (o.members k).filterMap (memberGen A)
  attrs := (o.attrs (.set k)).map attrGen

/-- What the generators read (`cocogen/main.ccn:606-623`). -/
def nodeProg (A : Parse.Ast) (o : Out) : NodeGen.Prog where
  nodes := A.nodes.mapIdx (nodeGen o)
  sets := A.nodesets.mapIdx (setGen A o)
  enums := A.enums.map fun e => idOf e.name

end Verif.Described
