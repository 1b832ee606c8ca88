import Verif.Base

/-!
# Model of `generate_empty_visits` (`cocogen/frontend/attribute_scheduler/collect_visits.c:102-182`)

A type is a node type or a nodeset.  Of the visits of a type only their number matters here; `none` is "no entry in
`visits_htable`", which `SAVast` leaves for empty nodesets
(`cocogen/frontend/attribute_scheduler/schedule_attribute_visits.c:601-610`).
-/

namespace Verif.EmptyVisits

/-- A node type or a nodeset, by its position in the list of all (`AST_INODES`, `AST_INODESETS`;
`cocogen/frontend/attribute_scheduler/schedule_attribute_visits.c:612-613`). -/
inductive Ty where
  | node (i : Nat)
  | set (i : Nat)
  deriving DecidableEq, Repr

/-- The specification: the types of the children of each node type, and the members of each nodeset (in pre-order of the
tree `INODESET_EXPR`). -/
structure Types where
  nodes : List (List Ty)
  sets : List (List Ty)

/-- `visits_htable`: the number of visits (`cocogen/frontend/attribute_scheduler/collect_visits.h`). -/
abbrev Visits := Ty → Option Nat

/-- `node_has_visit` (`cocogen/frontend/attribute_scheduler/collect_visits.c:102-115`). -/
def node_has_visit (V : Visits) : List Ty → Res Bool
  | [] => .ok false
  | t :: rest =>
    match V t with
    | none => .abort "assert visits != NULL"
    | some (_ + 1) => .ok true
    | some 0 => node_has_visit V rest

/-- `nodeset_has_visit` (`cocogen/frontend/attribute_scheduler/collect_visits.c:117-133`); `return NULL` in a function of
type `bool` is `false`. -/
def nodeset_has_visit (V : Visits) : List Ty → Res Bool
  | [] => .ok false
  | t :: rest =>
    match V t with
    | none => .ub "NULL->length"
    | some (_ + 1) => .ok true
    | some 0 => nodeset_has_visit V rest

/-- `add_empty_visit` (`cocogen/frontend/attribute_scheduler/collect_visits.c:135-144`). -/
def add_empty_visit (V : Visits) (t : Ty) : Visits := fun x => if x = t then some 1 else V x

/-- The loop over the node types (`cocogen/frontend/attribute_scheduler/collect_visits.c:157-167`), from position `i`. -/
def passNodes : Nat → List (List Ty) → Visits → Nat → Res (Visits × Nat)
  | _, [], V, changes => .ok (V, changes)
  | i, kids :: rest, V, changes =>
    match V (.node i) with
    | none => passNodes (i + 1) rest V changes
    | some (_ + 1) => passNodes (i + 1) rest V changes
    | some 0 => do
      let has ← node_has_visit V kids
      match has with
      | true => passNodes (i + 1) rest (add_empty_visit V (.node i)) (changes + 1)
      | false => passNodes (i + 1) rest V changes

/-- The loop over the nodesets (`cocogen/frontend/attribute_scheduler/collect_visits.c:169-180`), from position `i`. -/
def passSets : Nat → List (List Ty) → Visits → Nat → Res (Visits × Nat)
  | _, [], V, changes => .ok (V, changes)
  | i, members :: rest, V, changes =>
    match V (.set i) with
    | none => passSets (i + 1) rest V changes
    | some (_ + 1) => passSets (i + 1) rest V changes
    | some 0 => do
      let has ← nodeset_has_visit V members
      match has with
      | true => passSets (i + 1) rest (add_empty_visit V (.set i)) (changes + 1)
      | false => passSets (i + 1) rest V changes

/-- `generate_empty_visits` (`cocogen/frontend/attribute_scheduler/collect_visits.c:150-182`). -/
def generate_empty_visits (s : Types) : Nat → Visits → Res Visits
  | 0, _ => .diverge
  | fuel + 1, V => do
    let (V, changes) ← passNodes 0 s.nodes V 0
    let (V, changes) ← passSets 0 s.sets V changes
    match changes with
    | 0 => .ok V
    | _ + 1 => generate_empty_visits s fuel V

end Verif.EmptyVisits
