import Verif.Model.Graph

/-!
# Model of the generation of visit sequences (`cocogen/frontend/attribute_scheduler/generate_visits.c`)

* The work queue is the list of its items (property C41: it is first-in first-out and loses nothing).
* Pointers are numbers: the node the sequences are for, its children, its attributes, and the types (node types and
  nodesets).  A graph node is its position in `graph->nodes`.
* A `struct child_visit` is the pair of the child and the index of the visit: `get_child_visit`
  (`cocogen/frontend/attribute_scheduler/generate_visits.c:71-84`) returns the same block for the same pair, and the visit
  is determined by its index and the type of the child.
* A visit of a type lists attributes: `collect_visits` fills it with graph nodes of the type itself, of which only the
  attribute is read here, or, for the node's own visits, the graph node `(node, attribute)`.
* The log file is left out.
-/

namespace Verif.Visits
open Verif.Graph

/-- `struct visit` (`cocogen/frontend/attribute_scheduler/collect_visits.h:6-17`): the attributes that come in and go out; the
index is the position. -/
structure AVisit where
  inputs : List Nat
  outputs : List Nat
  deriving DecidableEq, Repr

/-- What `generate_visits` reads: the graph, the node (`self`), its children (`INODE_ICHILDREN`), the type of a child
(`get_node_type`, `cocogen/frontend/attribute_scheduler/common.h:35-44`), which attributes are synthesized, the members of
a nodeset in pre-order (`none` for a node type) and `visits_htable`
(`cocogen/frontend/attribute_scheduler/generate_visits.c:636-648`). -/
structure Env where
  g : Graph
  self : Nat
  children : List Nat
  typeOf : Nat → Nat
  syn : Nat → Bool
  members : Nat → Option (List Nat)
  visits : Nat → Option (List AVisit)

/-- `struct seq_queue_item` (`cocogen/frontend/attribute_scheduler/generate_visits.c:147-153`). -/
inductive Item where
  | node (i : Nat)
  | visit (child k : Nat)
  deriving DecidableEq, Repr

/-- An element of a visit sequence: an evaluation (`ASTvisit_sequence_eval`), or the visit `k` of a child with one
alternative for each possible node type: a visit of that type (`ASTvisit_sequence_visit`) or nothing
(`ASTvisit_sequence_dummy`) (`cocogen/frontend/attribute_scheduler/generate_visits.c:319-442`). -/
inductive Ev where
  | eval (i : Nat)
  | visit (child k : Nat) (alts : List (Nat × Option Nat))
  deriving DecidableEq, Repr

/-- The work queue and the tables `queued` and `scheduled`
(`cocogen/frontend/attribute_scheduler/generate_visits.c:450-451`, `644`). -/
structure St where
  queue : List Item
  queued : Item → Bool
  scheduled : Item → Bool

/-- Add an entry to a table of pointers (`HTinsert(…, (void *)1)`,
`cocogen/frontend/attribute_scheduler/generate_visits.c:197`). -/
def addTo (t : Item → Bool) (x : Item) : Item → Bool := fun y => decide (y = x) || t y

/-- Put an item into the queue and into `queued`, if it is not there
(`cocogen/frontend/attribute_scheduler/generate_visits.c:187-198`, `223-234`). -/
def St.want (s : St) (x : Item) : St :=
  match s.queued x with
  | true => s
  | false => { s with queue := s.queue ++ [x], queued := addTo s.queued x }

/-- `find_dependencies` (`cocogen/frontend/attribute_scheduler/generate_visits.c:107-132`). -/
def find_dependencies (g : Graph) (node : Nat) : List Nat :=
  ((List.range g.nodes.length).filter fun dep => decide (dep ≠ node) && GRlookup_edge g dep node false).reverse

/-- `find_visit` (`cocogen/frontend/attribute_scheduler/generate_visits.c:134-145`). -/
def find_visit (attr : Nat) : List AVisit → Option Nat
  | [] => none
  | v :: rest => if attr ∈ v.outputs then some 0 else (find_visit attr rest).map (· + 1)

/-- `sched_equation_dependency` (`cocogen/frontend/attribute_scheduler/generate_visits.c:155-200`).  For a visit the code
enters the `struct visit` into `queued` instead of the `struct child_visit` (line 184); that key is never looked up, so
nothing is entered here. -/
def sched_equation_dependency (e : Env) (dep : Nat) (s : St) : Res St :=
  match e.g.nodes[dep]? with
  | none => .ub "NULL->node"
  | some (o, a) =>
    match decide (o ≠ e.self) && e.syn a with
    | true =>
      match e.visits (e.typeOf o) with
      | none => .abort "assert visits != NULL"
      | some vs =>
        match find_visit a vs with
        | none => .abort "assert visit_index != -1"
        | some k =>
          match s.queued (.visit o k) with
          | true => .ok s
          | false => .ok { s with queue := s.queue ++ [.visit o k] }
    | false => .ok (s.want (.node dep))

/-- The loop over previous visits (`cocogen/frontend/attribute_scheduler/generate_visits.c:213-235`). -/
def schedPrev (child : Nat) : List Nat → St → Bool → Bool × St
  | [], s, has => (has, s)
  | i :: rest, s, has =>
    match s.scheduled (.visit child i) with
    | true => schedPrev child rest s has
    | false => schedPrev child rest (s.want (.visit child i)) true

/-- The loop over the inputs (`cocogen/frontend/attribute_scheduler/generate_visits.c:237-250`). -/
def schedInputs (e : Env) (child : Nat) : List Nat → St → Bool → Res (Bool × St)
  | [], s, has => .ok (has, s)
  | a :: rest, s, has =>
    match GRlookup_node e.g child a with
    | none => .ub "NULL->node"
    | some gnode =>
      match s.scheduled (.node gnode) with
      | true => schedInputs e child rest s has
      | false => do
        let s ← sched_equation_dependency e gnode s
        schedInputs e child rest s true

/-- `sched_visit_dependencies` (`cocogen/frontend/attribute_scheduler/generate_visits.c:202-253`). -/
def sched_visit_dependencies (e : Env) (child k : Nat) (s : St) : Res (Bool × St) :=
  match (e.visits (e.typeOf child)).bind (·[k]?) with
  | none => .ub "no such visit"
  | some v =>
    let (has, s) := schedPrev child (List.range k) s false
    schedInputs e child v.inputs s has

/-- The loop of `sched_equation_dependencies` (`cocogen/frontend/attribute_scheduler/generate_visits.c:260-273`). -/
def schedDeps (e : Env) : List Nat → St → Bool → Res (Bool × St)
  | [], s, has => .ok (has, s)
  | dep :: rest, s, has =>
    match s.scheduled (.node dep) with
    | true => schedDeps e rest s has
    | false => do
      let s ← sched_equation_dependency e dep s
      schedDeps e rest s true

/-- `sched_equation_dependencies` (`cocogen/frontend/attribute_scheduler/generate_visits.c:255-276`); the table
`dependencies` holds `find_dependencies` of each graph node (lines 651-654). -/
def sched_equation_dependencies (e : Env) (gnode : Nat) (s : St) : Res (Bool × St) :=
  schedDeps e (find_dependencies e.g gnode) s false

/-- The loop of `mark_scheduled` (`cocogen/frontend/attribute_scheduler/generate_visits.c:291-297`).  If the attribute has
no graph node the code enters `NULL` into the table, and from then on a missing input counts as scheduled; the model
stops there. -/
def markOutputs (e : Env) (child : Nat) : List Nat → (Item → Bool) → Res (Item → Bool)
  | [], t => .ok t
  | a :: rest, t =>
    match GRlookup_node e.g child a with
    | none => .ub "NULL graph node entered into scheduled"
    | some output => markOutputs e child rest (addTo t (.node output))

/-- `mark_scheduled` (`cocogen/frontend/attribute_scheduler/generate_visits.c:287-302`). -/
def mark_scheduled (e : Env) (item : Item) (t : Item → Bool) : Res (Item → Bool) :=
  match item with
  | .node i => .ok (addTo t (.node i))
  | .visit child k =>
    match (e.visits (e.typeOf child)).bind (·[k]?) with
    | none => .ub "no such visit"
    | some v => do
      let t ← markOutputs e child v.outputs t
      .ok (addTo t (.visit child k))

/-- `add_visit_sequence_visit_nodeset` (`cocogen/frontend/attribute_scheduler/generate_visits.c:319-377`): one alternative
per member.  The recursion links the alternatives in pre-order. -/
def nodesetAlts (e : Env) (k : Nat) : List Nat → Res (List (Nat × Option Nat))
  | [] => .ok []
  | m :: rest =>
    match e.visits m with
    | none => .ub "NULL->length"
    | some vs => do
      let alts ← nodesetAlts e k rest
      .ok ((m, if k < vs.length then some k else none) :: alts)

/-- The new element (`cocogen/frontend/attribute_scheduler/generate_visits.c:384-427`); `none` if there is none. -/
def newElement (e : Env) (item : Item) : Res (Option Ev) :=
  match item with
  | .visit child k =>
    match e.members (e.typeOf child) with
    | none => .ok (some (.visit child k [(e.typeOf child, some k)]))
    | some ms => do
      let alts ← nodesetAlts e k ms
      match alts with
      | [] => .ok none
      | a :: alts => .ok (some (.visit child k (a :: alts)))
  | .node i =>
    match e.g.nodes[i]? with
    | none => .ub "NULL->node"
    | some (o, a) =>
      match decide (o ≠ e.self) && e.syn a with
      | true => .ok none
      | false => .ok (some (.eval i))

/-- Is the element a `VISIT_SEQUENCE_DUMMY`: the first alternative is nothing
(`cocogen/frontend/attribute_scheduler/generate_visits.c:331-340`). -/
def Ev.isDummy : Ev → Bool
  | .visit _ _ ((_, none) :: _) => true
  | _ => false

/-- `add_visit_sequence` (`cocogen/frontend/attribute_scheduler/generate_visits.c:379-442`).  Behind a
`VISIT_SEQUENCE_DUMMY` nothing can be appended: the assertion at line 436 fails. -/
def add_visit_sequence (e : Env) (item : Item) (seq : List Ev) : Res (List Ev) := do
  let new ← newElement e item
  match new with
  | none => .ok seq
  | some ev =>
    match seq.getLast?.map Ev.isDummy with
    | some true => .abort "assert NODE_TYPE(*visit_tail) == NT_VISIT_SEQUENCE_EVAL"
    | _ => .ok (seq ++ [ev])

/-- Put the missing dependencies of an item into the queue
(`cocogen/frontend/attribute_scheduler/generate_visits.c:557-572`). -/
def schedItem (e : Env) (item : Item) (s : St) : Res (Bool × St) :=
  match item with
  | .visit child k => sched_visit_dependencies e child k s
  | .node i => sched_equation_dependencies e i s

/-- The main loop of `generate_visit` (`cocogen/frontend/attribute_scheduler/generate_visits.c:491-584`).  `left` is the
number of iterations that are left of `globals.ag_scheduler_max_iter`. -/
def visitLoop (e : Env) : Nat → St → List Ev → Res (St × List Ev)
  | left, s, seq =>
    match s.queue.dropWhile s.scheduled with
    | [] => .ok ({ s with queue := [] }, seq)
    | item :: rest =>
      match left with
      | 0 => .abort "CTIabortCompilation"
      | left + 1 => do
        let (has, s) ← schedItem e item { s with queue := rest }
        match has with
        | true => visitLoop e left { s with queue := s.queue ++ [item] } seq
        | false => do
          let t ← mark_scheduled e item s.scheduled
          let seq ← add_visit_sequence e item seq
          visitLoop e left { s with scheduled := t } seq

/-- Positions of own attributes (`visit->outputs[i]`, `visit->inputs[i]`;
`cocogen/frontend/attribute_scheduler/generate_visits.c:460`, `486`). -/
def ownNodes (e : Env) : List Nat → Res (List Nat)
  | [] => .ok []
  | a :: rest =>
    match GRlookup_node e.g e.self a with
    | none => .ub "no such graph node"
    | some i => do
      let is ← ownNodes e rest
      .ok (i :: is)

/-- Insert the outputs (`cocogen/frontend/attribute_scheduler/generate_visits.c:456-466`). -/
def queueAll (xs : List Item) (s : St) : St :=
  { s with queue := s.queue ++ xs, queued := fun y => decide (y ∈ xs) || s.queued y }

/-- All visits of all children (`cocogen/frontend/attribute_scheduler/generate_visits.c:468-482`). -/
def childVisits (e : Env) : List Nat → Res (List Item)
  | [] => .ok []
  | child :: rest =>
    match e.visits (e.typeOf child) with
    | none => .abort "assert child_visits != NULL"
    | some vs => do
      let items ← childVisits e rest
      .ok ((List.range vs.length).map (Item.visit child) ++ items)

/-- Only the last visit makes sure that all children are visited
(`cocogen/frontend/attribute_scheduler/generate_visits.c:468-482`). -/
def lastItems (e : Env) (last : Bool) : Res (List Item) :=
  match last with
  | true => childVisits e e.children
  | false => .ok []

/-- `generate_visit` (`cocogen/frontend/attribute_scheduler/generate_visits.c:444-590`). -/
def generate_visit (e : Env) (max : Nat) (v : AVisit) (last : Bool) (scheduled : Item → Bool) :
    Res ((Item → Bool) × List Ev) := do
  let outputs ← ownNodes e v.outputs
  let items ← lastItems e last
  let inputs ← ownNodes e v.inputs
  let s : St := { queue := [], queued := fun _ => false,
                  scheduled := fun y => decide (y ∈ inputs.map Item.node) || scheduled y }
  let (s, seq) ← visitLoop e max (queueAll items (queueAll (outputs.map Item.node) s)) []
  .ok (s.scheduled, seq)

/-- The loop of `generate_visits` (`cocogen/frontend/attribute_scheduler/generate_visits.c:657-676`). -/
def generateFrom (e : Env) (max : Nat) : List AVisit → (Item → Bool) → Res (List (List Ev))
  | [], _ => .ok []
  | v :: rest, scheduled => do
    let (scheduled, seq) ← generate_visit e max v rest.isEmpty scheduled
    let seqs ← generateFrom e max rest scheduled
    .ok (seq :: seqs)

/-- `generate_visits` (`cocogen/frontend/attribute_scheduler/generate_visits.c:636-687`): the sequence of each visit. -/
def generate_visits (e : Env) (max : Nat) : Res (List (List Ev)) :=
  match e.visits e.self with
  | none => .ub "NULL->length"
  | some vs => generateFrom e max vs fun _ => false

end Verif.Visits
