import Verif.Model.Induce
import Verif.Model.Partition
import Verif.Model.EmptyVisits
import Verif.Model.Visits

/-!
# Model of the attribute scheduler as a whole

`cocogen/frontend/attribute_scheduler/schedule_attribute_visits.c`: `SAVast`.  The phases are modelled in
`Verif.Model.Induce`, `Verif.Model.Partition`, `Verif.Model.EmptyVisits` and `Verif.Model.Visits`; here they are put together.
Hash tables are functions of the key.  The dumps of graphs, the log file (the compilation is aborted if it cannot be opened)
and releasing memory are left out.  `fill_visit_stubs` (lines 648-652) puts the AST of the visit in the place of the index of
the visit; the index stays here.
-/

namespace Verif.Schedule
open Verif.Graph Verif.Induce Verif.Partition Verif.Visits

/-- All attributes of the specification: what a pointer to an attribute can point to
(`cocogen/frontend/attribute_scheduler/schedule_attribute_visits.c:185-193`). -/
def attributes (S : Spec) : List Attr := S.nodes.flatMap (·.attrs) ++ S.sets.flatMap (·.attrs)

/-- The attribute at an address (`cocogen/frontend/attribute_scheduler/graph.h:5-9`: graph nodes have pointers). -/
def attrAt (S : Spec) (a : Nat) : Option Attr := (attributes S).find? fun x => x.addr == a

/-- `ID_LWR(ATTRIBUTE_NAME(a))` and `ATTRIBUTE_IS_SYNTHESIZED(a)`
(`cocogen/frontend/attribute_scheduler/partition_nodes.c:22-23`). -/
def attrs (S : Spec) : Attrs where
  name a := ((attrAt S a).map (·.name)).getD []
  syn a := ((attrAt S a).map (·.syn)).getD false

/-- `HTlookup` in the table of graphs; the list is empty for an empty nodeset, `NULL` in the code
(`cocogen/frontend/attribute_scheduler/schedule_attribute_visits.c:565`). -/
def graphsOf (T : List (Nat × List Graph)) (k : Nat) : List Graph :=
  match T.find? fun e => e.1 == k with
  | some e => e.2
  | none => []

/-- `HTinsert` for a new key (`cocogen/frontend/attribute_scheduler/schedule_attribute_visits.c:567`, `604`). -/
def put {α : Type} (t : Nat → Option α) (k : Nat) (x : α) : Nat → Option α := fun y => if y = k then some x else t y

/-- The first loop over the node types (`cocogen/frontend/attribute_scheduler/schedule_attribute_visits.c:563-568`). -/
def partitionNodes (fuel : Nat) (S : Spec) (T : List (Nat × List Graph)) :
    List INode → (Nat → Option Table) → Res (Nat → Option Table)
  | [], Ps => .ok Ps
  | n :: rest, Ps =>
    match graphsOf T n.addr with
    | [] => .ub "NULL->graph"
    | g :: _ => do
      let P ← partition_nodes (attrs S) fuel g n.addr
      partitionNodes fuel S T rest (put Ps n.addr P)

/-- The first loop over the nodesets (`cocogen/frontend/attribute_scheduler/schedule_attribute_visits.c:570-578`): the first
graph is that of the first member. -/
def partitionSets (fuel : Nat) (S : Spec) (T : List (Nat × List Graph)) :
    List NSet → (Nat → Option Table) → Res (Nat → Option Table)
  | [], Ps => .ok Ps
  | s :: rest, Ps =>
    match graphsOf T s.addr with
    | [] => partitionSets fuel S T rest Ps
    | g :: _ => do
      let P ← partition_nodes (attrs S) fuel g s.addr
      partitionSets fuel S T rest (put Ps s.addr P)

/-- A visit with attributes instead of graph nodes (`cocogen/frontend/attribute_scheduler/collect_visits.h:6-17`; see
`Verif.Model.Visits`). -/
def ofVisit (g : Graph) (v : Visit) : AVisit := ⟨v.inputs.map (attrOf g), v.outputs.map (attrOf g)⟩

/-- `collect_visits` with the table of the node (`cocogen/frontend/attribute_scheduler/collect_visits.c:16-47`: a table that
is not there is like one without entries).  Its errors are printed only. -/
def collectOf (S : Spec) (Ps : Nat → Option Table) (g : Graph) (k : Nat) : Res (List AVisit) := do
  let (vs, _) ← collect_visits (attrs S) g k ((Ps k).getD fun _ => 0)
  .ok (vs.map (ofVisit g))

/-- The second loop over the node types (`cocogen/frontend/attribute_scheduler/schedule_attribute_visits.c:598-605`). -/
def collectNodes (S : Spec) (T : List (Nat × List Graph)) (Ps : Nat → Option Table) :
    List INode → (Nat → Option (List AVisit)) → Res (Nat → Option (List AVisit))
  | [], V => .ok V
  | n :: rest, V =>
    match graphsOf T n.addr with
    | [] => .ub "NULL->graph"
    | g :: _ => do
      let vs ← collectOf S Ps g n.addr
      collectNodes S T Ps rest (put V n.addr vs)

/-- The second loop over the nodesets (`cocogen/frontend/attribute_scheduler/schedule_attribute_visits.c:607-617`). -/
def collectSets (S : Spec) (T : List (Nat × List Graph)) (Ps : Nat → Option Table) :
    List NSet → (Nat → Option (List AVisit)) → Res (Nat → Option (List AVisit))
  | [], V => .ok V
  | s :: rest, V =>
    match graphsOf T s.addr with
    | [] => collectSets S T Ps rest V
    | g :: _ => do
      let vs ← collectOf S Ps g s.addr
      collectSets S T Ps rest (put V s.addr vs)

/-- The position of a node type or nodeset (`cocogen/frontend/attribute_scheduler/collect_visits.c:107`, `124`: `STlookup`). -/
def tyOf (S : Spec) (t : Nat) : EmptyVisits.Ty :=
  match S.nodes.findIdx? fun n => n.addr == t with
  | some i => .node i
  | none => .set (S.sets.findIdx fun s => s.addr == t)

/-- The address of the type at a position (`cocogen/frontend/attribute_scheduler/collect_visits.c:157-180`). -/
def addrOf (S : Spec) : EmptyVisits.Ty → Option Nat
  | .node i => (S.nodes[i]?).map (·.addr)
  | .set i => (S.sets[i]?).map (·.addr)

/-- What `generate_empty_visits` sees of the specification
(`cocogen/frontend/attribute_scheduler/collect_visits.c:102-133`). -/
def types (S : Spec) : EmptyVisits.Types where
  nodes := S.nodes.map fun n => n.children.map fun c => tyOf S c.type
  sets := S.sets.map fun s => s.members.reverse.map fun m => tyOf S m.addr

/-- The numbers of visits (`cocogen/frontend/attribute_scheduler/collect_visits.h:19-22`). -/
def counts (S : Spec) (V : Nat → Option (List AVisit)) : EmptyVisits.Visits :=
  fun t => ((addrOf S t).bind V).map (·.length)

/-- The table after `generate_empty_visits`: a type without visits may have got an empty one
(`cocogen/frontend/attribute_scheduler/collect_visits.c:135-144`). -/
def withEmpty (S : Spec) (V : Nat → Option (List AVisit)) (C : EmptyVisits.Visits) : Nat → Option (List AVisit) :=
  fun k =>
    match V k with
    | some [] =>
      match C (tyOf S k) with
      | some 1 => some [⟨[], []⟩]
      | _ => some []
    | r => r

/-- What `generate_visits` is called with (`cocogen/frontend/attribute_scheduler/schedule_attribute_visits.c:639-641`). -/
def env (S : Spec) (V : Nat → Option (List AVisit)) (n : INode) (g : Graph) : Env where
  g := g
  self := n.addr
  children := n.children.map (·.addr)
  typeOf := get_node_type S
  syn := (attrs S).syn
  members t := (S.sets.find? fun s => s.addr == t).map fun s => s.members.reverse.map (·.addr)
  visits := V

/-- An element of a visit sequence, as it is put into the AST: an attribute of a node or child is evaluated, or a child is
visited (`cocogen/frontend/attribute_scheduler/generate_visits.c:319-442`). -/
inductive Act where
  | eval (x : Place)
  | visit (child k : Nat) (alts : List (Nat × Option Nat))
  deriving DecidableEq, Repr

/-- The element for an element of `generate_visits`; positions are those of nodes of the graph
(`cocogen/frontend/attribute_scheduler/generate_visits.c:409-426`). -/
def act (g : Graph) : Ev → Act
  | .eval i => .eval ((g.nodes[i]?).getD (0, 0))
  | .visit c k alts => .visit c k alts

/-- The third loop over the node types (`cocogen/frontend/attribute_scheduler/schedule_attribute_visits.c:633-644`). -/
def sequences (max : Nat) (S : Spec) (T : List (Nat × List Graph)) (V : Nat → Option (List AVisit)) :
    List INode → (Nat → Option (List (List Act))) → Res (Nat → Option (List (List Act)))
  | [], Q => .ok Q
  | n :: rest, Q =>
    match graphsOf T n.addr with
    | [] => .ub "NULL->graph"
    | g :: _ => do
      let seqs ← generate_visits (env S V n g) max
      sequences max S T V rest (put Q n.addr (seqs.map fun seq => seq.map (act g)))

/-- The visits of all types and the sequences of all node types (`INODE_VISIT`, `cocogen/main.ccn:679-695`). -/
structure Plan where
  visits : Nat → Option (List AVisit)
  seqs : Nat → Option (List (List Act))

/-- The part of `SAVast` after the check of the errors
(`cocogen/frontend/attribute_scheduler/schedule_attribute_visits.c:562-664`).  `fuel` bounds the loops of `partition_nodes` and
`generate_empty_visits`, `max` is `globals.ag_scheduler_max_iter`. -/
def SAVast_visits (fuel max : Nat) (S : Spec) (T : List (Nat × List Graph)) : Res Plan := do
  let Ps ← partitionNodes fuel S T S.nodes fun _ => none
  let Ps ← partitionSets fuel S T S.sets Ps
  let V ← collectNodes S T Ps S.nodes fun _ => none
  let V ← collectSets S T Ps S.sets V
  let C ← EmptyVisits.generate_empty_visits (types S) fuel (counts S V)
  let Q ← sequences max S T (withEmpty S V C) S.nodes fun _ => none
  .ok ⟨withEmpty S V C, Q⟩

/-- `SAVast` (`cocogen/frontend/attribute_scheduler/schedule_attribute_visits.c:496-664`); `none` if errors are reported
(lines 556-560). -/
def SAVast (fuel max : Nat) (order : List (Nat × List Graph) → List (Nat × List Graph)) (S : Spec) : Res (Option Plan) := do
  let st ← SAVast_graphs fuel order S
  match st.errors with
  | 0 => do
    let P ← SAVast_visits fuel max S st.graphs
    .ok (some P)
  | _ + 1 => .ok none

end Verif.Schedule
