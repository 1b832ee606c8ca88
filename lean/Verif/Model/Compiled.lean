import Verif.Model.PhaseDriver
import Verif.Model.Semantic
import Verif.Model.Tables

/-!
# Model of the phase driver on the generated tables (`copra/src/phase_driver.c`, `cocogen/phase_driver/*.c`)

`Verif.PD` is the driver on tables that are already unfolded into a tree.  Here the driver reads the tables as they are generated: ids
of actions, ended by `CCNAC_ID_NULL`, through `CCNgetActionFromID`.

* The C compiler gives values to the enumerators and finds tables by name; it rejects names that are not declared and names that are
  declared twice (`compile`).  Only the names that the driver reads are looked at.
* The recursion over phases is bounded by `fuel`; the bound on rounds of cycles is that of `Verif.PD`.
* A traversal is identified by the name of its table of functions, a pass and a gate by the name of its function.
-/

namespace Verif.Compiled
open Verif.Str Verif.Ids Verif.Tables Verif.PD
open Verif.Semantic (idOf)

variable {W : Type}

/-! ## What the generators read -/

/-- The tree as the generators of tables read it (`cocogen/phase_driver/gen_action_array.c:46-79`, `gen_ids_table.c:32-50`,
`cocogen/dynamic_backend/gen_enums.c:25-60`). -/
def declsOf (A : Parse.Ast) : Decls :=
  { phases := A.phases.map fun p => ⟨idOf p.name, p.gate.map idOf, p.cycle, p.actions.map idOf⟩
    travs := A.traversals.map fun t => ⟨idOf t.name, idOf t.uid, t.index, !t.data.isEmpty⟩
    passes := A.passes.map fun p => ⟨idOf p.name, p.uid.map idOf, p.func.map idOf⟩
    nodes := A.nodes.map fun n => idOf n.name
    nodesets := A.nodesets.map fun s => idOf s.name
    root := ((A.nodes.find? (·.root)).map fun n => idOf n.name).getD ⟨[], [], []⟩ }

/-! ## The compiled tables -/

/-- What is run for an action, or asked for a phase (`copra/src/phase_driver.c:86-91`, `171`). -/
inductive Lab where
  | pass (f : CStr)
  | trav (table : CStr)
  | gate (f : CStr)
  deriving DecidableEq

/-- The union in `struct ccn_action` (`copra/ccn/action_types.h:12-34`) with enumerators replaced by their values and the name of the
table by the table. -/
inductive Code where
  | phase (gate : Option CStr) (table : List Nat) (cycle : Bool)
  | traversal (trav : Nat)
  | pass (pass : Nat)
  deriving DecidableEq

/-- A `struct ccn_action` (`copra/ccn/action_types.h:25-34`). -/
structure Desc where
  name : CStr
  code : Code
  deriving DecidableEq

/-- The tables of a compiled program: `ccn_action_array`, `ccn_pass_vtable`, `ccn_trav_vtable` (by the names of their entries), the
values of `CCNAC_ID_NULL` and `CCN_ROOT_ACTION` (`cocogen/phase_driver/gen_action_array_header.c:31-47`). -/
structure Image where
  actions : List Desc
  passes : List Fun
  travs : List CStr
  null : Nat
  root : Nat

/-- The values of the enumerators in a table (`cocogen/phase_driver/gen_ids_table.c:28-48`); `none`: one is not declared. -/
def values (e : List CStr) : List CStr → Option (List Nat)
  | [] => some []
  | f :: fs =>
    match value e f, values e fs with
    | some x, some xs => some (x :: xs)
    | _, _ => none

/-- An entry of `ccn_action_array` (`cocogen/phase_driver/gen_action_array.c:46-79`). -/
def compileAction (a : Decls) (x : Action) : Option Desc :=
  match x.body with
  | .phase gate table cycle _ =>
    match (GITast a).find? fun t => decide (t.1 = table) with
    | none => none
    | some t => (values (GAAHast a) t.2).map fun ids => ⟨x.name, .phase gate ids cycle⟩
  | .traversal t => (value (DGEast a).trav t).map fun k => ⟨x.name, .traversal k⟩
  | .pass p => (value (DGEast a).pass p).map fun k => ⟨x.name, .pass k⟩

/-- All entries (`cocogen/phase_driver/gen_action_array.c:19-44`). -/
def compileActions (a : Decls) : List Action → Option (List Desc)
  | [] => some []
  | x :: xs =>
    match compileAction a x, compileActions a xs with
    | some d, some ds => some (d :: ds)
    | _, _ => none

/-- No enumerator and no table is declared twice (`cocogen/phase_driver/gen_action_array_header.c:25-35`,
`cocogen/phase_driver/gen_ids_table.c:14-50`, `cocogen/dynamic_backend/gen_enums.c:23-64`,
`cocogen/dynamic_backend/gen_trav_v_table.c:30`, `cocogen/dynamic_backend/gen_system_traversals.c:29-48`).  Names of different
enumerations have different prefixes. -/
def single (a : Decls) : Bool :=
  decide (((DGEast a).node.Nodup ∧ (DGEast a).nodeset.Nodup ∧ (DGEast a).trav.Nodup ∧ (DGEast a).pass.Nodup) ∧ (GAAHast a).Nodup ∧
    ((GITast a).map (·.1)).Nodup ∧ (DGTTitraversal a.travs ++ (DGSTast a.nodes).map (·.name)).Nodup)

/-- What the C compiler makes of the generated tables; `none`: it rejects them.  `start` is the position of `AST_START_PHASE`
(`cocogen/phase_driver/gen_action_array_header.c:46`). -/
def compile (a : Decls) (start : Nat) : Option Image :=
  match single a, a.phases[start]? with
  | true, some p =>
    match compileActions a (GAAast a), value (GAAHast a) (sID ++ sNULL), value (GAAHast a) (sID ++ p.name.upr) with
    | some ds, some null, some root => some ⟨ds, DGPTast a, DGTTast a, null, root⟩
    | _, _, _ => none
  | _, _ => none

/-! ## The driver -/

/-- What `PASSstart` or `TRAVstart` runs (`copra/src/dynamic_core.c:55-60`, `94-97`).  `none`: `PASSerror`, or outside of the table. -/
def labOf (C : Image) : Code → Option Lab
  | .pass k =>
    match C.passes[k]? with
    | some (.named f) => some (.pass f)
    | _ => none
  | .traversal k => (C.travs[k]?).map .trav
  | .phase _ _ _ => none

/-- `SkipPhase` (`copra/src/phase_driver.c:128-142`) on the rest of a table: the new `action_id`. -/
def skipTable (C : Image) : Nat → List Nat → Nat → Res Nat
  | 0, _, _ => .diverge
  | _ + 1, [], _ => .ub "action_table out of bounds"
  | fuel + 1, i :: rest, n =>
    match i == C.null with
    | true => .ok n
    | false =>
      match C.actions[i]? with
      | none => .ub "ccn_action_array out of bounds"
      | some ⟨_, .phase _ table _⟩ => do
        let n ← skipTable C fuel table (n + 1)
        skipTable C fuel rest n
      | some _ => skipTable C fuel rest (n + 1)

/-- The result of `SkipPhase` in the driver (`copra/src/phase_driver.c:175-176`). -/
def skipped (d : Drv W) (ev : List (Event Lab)) : Res Nat → R Lab W
  | .ok n => { out := .run, d := { d with actionId := n }, ev := ev }
  | .diverge => { out := .fuel, d := d, ev := ev }
  | _ => { out := .ub, d := d, ev := ev }

/-- `StartPhase` (`copra/src/phase_driver.c:170-224`); `run` executes the table once, `skip` is `SkipPhase` on it. -/
def startTable (S : Sem Lab W) (rounds : Nat) (name : CStr) (gate : Option CStr) (cycle : Bool) (skip : Nat → Res Nat)
    (run : Drv W → R Lab W) (d : Drv W) : R Lab W :=
  let g := gateOpen S (gate.map .gate) d
  match g.2.1 with
  | true => R.bind { out := .run, d := g.1, ev := g.2.2 } (openPhase rounds name cycle run)
  | false => skipped g.1 g.2.2 (skip d.actionId)

/-- `CCNdispatchAction` (`copra/src/phase_driver.c:62-125`); `run` executes a table once, `skip` is `SkipPhase`. -/
def dispatch (S : Sem Lab W) (rounds : Nat) (C : Image) (skip : List Nat → Nat → Res Nat) (run : List Nat → Drv W → R Lab W) (x : Desc)
    (d : Drv W) : R Lab W :=
  match x.code with
  | .phase gate table cycle =>
    (begin S d).bind fun d1 =>
      ((startTable S rounds x.name gate cycle (skip table) (run table) { d1 with phaseError := false }).bind
        (mergeError d1.phaseError)).bind (finish x.name d1.actionId)
  | c =>
    match labOf C c with
    | some lab => dispatchLeaf S x.name lab d
    | none => (begin S d).bind fun d1 => { out := .ub, d := d1, ev := [] }

/-- The `while` loop over a table (`copra/src/phase_driver.c:198-205`), on the rest of it. -/
def runTable (S : Sem Lab W) (rounds : Nat) (C : Image) : Nat → List Nat → Drv W → R Lab W
  | 0, _, d => { out := .fuel, d := d, ev := [] }
  | _ + 1, [], d => { out := .ub, d := d, ev := [] }
  | fuel + 1, i :: rest, d =>
    match i == C.null with
    | true => { out := .run, d := d, ev := [] }
    | false =>
      match C.actions[i]? with
      | none => { out := .ub, d := d, ev := [] }
      | some x => (dispatch S rounds C (skipTable C fuel) (runTable S rounds C fuel) x d).bind (runTable S rounds C fuel rest)

/-- `CCNrun` (`copra/src/phase_driver.c:298-303`) without the final free traversal. -/
def CCNrun (S : Sem Lab W) (rounds : Nat) (C : Image) (fuel : Nat) (d : Drv W) : R Lab W :=
  match C.actions[C.root]? with
  | none => { out := .ub, d := reset d, ev := [] }
  | some x => dispatch S rounds C (skipTable C fuel) (runTable S rounds C fuel) x (reset d)

end Verif.Compiled
