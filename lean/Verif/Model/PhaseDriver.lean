import Verif.Model.Str

/-!
# Model of the phase driver, `copra/src/phase_driver.c`

The generated action tables (`ccn_phase.action_table`, terminated by `CCNAC_ID_NULL`, resolved through
`CCNgetActionFromID`) are unfolded into a tree (`Acts`); a phase that is used at several places occurs several times.
The language has no recursive phases, so the tree is finite.

User code (passes, traversals, gate functions) and the generated check traversal are arbitrary functions on a world
`W`, which contains the syntax tree.  Passes and traversals may call the driver's API (`Call`) and may end the
process; gates and the check traversal do not call the API.  Recursive `CCNrun` calls from actions are not modelled.

Counters are unbounded (`size_t` in C).  `level`, `current_phase` and `verbosity` are left out: nothing but messages
on stderr depends on them.  Every function returns, besides outcome and state, the list of observable events.
-/

namespace Verif.PD
open Verif.Str

variable {ι W : Type}

/-- An action table (`copra/ccn/action_types.h:12-36`): the list of actions of a phase, unfolded.  `ι` identifies
passes, traversals and gate functions. -/
inductive Acts (ι : Type) where
  | nil
  | leaf (name : CStr) (lab : ι) (next : Acts ι)
  | phase (name : CStr) (gate : Option ι) (cycle : Bool) (body next : Acts ι)
  deriving DecidableEq

/-- Calls of the driver API made by an action (`copra/src/phase_driver.c:229-292`). -/
inductive Call where
  | notify
  | errorAction
  | errorPhase
  | setCycles (n : Nat)
  | setBreakpoint (b : Option CStr)
  | setBreakpointId (n : Nat)
  | setTreeCheck (on : Bool)
  deriving DecidableEq

/-- What a pass or traversal did: the new world, the API calls it made, and whether it ended the process. -/
structure Leaf (W : Type) where
  world : W
  calls : List Call
  exits : Bool

/-- User code and the check traversal.  `leaf` and `check` see the current action id (`CCNgetCurrentActionId`,
`copra/src/phase_driver.c:305`); `check` tells whether the traversal `TRAV_check` reported an error. -/
structure Sem (ι W : Type) where
  leaf : ι → W → Nat → Leaf W
  gate : ι → W → W × Bool
  check : W → Nat → Bool

/-- `struct phase_driver` (`copra/src/phase_driver.c:17-30`) and the world. -/
structure Drv (W : Type) where
  actionId : Nat
  cycleIter : Nat
  maxCycles : Nat
  breakpointId : Nat
  fixedPoint : Bool
  actionError : Bool
  phaseError : Bool
  treeCheck : Bool
  breakpoint : Option CStr
  world : W

/-- The static initialiser (`copra/src/phase_driver.c:32-45`). -/
def initial (w : W) : Drv W :=
  { actionId := 0, cycleIter := 0, maxCycles := 100, breakpointId := 0, fixedPoint := false, actionError := false,
    phaseError := false, treeCheck := true, breakpoint := none, world := w }

/-- `resetPhaseDriver` (`copra/src/phase_driver.c:47-56`). -/
def reset (d : Drv W) : Drv W :=
  { d with actionId := 0, cycleIter := 0, fixedPoint := false, actionError := false, phaseError := false }

/-- How a piece of execution ended: normally, by `CTIabortCompilation`/`CTIabortOnError` or an action ending the
process, by a breakpoint (`exit(0)`), by undefined behaviour, or not within the given number of rounds. -/
inductive Out where
  | run
  | abort
  | brk
  | ub
  | fuel
  deriving DecidableEq

/-- Observable events.  Every event carries the value of `phase_driver.action_id` at that moment (for `done`, the id
of the completed action; for `round`, the id of the phase). -/
inductive Event (ι : Type) where
  | check (id : Nat)
  | leaf (id : Nat) (lab : ι) (calls : List Call)
  | gate (id : Nat) (lab : ι) (isOpen : Bool)
  | round (id : Nat)
  | done (id : Nat)
  deriving DecidableEq

/-- Result of a piece of execution. -/
structure R (ι W : Type) where
  out : Out
  d : Drv W
  ev : List (Event ι)

/-- Sequencing: the rest only runs after a normal end. -/
def R.bind (r : R ι W) (f : Drv W → R ι W) : R ι W :=
  match r.out with
  | .run => { f r.d with ev := r.ev ++ (f r.d).ev }
  | _ => r

/-- `CCNcycleNotify`, `CCNerrorAction`, `CCNerrorPhase`, `CCNsetCycles`, `CCNsetBreakpoint`,
`CCNsetBreakpointWithID`, `CCNsetTreeCheck` (`copra/src/phase_driver.c:229-292`). -/
def applyCall (d : Drv W) : Call → Drv W
  | .notify => { d with fixedPoint := false }
  | .errorAction => { d with actionError := true }
  | .errorPhase => { d with phaseError := true }
  | .setCycles n => { d with maxCycles := n }
  | .setBreakpoint b => { d with breakpoint := b }
  | .setBreakpointId n => { d with breakpointId := n }
  | .setTreeCheck on => { d with treeCheck := on }

/-- The start of `CCNdispatchAction` (`copra/src/phase_driver.c:64-82`): count the action and check the tree. -/
def begin (S : Sem ι W) (d : Drv W) : R ι W :=
  let d := { d with actionId := d.actionId + 1 }
  if d.treeCheck then
    { out := if S.check d.world d.actionId then .abort else .run, d, ev := [.check d.actionId] }
  else { out := .run, d, ev := [] }

/-- Does the path breakpoint name this action (`copra/src/phase_driver.c:108-109`)? -/
def breakHere (b : Option CStr) (name : CStr) : Res Bool :=
  match b with
  | none => .ok false
  | some b => STReqci (some b) (some name)

/-- The end of `CCNdispatchAction` (`copra/src/phase_driver.c:101-125`); `startId` is `start_id`. -/
def finish (name : CStr) (startId : Nat) (d : Drv W) : R ι W :=
  if d.actionError then { out := .abort, d, ev := [] }
  else
    match breakHere d.breakpoint name with
    | .ok true => { out := .brk, d, ev := [.done startId] }
    | .ok false =>
      if d.breakpointId > 0 ∧ d.breakpointId = startId then { out := .brk, d, ev := [.done startId] }
      else { out := .run, d, ev := [.done startId] }
    | _ => { out := .ub, d, ev := [.done startId] }

/-- `PASSstart`/`TRAVstart` on user code (`copra/src/phase_driver.c:86-91`). -/
def runLeaf (S : Sem ι W) (lab : ι) (d : Drv W) : R ι W :=
  let l := S.leaf lab d.world d.actionId
  { out := if l.exits then .abort else .run
    d := l.calls.foldl applyCall { d with world := l.world }
    ev := [.leaf d.actionId lab l.calls] }

/-- `CCNdispatchAction` for a pass or traversal (`copra/src/phase_driver.c:62-125`). -/
def dispatchLeaf (S : Sem ι W) (name : CStr) (lab : ι) (d : Drv W) : R ι W :=
  (begin S d).bind fun d1 => (runLeaf S lab d1).bind (finish name d1.actionId)

/-- `SkipPhase` (`copra/src/phase_driver.c:128-142`) on an action table: the new `action_id`. -/
def skip : Acts ι → Nat → Nat
  | .nil, n => n
  | .leaf _ _ next, n => skip next (n + 1)
  | .phase _ _ _ body next, n => skip next (skip body (n + 1))

/-- The comparison loop of `Checkbreakpoint` (`copra/src/phase_driver.c:147-154`): the rest of the breakpoint behind
`name`, if `name` is a prefix up to letter case. -/
def stripName : CStr → CStr → Res (Option CStr)
  | [], b => .ok (some b)
  | _ :: _, [] => .ok none
  | c :: cs, x :: xs => do
    let lc ← ctolower c
    let lx ← ctolower x
    if lc = lx then stripName cs xs else .ok none

/-- `Checkbreakpoint` (`copra/src/phase_driver.c:144-168`). -/
def checkbreakpoint (breakpoint name : CStr) : Res (Option CStr) := do
  let r ← stripName name breakpoint
  .ok (match r with
    | some (46 :: x :: rest) => some (x :: rest)
    | _ => none)

/-- The start of a round (`copra/src/phase_driver.c:196-197`). -/
def startRound (id : Nat) (d : Drv W) : R ι W :=
  { out := .run, d := { d with fixedPoint := true, actionId := id }, ev := [.round id] }

/-- The loop condition (`copra/src/phase_driver.c:207`). -/
def again (cycle : Bool) (d : Drv W) : Bool := cycle && decide (d.cycleIter < d.maxCycles) && !d.fixedPoint

/-- `phase_driver.cycle_iter++` (`copra/src/phase_driver.c:206`). -/
def countRound (d : Drv W) : Drv W := { d with cycleIter := d.cycleIter + 1 }

/-- The `do … while` loop of `StartPhase` (`copra/src/phase_driver.c:194-207`) around the actions of the phase; `id`
is `curr_action_id`, the first argument bounds the number of rounds. -/
def loop (cycle : Bool) (id : Nat) (body : Drv W → R ι W) : Nat → Drv W → R ι W
  | 0, d => { out := .fuel, d, ev := [] }
  | n + 1, d =>
    ((startRound id d).bind body).bind fun d =>
      match again cycle (countRound d) with
      | true => loop cycle id body n (countRound d)
      | false => { out := .run, d := countRound d, ev := [] }

/-- The breakpoint narrowing of `StartPhase` (`copra/src/phase_driver.c:179-186`): the breakpoint to use inside. -/
def narrow (name : CStr) (b : Option CStr) : Res (Option CStr) :=
  match b with
  | none => .ok none
  | some b => checkbreakpoint b name

/-- The gate test of `StartPhase` (`copra/src/phase_driver.c:171`). -/
def gateOpen (S : Sem ι W) (gate : Option ι) (d : Drv W) : Drv W × Bool × List (Event ι) :=
  match gate with
  | none => (d, true, [])
  | some g =>
    let r := S.gate g d.world
    ({ d with world := r.1 }, r.2, [.gate d.actionId g r.2])

/-- Installing the narrowed breakpoint (`copra/src/phase_driver.c:182-185`). -/
def inside (new : Option CStr) (d : Drv W) : Drv W :=
  match new with
  | some b => { d with breakpoint := some b }
  | none => d

/-- The end of `StartPhase` (`copra/src/phase_driver.c:209-223`); `old` is `old_break`, the breakpoint before it was
replaced by `new`. -/
def leave (new old : Option CStr) (d : Drv W) : R ι W :=
  if d.phaseError then { out := .abort, d, ev := [] }
  else
    { out := .run
      d := match new with
        | some _ => { d with cycleIter := 0, breakpoint := old }
        | none => { d with cycleIter := 0 }
      ev := [] }

/-- `StartPhase` behind an open gate (`copra/src/phase_driver.c:179-223`); `run` executes the action table once. -/
def openPhase (fuel : Nat) (name : CStr) (cycle : Bool) (run : Drv W → R ι W) (d : Drv W) : R ι W :=
  match narrow name d.breakpoint with
  | .ok new => (loop cycle d.actionId run fuel (inside new d)).bind (leave new d.breakpoint)
  | _ => { out := .ub, d, ev := [] }

/-- `StartPhase` (`copra/src/phase_driver.c:170-224`); `run` executes the action table `acts` once. -/
def startPhase (S : Sem ι W) (fuel : Nat) (name : CStr) (gate : Option ι) (cycle : Bool) (acts : Acts ι)
    (run : Drv W → R ι W) (d : Drv W) : R ι W :=
  let g := gateOpen S gate d
  if g.2.1 then
    R.bind { out := .run, d := g.1, ev := g.2.2 } (openPhase fuel name cycle run)
  else { out := .run, d := { g.1 with actionId := skip acts d.actionId }, ev := g.2.2 }

/-- Restoring the outer `phase_error` after a phase (`copra/src/phase_driver.c:96`). -/
def mergeError (outer : Bool) (d : Drv W) : R ι W :=
  { out := .run, d := { d with phaseError := outer || d.phaseError }, ev := [] }

/-- `CCNdispatchAction` for a phase (`copra/src/phase_driver.c:62-125`, the switch case at 92-97). -/
def dispatchPhase (S : Sem ι W) (fuel : Nat) (name : CStr) (gate : Option ι) (cycle : Bool) (acts : Acts ι)
    (run : Drv W → R ι W) (d : Drv W) : R ι W :=
  (begin S d).bind fun d1 =>
    ((startPhase S fuel name gate cycle acts run { d1 with phaseError := false }).bind
      (mergeError d1.phaseError)).bind (finish name d1.actionId)

/-- The `while` loop over an action table (`copra/src/phase_driver.c:198-205`). -/
def runActs (S : Sem ι W) (fuel : Nat) : Acts ι → Drv W → R ι W
  | .nil, d => { out := .run, d, ev := [] }
  | .leaf name lab next, d => (dispatchLeaf S name lab d).bind (runActs S fuel next)
  | .phase name gate cycle body next, d =>
    (dispatchPhase S fuel name gate cycle body (runActs S fuel body) d).bind (runActs S fuel next)

/-- `CCNrun` (`copra/src/phase_driver.c:298-303`) on the start phase, without the final free traversal. -/
def CCNrun (S : Sem ι W) (fuel : Nat) (name : CStr) (gate : Option ι) (cycle : Bool) (body : Acts ι) (d : Drv W) :
    R ι W :=
  dispatchPhase S fuel name gate cycle body (runActs S fuel body) (reset d)

/-- `ShowTree` (`copra/src/phase_driver.c:311-334`) on an action table: the next id and the printed lines
(indentation and blank lines dropped). -/
def showActs : Acts ι → Nat → Nat × List (Nat × CStr)
  | .nil, id => (id, [])
  | .leaf name _ next, id =>
    let r := showActs next (id + 1)
    (r.1, (if id > 1 then [(id, name)] else []) ++ r.2)
  | .phase name _ _ body next, id =>
    let b := showActs body (id + 1)
    let r := showActs next b.1
    (r.1, (if id > 1 then [(id, name)] else []) ++ b.2 ++ r.2)

/-- `CCNshowTree` (`copra/src/phase_driver.c:339-342`). -/
def CCNshowTree (name : CStr) (gate : Option ι) (cycle : Bool) (body : Acts ι) : List (Nat × CStr) :=
  (showActs (.phase name gate cycle body .nil) 1).2

end Verif.PD
