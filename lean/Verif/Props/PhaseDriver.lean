import Verif.Lemmas.PhaseDriverErr
import Verif.Lemmas.PhaseDriverBreak
import Verif.Lemmas.PhaseDriverPrefix

/-!
# Properties C17 – C21: the phase driver

All theorems hold for every phase tree, every behaviour of passes, traversals and gates, and every number of loop
rounds `fuel` granted to the model.
-/

namespace Verif.Props
open Verif.PD Verif.Str Verif.Spec.Str Verif.Spec.PD

variable {ι W : Type}

/-- Test program: action 1 notifies, 2 signals an action error, 3 a phase error, others do nothing; gate 1 is open,
the others closed. -/
def demoSem : Sem Nat Unit where
  leaf lab w _ := { world := w, exits := false,
                    calls := match lab with
                      | 1 => [.notify]
                      | 2 => [.errorAction]
                      | 3 => [.errorPhase]
                      | _ => [] }
  gate g w := (w, g = 1)
  check _ _ := false

/-! ## C17 -/

/-- C17: every event carries the pre-order number of the action occurrence it belongs to, whatever the gates and
cycles do and however the run ends. -/
theorem C17_ids (S : Sem ι W) (fuel : Nat) (name : CStr) (gate : Option ι) (cycle : Bool) (body : Acts ι) (d : Drv W) :
    ∀ e ∈ (CCNrun S fuel name gate cycle body d).ev, Numbered 0 (preRoot name gate cycle body) e := by
  have h := dispatchPhase_num S fuel name gate cycle body (runActs S fuel body) [] (reset d) (by
    intro d' hd'; have := runActs_num S fuel body d'; rwa [hd'] at this)
  intro e he
  have := h.1 e he
  simpa [preRoot, reset] using this

/-- A tree with a closed gate and a repeated cycle: action 5 still has number 5. -/
example : (CCNrun demoSem 9 [114] none false
    (.phase [112] (some 0) false (.leaf [97] 4 .nil)
      (.phase [99] none true (.leaf [98] 5 .nil) .nil)) (initial ())).ev =
    [.check 1, .round 1, .check 2, .gate 2 0 false, .done 2, .check 4, .round 4, .check 5, .leaf 5 5 [], .done 5,
      .done 4, .done 1] := by decide

/-- C17: `CCNshowTree` prints every action below the root with its pre-order number. -/
theorem C17_showTree (name : CStr) (gate : Option ι) (cycle : Bool) (body : Acts ι) :
    CCNshowTree name gate cycle body =
      (((pre body).map Node.name).zipIdx 2).map (fun p => (p.2, p.1)) := by
  have h := (showActs_eq body 2).2 (by omega)
  simp only [CCNshowTree, showActs]
  simp [h]

example : CCNshowTree [114] none false (.phase [112] (some 0) false (.leaf [97] (4 : Nat) .nil) (.leaf [98] 5 .nil)) =
    [(2, [112]), (3, [97]), (4, [98])] := by decide

/-- C17: after a completed run the counter has passed every action, so that ids of a following run's lifetimes and of
`CCNgetCurrentActionId` never depend on gates. -/
theorem C17_end (S : Sem ι W) (fuel : Nat) (name : CStr) (gate : Option ι) (cycle : Bool) (body : Acts ι) (d : Drv W)
    (h : (CCNrun S fuel name gate cycle body d).out = .run) :
    (CCNrun S fuel name gate cycle body d).d.actionId = (preRoot name gate cycle body).length := by
  have hn := dispatchPhase_num S fuel name gate cycle body (runActs S fuel body) [] (reset d) (by
    intro d' hd'; have := runActs_num S fuel body d'; rwa [hd'] at this)
  have := hn.2 h
  simp only [preRoot, List.length_cons, CCNrun]
  rw [this]; simp [reset]; omega

example : (CCNrun demoSem 9 [114] none false (.phase [112] (some 0) false (.leaf [97] 4 .nil) .nil)
    (initial ())).out = .run := by decide

/-! ## C18 -/

/-- C18 for trees in which no phase is nested below a cycle: in a completed run every cycle runs its actions in
rounds, another round following exactly if the last one notified and fewer than the maximum number of rounds were
done (`Complete True`, through `RoundsOK`).  Missing: phases nested below a cycle, for which the statement is false
(`C18_lost_notification_false`, `C18_divergence_false`, `C18_inherited_count_false`). -/
theorem C18_cycles_partial (S : Sem ι W) (fuel : Nat) (name : CStr) (gate : Option ι) (cycle : Bool) (body : Acts ι)
    (d : Drv W) (hf : FlatCycles (.phase name gate cycle body .nil))
    (h : (CCNrun S fuel name gate cycle body d).out = .run) :
    Complete True (.phase name gate cycle body .nil) 0 d.maxCycles (CCNrun S fuel name gate cycle body d).ev := by
  have := runActs_complete S fuel True (.phase name gate cycle body .nil) (reset d) (fun _ => .inl ⟨hf, rfl⟩)
  rw [dispatch_eq_runActs] at this
  exact (this h).1

/-- A cycle that is notified in every round stops after the maximum number of rounds. -/
example : (CCNrun demoSem 3 [114] none false (.phase [99] none true (.leaf [97] 1 .nil) .nil)
      { initial () with maxCycles := 3, treeCheck := false }).out = .run ∧
    (CCNrun demoSem 3 [114] none false (.phase [99] none true (.leaf [97] 1 .nil) .nil)
      { initial () with maxCycles := 3, treeCheck := false }).ev =
    [.round 1, .round 2, .leaf 3 1 [.notify], .done 3, .round 2, .leaf 3 1 [.notify], .done 3, .round 2,
      .leaf 3 1 [.notify], .done 3, .done 2, .done 1] ∧
    FlatCycles (.phase [114] none false (.phase [99] none true (.leaf [97] 1 .nil) .nil) .nil : Acts Nat) := by
  refine ⟨by decide, by decide, ?_⟩
  simp [FlatCycles, Flat]

/-- C18: as long as no action changes the maximum and no phase is nested below a cycle, every run ends within
`max 1 maximum` rounds of each loop. -/
theorem C18_terminates_partial (S : Sem ι W) (hS : ∀ lab w id n, Call.setCycles n ∉ (S.leaf lab w id).calls)
    (fuel : Nat) (name : CStr) (gate : Option ι) (cycle : Bool) (body : Acts ι) (d : Drv W)
    (hf : FlatCycles (.phase name gate cycle body .nil)) (h1 : 1 ≤ fuel) (h2 : d.maxCycles ≤ fuel) :
    (CCNrun S fuel name gate cycle body d).out ≠ .fuel := by
  have := runActs_not_fuel S hS d.maxCycles fuel ⟨h1, h2⟩ (.phase name gate cycle body .nil) hf (reset d) rfl
  rwa [dispatch_eq_runActs] at this

example : ∀ lab w id n, Call.setCycles n ∉ (demoSem.leaf lab w id).calls := by
  intro lab w id n
  simp only [demoSem]
  split <;> simp

/-- C18: the rounds of a cycle number at least one and at most the maximum (or one). -/
theorem C18_rounds_partial (max : Nat) (rs : List (List (Event ι))) (h : RoundsOK max 0 rs)
    (hk : ∀ r ∈ rs, ∀ e ∈ r, ∀ n, ¬ Calls e (.setCycles n)) : 1 ≤ rs.length ∧ rs.length ≤ Nat.max 1 max := by
  obtain ⟨a, b⟩ := roundsOK_length h (fun r hr m => maxAfter_keep r (hk r hr) m)
  refine ⟨a, ?_⟩
  rcases b with b | b
  · rw [b]; exact Nat.le_max_left _ _
  · exact Nat.le_trans (by omega) (Nat.le_max_right 1 max)

example : RoundsOK 2 0 [[.leaf 2 (1 : Nat) [.notify]], [.leaf 2 1 [.notify]]] := by
  refine .more (by decide) (by decide) (.last ?_)
  rintro ⟨_, h⟩
  simp [maxAfter, maxAfterCalls] at h

/-- The cycle `c { a; p { b } }`, where `a` notifies. -/
def lostTree : Acts Nat := .phase [99] none true (.leaf [97] 1 (.phase [112] none false (.leaf [98] 4 .nil) .nil)) .nil

/-- C18 is false for nested phases: a notification is lost when a phase follows in the same round, because entering
that phase sets `fixed_point` again.  The cycle numbered 2 stops after one round although `a` (numbered 3) notified
and the maximum is 100. -/
theorem C18_lost_notification_false :
    (CCNrun demoSem 200 [114] none false lostTree (initial ())).out = .run ∧
    (initial ()).maxCycles = 100 ∧
    (CCNrun demoSem 200 [114] none false lostTree (initial ())).ev.filter (· = .round 2) = [.round 2] ∧
    .leaf 3 1 [.notify] ∈ (CCNrun demoSem 200 [114] none false lostTree (initial ())).ev := by
  decide

/-- The cycle `c { p { b }; a }`, where `a` notifies. -/
def endlessBody : Acts Nat := .phase [112] none false (.leaf [98] 4 .nil) (.leaf [97] 1 .nil)

def endlessState (i k mx : Nat) (fp : Bool) : Drv Unit :=
  { actionId := i, cycleIter := k, maxCycles := mx, breakpointId := 0, fixedPoint := fp, actionError := false,
    phaseError := false, treeCheck := false, breakpoint := none, world := () }

theorem endless_round (m i k mx : Nat) :
    runActs demoSem (m + 1) endlessBody (endlessState i k mx true) =
    { out := .run, d := endlessState (i + 1 + 1 + 1) 0 mx false,
      ev := [.round (i + 1), .leaf (i + 1 + 1) 4 [], .done (i + 1 + 1), .done (i + 1),
        .leaf (i + 1 + 1 + 1) 1 [.notify], .done (i + 1 + 1 + 1)] } := by
  rfl

theorem endless_loop (m mx : Nat) (hmx : 2 ≤ mx) (id : Nat) (n : Nat) : ∀ (i k : Nat) (fp : Bool),
    (loop true id (runActs demoSem (m + 1) endlessBody) n (endlessState i k mx fp)).out = .fuel := by
  induction n with
  | zero => intro i k fp; rfl
  | succ n ih =>
    intro i k fp
    have h1 : ((startRound id (endlessState i k mx fp) : R Nat Unit).bind (runActs demoSem (m + 1) endlessBody)).d =
        endlessState (id + 1 + 1 + 1) 0 mx false ∧
      ((startRound id (endlessState i k mx fp) : R Nat Unit).bind (runActs demoSem (m + 1) endlessBody)).out = .run := by
      rw [R.bind_run _ rfl]
      have e : (startRound id (endlessState i k mx fp) : R Nat Unit).d = endlessState id k mx true := rfl
      rw [e, endless_round]
      exact ⟨rfl, rfl⟩
    have ha : again true (countRound (endlessState (id + 1 + 1 + 1) 0 mx false)) = true := by
      simp [again, countRound, endlessState]; omega
    simp only [loop]
    rw [R.bind_run _ h1.2, h1.1]
    simp only [ha]
    exact ih _ 1 _

/-- C18 is false for nested phases: the cycle `c { p { b }; a }` whose action `a` notifies in every round never ends,
however large the (finite) maximum, because leaving `p` sets the round counter back to 0. -/
theorem C18_divergence_false (fuel max : Nat) (hmax : 2 ≤ max) :
    (CCNrun demoSem fuel [114] none false (.phase [99] none true endlessBody .nil)
      { initial () with maxCycles := max, treeCheck := false }).out = .fuel := by
  unfold CCNrun
  refine dispatchPhase_fuel _ _ _ _ _ _ _ rfl rfl ?_
  cases fuel with
  | zero => rfl
  | succ m =>
    have h : (runActs demoSem (m + 1) (.phase [99] none true endlessBody .nil) (endlessState 1 0 max true)).out =
        .fuel := by
      rw [dispatch_eq_runActs]
      exact dispatchPhase_fuel demoSem (m + 1) [99] true endlessBody _ (endlessState 1 0 max true) rfl rfl
        (endless_loop m max hmax 2 (m + 1) 2 0 true)
    exact loop_fuel_of_body _ _ _ _ _ h

example : 2 ≤ (initial ()).maxCycles := by decide

/-- The cycle `o { i { a }; a }` with maximum 2, where `a` notifies once in round one of `o`. -/
def countSem : Sem Nat Nat where
  leaf lab w _ := { world := w + 1, exits := false, calls := if lab = 1 then [.notify] else [] }
  gate _ w := (w, true)
  check _ _ := false

/-- C18 is false for nested cycles: in the second round of the outer cycle the inner one starts with the outer
cycle's counter and is stopped after a single round, although its action notifies and the maximum is 2. -/
theorem C18_inherited_count_false :
    ((loop true 2 (runActs countSem 4 (.phase [105] none true (.leaf [97] 1 .nil) (.leaf [97] 1 .nil))) 2
      { initial 0 with maxCycles := 2, treeCheck := false }).ev.filter (fun e => e = .round 2 ∨ e = .round 3) =
        [.round 2, .round 3, .round 3, .round 2, .round 3]) := by
  decide

/-! ## C19 -/

/-- C19: in a completed run the events are exactly those of the tree read from left to right, where a closed gate
contributes none of the actions below it, an open or absent gate all of them in order. -/
theorem C19_completed (S : Sem ι W) (fuel : Nat) (name : CStr) (gate : Option ι) (cycle : Bool) (body : Acts ι)
    (d : Drv W) (h : (CCNrun S fuel name gate cycle body d).out = .run) :
    Complete False (.phase name gate cycle body .nil) 0 d.maxCycles (CCNrun S fuel name gate cycle body d).ev := by
  have := runActs_complete S fuel False (.phase name gate cycle body .nil) (reset d) (fun h => h.elim)
  rw [dispatch_eq_runActs] at this
  exact (this h).1

example : (CCNrun demoSem 9 [114] (some 1) false
    (.phase [112] (some 0) false (.leaf [97] 4 .nil) (.leaf [98] 5 .nil)) (initial ())).out = .run := by decide

/-- C19: also a run that is aborted, stopped by a breakpoint or still going on has only produced the beginning of
such a sequence. -/
theorem C19_prefix (S : Sem ι W) (fuel : Nat) (name : CStr) (gate : Option ι) (cycle : Bool) (body : Acts ι)
    (d : Drv W) : ∃ rest, Complete False (.phase name gate cycle body .nil) 0 d.maxCycles
      ((CCNrun S fuel name gate cycle body d).ev ++ rest) := by
  have := runActs_prefix S fuel (.phase name gate cycle body .nil) (reset d)
  rw [dispatch_eq_runActs] at this
  exact this

example : (CCNrun demoSem 9 [114] (some 1) false
    (.phase [112] (some 0) false (.leaf [97] 4 .nil) (.leaf [98] 2 (.leaf [98] 4 .nil))) (initial ())).out = .abort ∧
    (CCNrun demoSem 9 [114] (some 1) false
    (.phase [112] (some 0) false (.leaf [97] 4 .nil) (.leaf [98] 2 (.leaf [98] 4 .nil))) (initial ())).ev =
    [.check 1, .gate 1 1 true, .round 1, .check 2, .gate 2 0 false, .done 2, .check 4, .leaf 4 2 [.errorAction]] := by
  decide

/-- C19: the tree (in the world) is passed from action to action: every leaf event is what that action does on the
world left by the events before, and the run ends with the world left by the last one. -/
theorem C19_dataflow (S : Sem ι W) (fuel : Nat) (name : CStr) (gate : Option ι) (cycle : Bool) (body : Acts ι)
    (d : Drv W) : Replay S d.world (CCNrun S fuel name gate cycle body d).ev
      (CCNrun S fuel name gate cycle body d).d.world :=
  dispatchPhase_replay S fuel name gate cycle body _ (runActs_replay S fuel body) (reset d)

example : (CCNrun countSem 9 [114] none false (.leaf [97] 4 (.leaf [97] 4 .nil)) (initial 5)).d.world = 7 := by decide

/-- C19: a phase with a closed gate leaves everything but the counter (and what the gate function itself did) as it
was; in particular the tree is returned unchanged if the gate function does not touch it. -/
theorem C19_closed (S : Sem ι W) (fuel : Nat) (name : CStr) (g : ι) (cycle : Bool) (acts : Acts ι)
    (run : Drv W → R ι W) (d : Drv W) (h : (S.gate g d.world).2 = false) :
    startPhase S fuel name (some g) cycle acts run d =
      { out := .run, d := { d with world := (S.gate g d.world).1, actionId := d.actionId + (pre acts).length },
        ev := [.gate d.actionId g false] } := by
  simp only [startPhase, gateOpen, h, skip_eq]
  rfl

example : (demoSem.gate 0 ()).2 = false := by decide

/-! ## C20 -/

/-- C20: after `CCNerrorAction` the action that called it is the last thing that happens, and the compilation is
aborted. -/
theorem C20_error_action (S : Sem ι W) (fuel : Nat) (name : CStr) (gate : Option ι) (cycle : Bool) (body : Acts ι)
    (d : Drv W) (before after : List (Event ι)) (e : Event ι)
    (h : (CCNrun S fuel name gate cycle body d).ev = before ++ e :: after) (hc : Calls e .errorAction) :
    after = [] ∧ (CCNrun S fuel name gate cycle body d).out = .abort :=
  (dispatchPhase_stops S fuel name gate cycle body _ (runActs_stops S fuel body) (reset d) rfl).1 before e after h hc

example : ∃ e ∈ (CCNrun demoSem 9 [114] none false
    (.phase [112] none false (.leaf [97] 2 .nil) (.leaf [98] 5 .nil)) (initial ())).ev, Calls e .errorAction := by
  decide

/-- C20: after `CCNerrorPhase` in an action of some phase, only actions below that same phase start (more rounds of
it included), i.e. nothing behind the phase. -/
theorem C20_error_phase (S : Sem ι W) (fuel : Nat) (name : CStr) (gate : Option ι) (cycle : Bool) (body : Acts ι)
    (d : Drv W) (before after : List (Event ι)) (e : Event ι)
    (h : (CCNrun S fuel name gate cycle body d).ev = before ++ e :: after) (hc : Calls e .errorPhase) :
    ∀ e' ∈ after, let s := scope 0 (preRoot name gate cycle body).length (.phase name gate cycle body .nil) 0 (eid e)
      (s.1 < eid e' ∧ eid e' ≤ s.2) ∨ e' = .round s.1 := by
  have hs := runActs_scope S fuel (.phase name gate cycle body .nil) 0 (preRoot name gate cycle body).length (reset d)
    (Nat.zero_le _) (by simp [reset, pre, preRoot])
  rw [dispatch_eq_runActs] at hs
  exact (hs before e after h hc).1

/-- The phase error of action 3 in phase 2: action 4 still runs, action 5 does not, and the run is aborted. -/
example : (CCNrun demoSem 9 [114] none false
    (.phase [112] none false (.leaf [97] 3 (.leaf [97] 4 .nil)) (.leaf [98] 5 .nil))
      { initial () with treeCheck := false }).ev =
    [.round 1, .round 2, .leaf 3 3 [.errorPhase], .done 3, .leaf 4 4 [], .done 4] ∧
    scope 0 5 (.phase [114] none false (.phase [112] none false (.leaf [97] 3 (.leaf [97] 4 .nil))
      (.leaf [98] 5 .nil)) .nil : Acts Nat) 0 3 = (2, 4) := by
  decide

/-- C20: a run in which an action signalled an error never ends normally. -/
theorem C20_error_fails (S : Sem ι W) (fuel : Nat) (name : CStr) (gate : Option ι) (cycle : Bool) (body : Acts ι)
    (d : Drv W) (h : (CCNrun S fuel name gate cycle body d).out = .run) :
    ∀ e ∈ (CCNrun S fuel name gate cycle body d).ev, ¬ Calls e .errorAction ∧ ¬ Calls e .errorPhase := by
  intro e he
  refine ⟨(dispatchPhase_stops S fuel name gate cycle body _ (runActs_stops S fuel body) (reset d) rfl).none_of_run h
    e he, ?_⟩
  intro hc
  exact (dispatchPhase_pflag S fuel name gate cycle body _ (runActs_pflag S fuel body) (reset d) h).1 ⟨e, he, hc⟩

example : (CCNrun demoSem 9 [114] none false (.leaf [97] 4 .nil) (initial ())).out = .run := by decide

/-- C20: a pending phase error does not influence the remaining actions of the phase: they run with the same events
and the same outcome as without it. -/
theorem C20_pending (S : Sem ι W) (fuel : Nat) (acts : Acts ι) (d : Drv W) :
    (runActs S fuel acts { d with phaseError := true }).out = (runActs S fuel acts { d with phaseError := false }).out ∧
    (runActs S fuel acts { d with phaseError := true }).ev = (runActs S fuel acts { d with phaseError := false }).ev := by
  obtain ⟨a, b, _⟩ := runActs_sameRun S fuel acts { d with phaseError := true } { d with phaseError := false } rfl
  exact ⟨a, b⟩

/-- C20: neither does it influence further rounds of a cycle. -/
theorem C20_pending_rounds (S : Sem ι W) (fuel rounds : Nat) (cycle : Bool) (id : Nat) (acts : Acts ι) (d : Drv W) :
    (loop cycle id (runActs S fuel acts) rounds { d with phaseError := true }).out =
      (loop cycle id (runActs S fuel acts) rounds { d with phaseError := false }).out ∧
    (loop cycle id (runActs S fuel acts) rounds { d with phaseError := true }).ev =
      (loop cycle id (runActs S fuel acts) rounds { d with phaseError := false }).ev := by
  obtain ⟨a, b, _⟩ := loop_sameRun cycle id (runActs S fuel acts) (runActs_sameRun S fuel acts) rounds
    { d with phaseError := true } { d with phaseError := false } rfl
  exact ⟨a, b⟩

example : (runActs demoSem 9 (.leaf [97] 4 .nil) { initial () with phaseError := true }).ev ≠ [] := by decide

/-! ## C21 -/

/-- C21, exact account of breakpoints: with breakpoint path `bp` and breakpoint number `k`, the run stops right after
the first completion of an action asked for by `AsksStop` and for no other reason by a breakpoint. -/
theorem C21_breakpoint (S : Sem ι W)
    (hS : ∀ lab w id c, c ∈ (S.leaf lab w id).calls → (∀ b, c ≠ .setBreakpoint b) ∧ ∀ n, c ≠ .setBreakpointId n)
    (fuel : Nat) (name : CStr) (gate : Option ι) (cycle : Bool) (body : Acts ι) (d : Drv W)
    (hnames : ∀ x ∈ preRoot name gate cycle body, Component x.name) (bp : Option (List CStr))
    (hbp : ∀ cs, bp = some cs → cs ≠ [] ∧ ∀ c ∈ cs, Component c) (hd : d.breakpoint = bp.map dotted) :
    let r := CCNrun S fuel name gate cycle body d
    let Stop := fun i => ∃ p, 1 ≤ i ∧ (pathsRoot name body)[i - 1]? = some p ∧ AsksStop bp d.breakpointId i p
    (∀ before i after, r.ev = before ++ .done i :: after → Stop i → after = [] ∧ r.out = .brk) ∧
    (r.out = .brk → ∃ before i, r.ev = before ++ [.done i] ∧ Stop i) ∧ r.out ≠ .ub := by
  intro r Stop
  have h := runActs_stopper S hS fuel Stop d.breakpointId (.phase name gate cycle body .nil) bp (reset d) hbp
    (by intro x hx; exact hnames x (by simpa [pre, preRoot] using hx)) hd rfl (by
      intro j p hj
      have e : (pathsRoot name body)[j]? = some p := by
        rw [← hj]; simp [paths, pathsRoot]
      have : (reset d).actionId + 1 + j = j + 1 := by simp [reset]; omega
      rw [this]
      constructor
      · rintro ⟨q, _, hq, ha⟩
        rw [Nat.add_sub_cancel, e] at hq
        cases hq; exact ha
      · intro ha; exact ⟨p, by omega, by rw [Nat.add_sub_cancel]; exact e, ha⟩)
  rw [dispatch_eq_runActs] at h
  exact ⟨h.stops, h.only, h.noub⟩

example : ∀ lab w id c, c ∈ (demoSem.leaf lab w id).calls →
    (∀ b, c ≠ .setBreakpoint b) ∧ ∀ n, c ≠ .setBreakpointId n := by
  intro lab w id c hc
  simp only [demoSem] at hc
  split at hc <;> simp at hc <;> subst hc <;> simp

example : ∀ x ∈ preRoot [114] none false (.leaf [97, 98] (4 : Nat) .nil), Component x.name := by
  intro x hx
  simp only [preRoot, pre, List.mem_cons, List.not_mem_nil, or_false] at hx
  rcases hx with rfl | rfl <;> exact ⟨by decide, by decide, by intro c hc; revert c; decide⟩

/-- C21 for breakpoint numbers: with breakpoint id `k` (and no path) the run stops by the breakpoint exactly behind the
first completion of action `k`. -/
theorem C21_breakpoint_id (S : Sem ι W)
    (hS : ∀ lab w id c, c ∈ (S.leaf lab w id).calls → (∀ b, c ≠ .setBreakpoint b) ∧ ∀ n, c ≠ .setBreakpointId n)
    (fuel : Nat) (name : CStr) (gate : Option ι) (cycle : Bool) (body : Acts ι) (d : Drv W)
    (hnames : ∀ x ∈ preRoot name gate cycle body, Component x.name) (hd : d.breakpoint = none)
    (hk : 0 < d.breakpointId) :
    let r := CCNrun S fuel name gate cycle body d
    (∀ before after, r.ev = before ++ .done d.breakpointId :: after → after = [] ∧ r.out = .brk) ∧
    (r.out = .brk → ∃ before, r.ev = before ++ [.done d.breakpointId]) := by
  intro r
  obtain ⟨h1, h2, _⟩ := C21_breakpoint S hS fuel name gate cycle body d hnames none (by simp) hd
  refine ⟨?_, ?_⟩
  · intro before after he
    refine h1 before _ after he ?_
    have hm : Event.done d.breakpointId ∈ r.ev := by rw [he]; simp
    obtain ⟨a, x, hx, _⟩ := C17_ids S fuel name gate cycle body d _ hm
    simp only [eid] at a hx
    have hlen : d.breakpointId - 0 - 1 < (preRoot name gate cycle body).length := by
      rcases Nat.lt_or_ge (d.breakpointId - 0 - 1) (preRoot name gate cycle body).length with h | h
      · exact h
      · rw [List.getElem?_eq_none h] at hx; cases hx
    have hpl : (pathsRoot name body).length = (preRoot name gate cycle body).length := by
      simp [pathsRoot, preRoot, paths_length]
    refine ⟨(pathsRoot name body)[d.breakpointId - 1]'(by rw [hpl]; omega), by omega, ?_, .inl ⟨hk, rfl⟩⟩
    exact List.getElem?_eq_getElem _
  · intro ho
    obtain ⟨before, i, he, p, _, _, ha⟩ := h2 ho
    rcases ha with ⟨_, rfl⟩ | ⟨cs, hc, _⟩
    · exact ⟨before, he⟩
    · cases hc

/-- Breaking behind action 3 in the second round would need a first completion before: it stops in round one. -/
example : (CCNrun demoSem 9 [114] none false (.phase [99] none true (.leaf [97] 1 .nil) .nil)
      { initial () with breakpointId := 3, treeCheck := false }).out = .brk ∧
    (CCNrun demoSem 9 [114] none false (.phase [99] none true (.leaf [97] 1 .nil) .nil)
      { initial () with breakpointId := 3, treeCheck := false }).ev =
    [.round 1, .round 2, .leaf 3 1 [.notify], .done 3] := by decide

/-- C21 for breakpoint paths, first half: the action at exactly that path (up to letter case) does stop the run at its
first completion. -/
theorem C21_path_stops (S : Sem ι W)
    (hS : ∀ lab w id c, c ∈ (S.leaf lab w id).calls → (∀ b, c ≠ .setBreakpoint b) ∧ ∀ n, c ≠ .setBreakpointId n)
    (fuel : Nat) (name : CStr) (gate : Option ι) (cycle : Bool) (body : Acts ι) (d : Drv W)
    (hnames : ∀ x ∈ preRoot name gate cycle body, Component x.name) (cs : List CStr)
    (hcs : cs ≠ [] ∧ ∀ c ∈ cs, Component c) (hd : d.breakpoint = some (dotted cs))
    (i : Nat) (p : List CStr) (hi : 1 ≤ i) (hp : (pathsRoot name body)[i - 1]? = some p) (hsame : SamePath cs p) :
    let r := CCNrun S fuel name gate cycle body d
    ∀ before after, r.ev = before ++ .done i :: after → after = [] ∧ r.out = .brk := by
  intro r before after he
  obtain ⟨h1, _, _⟩ := C21_breakpoint S hS fuel name gate cycle body d hnames (some cs)
    (by intro c hc; cases hc; exact hcs) (by simpa using hd)
  exact h1 before i after he ⟨p, hi, hp, .inr ⟨cs, rfl, hits_self cs p hcs.1 hsame⟩⟩

/-- Breakpoint `R.p.A` on `r { p { b; a }; a }`. -/
example : (CCNrun demoSem 9 [114] none false
    (.phase [112] none false (.leaf [98] 4 (.leaf [97] 4 .nil)) (.leaf [97] 4 .nil))
      { initial () with breakpoint := some (dotted [[82], [112], [65]]), treeCheck := false }).ev =
    [.round 1, .round 2, .leaf 3 4 [], .done 3, .leaf 4 4 [], .done 4] := by decide

/-- C21 for breakpoint paths, second half as far as it holds: if the breakpoint stops the run, then behind an action
whose path contains the components of the breakpoint in order, ending with the action's own name.  Missing: the
components need not be consecutive (`C21_path_false`). -/
theorem C21_path_partial (S : Sem ι W)
    (hS : ∀ lab w id c, c ∈ (S.leaf lab w id).calls → (∀ b, c ≠ .setBreakpoint b) ∧ ∀ n, c ≠ .setBreakpointId n)
    (fuel : Nat) (name : CStr) (gate : Option ι) (cycle : Bool) (body : Acts ι) (d : Drv W)
    (hnames : ∀ x ∈ preRoot name gate cycle body, Component x.name) (cs : List CStr)
    (hcs : cs ≠ [] ∧ ∀ c ∈ cs, Component c) (hd : d.breakpoint = some (dotted cs)) (h0 : d.breakpointId = 0)
    (hb : (CCNrun S fuel name gate cycle body d).out = .brk) :
    ∃ before i p q, (CCNrun S fuel name gate cycle body d).ev = before ++ [.done i] ∧
      (pathsRoot name body)[i - 1]? = some p ∧ q.Sublist p ∧ SamePath cs q ∧ q.getLast? = p.getLast? := by
  obtain ⟨_, h2, _⟩ := C21_breakpoint S hS fuel name gate cycle body d hnames (some cs)
    (by intro c hc; cases hc; exact hcs) (by simpa using hd)
  obtain ⟨before, i, he, p, _, hp, ha⟩ := h2 hb
  rcases ha with ⟨h, _⟩ | ⟨cs', hc, hh⟩
  · omega
  · cases hc
    obtain ⟨q, q1, q2, _, q4⟩ := hits_sublist cs p hh
    exact ⟨before, i, p, q, he, hp, q1, q2, q4⟩

/-- C21 is false as stated for paths: the breakpoint `r.a.b` on `r { a { c { b }; b } }` stops behind `r.a.c.b`,
action 4, which does not lie directly along the path; `r.a.b` is action 5. -/
theorem C21_path_false :
    (CCNrun demoSem 9 [114] none false
      (.phase [97] none false (.phase [99] none false (.leaf [98] 4 .nil) (.leaf [98] 4 .nil)) .nil)
      { initial () with breakpoint := some (dotted [[114], [97], [98]]), treeCheck := false }).out = .brk ∧
    (CCNrun demoSem 9 [114] none false
      (.phase [97] none false (.phase [99] none false (.leaf [98] 4 .nil) (.leaf [98] 4 .nil)) .nil)
      { initial () with breakpoint := some (dotted [[114], [97], [98]]), treeCheck := false }).ev =
    [.round 1, .round 2, .round 3, .leaf 4 4 [], .done 4] ∧
    (pathsRoot [114] (.phase [97] none false (.phase [99] none false (.leaf [98] 4 .nil) (.leaf [98] (4 : Nat) .nil))
      .nil)) = [[[114]], [[114], [97]], [[114], [97], [99]], [[114], [97], [99], [98]], [[114], [97], [98]]] := by
  decide

end Verif.Props
