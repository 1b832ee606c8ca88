import Verif.Lemmas.PhaseDriverTrace

/-! Helper lemmas about the phase driver model: whatever the outcome, the events are the beginning of a complete
trace. -/

namespace Verif.PD
open Verif.Str Verif.Spec.PD

variable {ι W : Type}

theorem complete_exists (acts : Acts ι) : ∀ n m, ∃ ev, Complete False acts n m ev := by
  induction acts with
  | nil => intro n m; exact ⟨_, .nil⟩
  | leaf name lab next ih =>
    intro n m
    obtain ⟨ev, h⟩ := ih (n + 1) m
    exact ⟨_, .leaf (calls := []) (.inl rfl) h⟩
  | phase name gate cycle body next ihb ihn =>
    intro n m
    obtain ⟨ev1, h1⟩ := ihb (n + 1) m
    obtain ⟨ev2, h2⟩ := ihn (n + 1 + (pre body).length) (maxAfter m ([.round (n + 1) :: ev1] : List _).flatten)
    exact ⟨_, .opened (.inl rfl) (.one h1) (fun _ => rfl) (fun _ h => h.elim) h2⟩

theorem loop_prefix (acts : Acts ι) (cycle : Bool) (id : Nat) (body : Drv W → R ι W)
    (hbody : ∀ d : Drv W, d.actionId = id → BodyOK False acts d (body d))
    (hpre : ∀ d : Drv W, d.actionId = id → ∃ rest, Complete False acts id d.maxCycles ((body d).ev ++ rest))
    (fuel : Nat) : ∀ d : Drv W, ∃ rs rest, (loop cycle id body fuel d).ev ++ rest = rs.flatten ∧
      Rounds False acts id d.maxCycles rs ∧ (cycle = false → rs.length = 1) ∧
      ((loop cycle id body fuel d).out = .run → rest = []) := by
  induction fuel with
  | zero =>
    intro d
    obtain ⟨ev, h⟩ := complete_exists acts id d.maxCycles
    exact ⟨[.round id :: ev], .round id :: ev, by simp [loop], .one h, fun _ => rfl, by simp [loop]⟩
  | succ n ih =>
    intro d
    have hb := hbody { d with fixedPoint := true, actionId := id } rfl
    have hp := hpre { d with fixedPoint := true, actionId := id } rfl
    have hfirst : ((startRound id d).bind body : R ι W) =
        { out := (body { d with fixedPoint := true, actionId := id }).out,
          d := (body { d with fixedPoint := true, actionId := id }).d,
          ev := .round id :: (body { d with fixedPoint := true, actionId := id }).ev } := by
      rw [R.bind_run _ rfl]; rfl
    simp only [loop]
    rw [hfirst]
    generalize body { d with fixedPoint := true, actionId := id } = r at hb hp
    unfold BodyOK at hb
    dsimp only at hb hp
    by_cases hrun : r.out = .run
    · have hrun' : (⟨r.out, r.d, .round id :: r.ev⟩ : R ι W).out = .run := hrun
      rw [R.bind_run _ hrun']
      dsimp only
      obtain ⟨h1, h2, _⟩ := hb hrun
      cases ha : again cycle (countRound r.d) with
      | false => exact ⟨[.round id :: r.ev], [], by simp, .one h1, fun _ => rfl, fun _ => rfl⟩
      | true =>
        obtain ⟨rs, rest, e1, e2, _, e4⟩ := ih (countRound r.d)
        have hm : (countRound r.d).maxCycles = maxAfter d.maxCycles r.ev := h2
        rw [hm] at e2
        refine ⟨(.round id :: r.ev) :: rs, rest, ?_, .more h1 e2, ?_, e4⟩
        · simp only [List.cons_append, List.append_assoc, List.flatten_cons]
          rw [← e1]
        · intro hc
          simp [again, hc] at ha
    · have hrun' : (⟨r.out, r.d, .round id :: r.ev⟩ : R ι W).out ≠ .run := hrun
      rw [R.bind_stop _ hrun']
      obtain ⟨rest, h⟩ := hp
      exact ⟨[.round id :: (r.ev ++ rest)], rest, by simp, .one h, fun _ => rfl, fun h => absurd h hrun⟩

theorem startPhase_prefix (S : Sem ι W) (fuel : Nat) (name : CStr) (gate : Option ι) (cycle : Bool) (acts : Acts ι)
    (run : Drv W → R ι W) (d : Drv W)
    (hbody : ∀ d' : Drv W, d'.actionId = d.actionId → BodyOK False acts d' (run d'))
    (hpre : ∀ d' : Drv W, d'.actionId = d.actionId →
      ∃ rest, Complete False acts d.actionId d'.maxCycles ((run d').ev ++ rest)) :
    ∃ rest, ((startPhase S fuel name gate cycle acts run d).out = .run → rest = []) ∧
      ((∃ g, gate = some g ∧ (startPhase S fuel name gate cycle acts run d).ev ++ rest = [.gate d.actionId g false]) ∨
       (∃ rs, (startPhase S fuel name gate cycle acts run d).ev ++ rest = gateEvent d.actionId gate ++ rs.flatten ∧
          Rounds False acts d.actionId d.maxCycles rs ∧ (cycle = false → rs.length = 1))) := by
  obtain ⟨w, hg1, hg2⟩ := gateOpen_spec S gate d
  simp only [startPhase]
  split
  · rename_i hopen
    have hge : (gateOpen S gate d).2.2 = gateEvent d.actionId gate := by
      rw [hg2, hopen]; cases gate <;> rfl
    rw [R.bind_run _ rfl]
    dsimp only
    rw [hge, hg1]
    unfold openPhase
    split
    · rename_i new _
      have hin : (inside new { d with world := w }).maxCycles = d.maxCycles := by cases new <;> rfl
      obtain ⟨rs, rest, e1, e2, e3, e4⟩ := loop_prefix acts cycle d.actionId run hbody hpre fuel
        (inside new { d with world := w })
      rw [hin] at e2
      refine ⟨rest, ?_, .inr ⟨rs, ?_, e2, e3⟩⟩
      · intro h; exact e4 (R.bind_out_run h).1
      · by_cases hl : (loop cycle d.actionId run fuel (inside new { d with world := w })).out = .run
        · rw [R.bind_run _ hl]; dsimp only; rw [leave_ev, List.append_nil, List.append_assoc, e1]
        · rw [R.bind_stop _ hl, List.append_assoc, e1]
    · obtain ⟨ev, h⟩ := complete_exists acts d.actionId d.maxCycles
      exact ⟨.round d.actionId :: ev, by simp, .inr ⟨[.round d.actionId :: ev], by simp, .one h, fun _ => rfl⟩⟩
  · rename_i hclosed
    have hcl : (gateOpen S gate d).2.1 = false := by simpa using hclosed
    refine ⟨[], fun _ => rfl, .inl ?_⟩
    cases gate with
    | none => simp [gateOpen] at hcl
    | some g =>
      refine ⟨g, rfl, ?_⟩
      dsimp only
      rw [hg2, hcl]; rfl

theorem dispatchPhase_prefix (S : Sem ι W) (fuel : Nat) (name : CStr) (gate : Option ι) (cycle : Bool)
    (body next : Acts ι) (d : Drv W)
    (hpre : ∀ d' : Drv W, ∃ rest, Complete False body d'.actionId d'.maxCycles ((runActs S fuel body d').ev ++ rest)) :
    ∃ rest, Complete False (.phase name gate cycle body next) d.actionId d.maxCycles
      ((dispatchPhase S fuel name gate cycle body (runActs S fuel body) d).ev ++ rest) := by
  have hb := begin_run S d
  unfold dispatchPhase
  by_cases hbr : (begin S d).out = .run
  · rw [R.bind_run _ hbr]
    dsimp only
    have hid : (begin S d).d.actionId = d.actionId + 1 := by rw [hb.1]
    have hmx : (begin S d).d.maxCycles = d.maxCycles := by rw [hb.1]
    obtain ⟨rest, hr1, hr2⟩ := startPhase_prefix S fuel name gate cycle body (runActs S fuel body)
      { (begin S d).d with phaseError := false }
      (fun d' _ => runActs_complete S fuel False body d' (fun h => h.elim))
      (fun d' hd' => by have := hpre d'; rwa [hd'] at this)
    generalize hsp : startPhase S fuel name gate cycle body (runActs S fuel body)
      { (begin S d).d with phaseError := false } = sp at hr1 hr2
    rw [show ({ (begin S d).d with phaseError := false } : Drv W).actionId = d.actionId + 1 from hid] at hr2
    rw [show ({ (begin S d).d with phaseError := false } : Drv W).maxCycles = d.maxCycles from hmx] at hr2
    -- what the rest of the dispatch adds
    have htail : ∃ t, ((sp.bind (mergeError (begin S d).d.phaseError)).bind
        (finish name (begin S d).d.actionId)).ev ++ t = sp.ev ++ rest ++ [.done (d.actionId + 1)] := by
      by_cases hsr : sp.out = .run
      · rw [hr1 hsr, List.append_nil]
        have e1 : sp.bind (mergeError (begin S d).d.phaseError) =
            { out := .run, d := { sp.d with phaseError := (begin S d).d.phaseError || sp.d.phaseError }, ev := sp.ev } := by
          rw [R.bind_run _ hsr]; simp [mergeError]
        rw [e1, R.bind_run _ rfl, hid]
        dsimp only
        rcases (finish_cases (ι := ι) name (d.actionId + 1)
          { sp.d with phaseError := (begin S d).d.phaseError || sp.d.phaseError }).2 with h | h
        · rw [h.1]; exact ⟨[.done (d.actionId + 1)], by simp⟩
        · rw [h.1]; exact ⟨[], by simp⟩
      · rw [R.bind_stop _ hsr, R.bind_stop _ hsr]
        exact ⟨rest ++ [.done (d.actionId + 1)], by simp⟩
    obtain ⟨t, ht⟩ := htail
    rcases hr2 with ⟨g, hg, he⟩ | ⟨rs, he, hrs, hlen⟩
    · obtain ⟨ev2, h2⟩ := complete_exists next (d.actionId + 1 + (pre body).length) d.maxCycles
      refine ⟨t ++ ev2, ?_⟩
      rw [he] at ht
      rw [hg]
      have := Complete.closed (strict := False) (name := name) (g := g) (cycle := cycle) (body := body) hb.2 h2
      rw [List.append_assoc, ← List.append_assoc (R.ev _) t ev2, ht]
      simpa using this
    · obtain ⟨ev2, h2⟩ := complete_exists next (d.actionId + 1 + (pre body).length) (maxAfter d.maxCycles rs.flatten)
      refine ⟨t ++ ev2, ?_⟩
      rw [he] at ht
      have := Complete.opened (strict := False) (name := name) (gate := gate) (cycle := cycle) hb.2 hrs hlen
        (fun _ h => h.elim) h2
      rw [List.append_assoc, ← List.append_assoc (R.ev _) t ev2, ht]
      simpa using this
  · rw [R.bind_stop _ hbr]
    obtain ⟨ev1, h1⟩ := complete_exists body (d.actionId + 1) d.maxCycles
    obtain ⟨ev2, h2⟩ := complete_exists next (d.actionId + 1 + (pre body).length)
      (maxAfter d.maxCycles ([.round (d.actionId + 1) :: ev1] : List _).flatten)
    refine ⟨gateEvent (d.actionId + 1) gate ++ ([.round (d.actionId + 1) :: ev1] : List _).flatten ++
      [.done (d.actionId + 1)] ++ ev2, ?_⟩
    have := Complete.opened (strict := False) (name := name) (gate := gate) (cycle := cycle) hb.2 (.one h1)
      (fun _ => rfl) (fun _ h => h.elim) h2
    simpa using this

theorem complete_phase_append {name : CStr} {gate : Option ι} {cycle : Bool} {body next : Acts ι} {n m : Nat}
    {ev1 ev2 : List (Event ι)} (h1 : Complete False (.phase name gate cycle body .nil) n m ev1)
    (h2 : Complete False next (n + 1 + (pre body).length) (maxAfter m ev1) ev2) :
    Complete False (.phase name gate cycle body next) n m (ev1 ++ ev2) := by
  cases h1 with
  | closed hchk hn =>
    cases hn
    rename_i g chk
    have hm : maxAfter m (chk ++ [.gate (n + 1) g false, .done (n + 1)] ++ []) = m := by
      rcases hchk with rfl | rfl <;> rfl
    rw [hm] at h2
    rw [List.append_nil]
    exact Complete.closed hchk h2
  | opened hchk hr hl hs hn =>
    cases hn
    rename_i chk rs
    have hm : maxAfter m (chk ++ gateEvent (n + 1) gate ++ rs.flatten ++ [.done (n + 1)] ++ []) =
        maxAfter m rs.flatten := by
      rw [List.append_nil, maxAfter_append, maxAfter_append, maxAfter_append]
      have e1 : maxAfter m chk = m := by rcases hchk with rfl | rfl <;> rfl
      have e2 : maxAfter m (gateEvent (n + 1) gate) = m := by cases gate <;> rfl
      rw [e1, e2]; rfl
    rw [hm] at h2
    rw [List.append_nil]
    exact Complete.opened hchk hr hl hs h2

/-- Whatever the outcome, the events can be completed to a complete trace. -/
theorem runActs_prefix (S : Sem ι W) (fuel : Nat) (acts : Acts ι) : ∀ d : Drv W,
    ∃ rest, Complete False acts d.actionId d.maxCycles ((runActs S fuel acts d).ev ++ rest) := by
  induction acts with
  | nil => intro d; exact ⟨[], .nil⟩
  | leaf name lab next ih =>
    intro d
    simp only [runActs]
    by_cases hr : (dispatchLeaf S name lab d).out = .run
    · rw [R.bind_run _ hr]
      obtain ⟨chk, calls, hchk, hev, ⟨l, _, _, hd⟩, _⟩ := dispatchLeaf_run S name lab d hr
      obtain ⟨rest, h⟩ := ih (dispatchLeaf S name lab d).d
      have hid : (dispatchLeaf S name lab d).d.actionId = d.actionId + 1 := by rw [hd, applyCalls_actionId]
      have hmx : (dispatchLeaf S name lab d).d.maxCycles = maxAfterCalls d.maxCycles calls := by
        rw [hd, (applyCalls_eff calls _).2.1]
      rw [hid, hmx] at h
      refine ⟨rest, ?_⟩
      dsimp only
      rw [hev, List.append_assoc]
      exact .leaf hchk h
    · rw [R.bind_stop _ hr]
      have hb := begin_run S d
      obtain ⟨calls, rest, he⟩ : ∃ calls rest, (dispatchLeaf S name lab d).ev ++ rest =
          (begin S d).ev ++ [.leaf (d.actionId + 1) lab calls, .done (d.actionId + 1)] := by
        unfold dispatchLeaf
        by_cases hbr : (begin S d).out = .run
        · rw [R.bind_run _ hbr]
          dsimp only
          have hid : (begin S d).d.actionId = d.actionId + 1 := by rw [hb.1]
          by_cases hl : (runLeaf S lab (begin S d).d).out = .run
          · rw [R.bind_run _ hl, hid]
            refine ⟨(S.leaf lab (begin S d).d.world (d.actionId + 1)).calls, ?_⟩
            rcases (finish_cases (ι := ι) name (d.actionId + 1) (runLeaf S lab (begin S d).d).d).2 with h | h
            · rw [h.1]; exact ⟨[.done (d.actionId + 1)], by simp [runLeaf, hid]⟩
            · rw [h.1]; exact ⟨[], by simp [runLeaf, hid]⟩
          · rw [R.bind_stop _ hl]
            exact ⟨_, [.done (d.actionId + 1)], by simp [runLeaf, hid]; rfl⟩
        · rw [R.bind_stop _ hbr]
          exact ⟨[], _, rfl⟩
      obtain ⟨ev, h⟩ := complete_exists next (d.actionId + 1) (maxAfterCalls d.maxCycles calls)
      refine ⟨rest ++ ev, ?_⟩
      rw [← List.append_assoc, he]
      exact .leaf hb.2 h
  | phase name gate cycle body next ihb ihn =>
    intro d
    simp only [runActs]
    by_cases hr : (dispatchPhase S fuel name gate cycle body (runActs S fuel body) d).out = .run
    · rw [R.bind_run _ hr]
      have e : runActs S fuel (.phase name gate cycle body .nil) d =
          (dispatchPhase S fuel name gate cycle body (runActs S fuel body) d).bind (runActs S fuel .nil) := rfl
      have e2 : runActs S fuel (.phase name gate cycle body .nil) d =
          dispatchPhase S fuel name gate cycle body (runActs S fuel body) d := by
        rw [e, R.bind_run _ hr]; simp only [runActs, List.append_nil]
        rw [← hr]
      have hc := runActs_complete S fuel False (.phase name gate cycle body .nil) d (fun h => h.elim)
      rw [e2] at hc
      obtain ⟨h1, h2, _⟩ := hc hr
      have hid := (dispatchPhase_num S fuel name gate cycle body (runActs S fuel body) [] d (by
        intro d' hd'; have := runActs_num S fuel body d'; rwa [hd'] at this)).2 hr
      obtain ⟨rest, h⟩ := ihn (dispatchPhase S fuel name gate cycle body (runActs S fuel body) d).d
      rw [hid, h2] at h
      refine ⟨rest, ?_⟩
      dsimp only
      rw [List.append_assoc]
      exact complete_phase_append h1 h
    · rw [R.bind_stop _ hr]
      exact dispatchPhase_prefix S fuel name gate cycle body next d ihb

/-! ### Data flow -/

theorem replay_append {S : Sem ι W} {w w' w'' : W} {a b : List (Event ι)} (h1 : Replay S w a w')
    (h2 : Replay S w' b w'') : Replay S w (a ++ b) w'' := by
  induction h1 with
  | nil => exact h2
  | leaf _ ih => exact .leaf (ih h2)
  | gate _ ih => exact .gate (ih h2)
  | check _ ih => exact .check (ih h2)
  | round _ ih => exact .round (ih h2)
  | done _ ih => exact .done (ih h2)

theorem replay_bind {S : Sem ι W} {w : W} {r : R ι W} {f : Drv W → R ι W} (h1 : Replay S w r.ev r.d.world)
    (h2 : Replay S r.d.world (f r.d).ev (f r.d).d.world) : Replay S w (r.bind f).ev (r.bind f).d.world := by
  by_cases hr : r.out = .run
  · rw [R.bind_run _ hr]; exact replay_append h1 h2
  · rw [R.bind_stop _ hr]; exact h1

theorem begin_replay (S : Sem ι W) (d : Drv W) : Replay S d.world (begin S d).ev (begin S d).d.world := by
  have hb := begin_run S d
  rw [hb.1]
  rcases hb.2 with h | h <;> rw [h]
  · exact .nil
  · exact .check .nil

theorem finish_replay (S : Sem ι W) (name : CStr) (id : Nat) (d : Drv W) :
    Replay S d.world (finish name id d : R ι W).ev (finish name id d : R ι W).d.world := by
  have hf := finish_cases (ι := ι) name id d
  rw [hf.1]
  rcases hf.2 with h | h <;> rw [h.1]
  · exact .nil
  · exact .done .nil

theorem applyCalls_world (cs : List Call) : ∀ d : Drv W, (cs.foldl applyCall d).world = d.world := by
  induction cs with
  | nil => intro d; rfl
  | cons c cs ih => intro d; rw [List.foldl_cons, ih]; cases c <;> rfl

theorem loop_replay (S : Sem ι W) (cycle : Bool) (id : Nat) (body : Drv W → R ι W)
    (hbody : ∀ d, Replay S d.world (body d).ev (body d).d.world) (fuel : Nat) : ∀ d,
    Replay S d.world (loop cycle id body fuel d).ev (loop cycle id body fuel d).d.world := by
  induction fuel with
  | zero => intro d; exact .nil
  | succ n ih =>
    intro d
    simp only [loop]
    refine replay_bind (replay_bind (.round .nil) (hbody _)) ?_
    split
    · exact ih (countRound _)
    · exact .nil

theorem startPhase_replay (S : Sem ι W) (fuel : Nat) (name : CStr) (gate : Option ι) (cycle : Bool) (acts : Acts ι)
    (run : Drv W → R ι W) (hrun : ∀ d, Replay S d.world (run d).ev (run d).d.world) (d : Drv W) :
    Replay S d.world (startPhase S fuel name gate cycle acts run d).ev
      (startPhase S fuel name gate cycle acts run d).d.world := by
  have hg : Replay S d.world (gateOpen S gate d).2.2 (gateOpen S gate d).1.world := by
    cases gate with
    | none => exact .nil
    | some g => exact .gate .nil
  simp only [startPhase]
  split
  · refine replay_bind hg ?_
    dsimp only
    unfold openPhase
    split
    · rename_i new _
      have hw : (inside new (gateOpen S gate d).1).world = (gateOpen S gate d).1.world := by cases new <;> rfl
      rw [← hw]
      refine replay_bind (loop_replay S cycle _ run hrun fuel _) ?_
      rw [leave_ev]
      have : (leave new (gateOpen S gate d).1.breakpoint
          (loop cycle (gateOpen S gate d).1.actionId run fuel (inside new (gateOpen S gate d).1)).d : R ι W).d.world =
          (loop cycle (gateOpen S gate d).1.actionId run fuel (inside new (gateOpen S gate d).1)).d.world := by
        unfold leave
        split
        · rfl
        · cases new <;> rfl
      rw [this]
      exact .nil
    · exact .nil
  · exact hg

theorem dispatchPhase_replay (S : Sem ι W) (fuel : Nat) (name : CStr) (gate : Option ι) (cycle : Bool) (acts : Acts ι)
    (run : Drv W → R ι W) (hrun : ∀ d, Replay S d.world (run d).ev (run d).d.world) (d : Drv W) :
    Replay S d.world (dispatchPhase S fuel name gate cycle acts run d).ev
      (dispatchPhase S fuel name gate cycle acts run d).d.world := by
  unfold dispatchPhase
  refine replay_bind (begin_replay S d) (replay_bind (replay_bind ?_ .nil) (finish_replay S _ _ _))
  exact startPhase_replay S fuel name gate cycle acts run hrun { (begin S d).d with phaseError := false }

theorem runActs_replay (S : Sem ι W) (fuel : Nat) (acts : Acts ι) : ∀ d : Drv W,
    Replay S d.world (runActs S fuel acts d).ev (runActs S fuel acts d).d.world := by
  induction acts with
  | nil => intro d; exact .nil
  | leaf name lab next ih =>
    intro d
    simp only [runActs, dispatchLeaf]
    refine replay_bind (replay_bind (begin_replay S d) (replay_bind ?_ (finish_replay S _ _ _))) (ih _)
    have : (runLeaf S lab (begin S d).d).d.world =
        (S.leaf lab (begin S d).d.world (begin S d).d.actionId).world := by
      simp only [runLeaf, applyCalls_world]
    rw [this]
    exact .leaf .nil
  | phase name gate cycle body next ihb ihn =>
    intro d
    simp only [runActs]
    exact replay_bind (dispatchPhase_replay S fuel name gate cycle body _ ihb d) (ihn _)

end Verif.PD
