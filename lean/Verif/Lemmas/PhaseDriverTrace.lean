import Verif.Lemmas.PhaseDriver

/-! Helper lemmas about the phase driver model: the events of completed executions. -/

namespace Verif.PD
open Verif.Str Verif.Spec.PD

variable {ι W : Type}

theorem maxAfter_append (a : List (Event ι)) : ∀ (m : Nat) (b : List (Event ι)),
    maxAfter m (a ++ b) = maxAfter (maxAfter m a) b := by
  induction a with
  | nil => intro m b; rfl
  | cons e a ih => intro m b; cases e <;> simp only [List.cons_append, maxAfter, ih]

theorem notified_append (a b : List (Event ι)) : Notified (a ++ b) ↔ Notified a ∨ Notified b := by
  unfold Notified
  constructor
  · rintro ⟨e, he, hc⟩
    rcases List.mem_append.mp he with h | h
    · exact .inl ⟨e, h, hc⟩
    · exact .inr ⟨e, h, hc⟩
  · rintro (⟨e, he, hc⟩ | ⟨e, he, hc⟩)
    · exact ⟨e, List.mem_append_left _ he, hc⟩
    · exact ⟨e, List.mem_append_right _ he, hc⟩

theorem notified_nil : ¬ Notified ([] : List (Event ι)) := by rintro ⟨e, he, _⟩; simp at he

theorem applyCalls_eff (cs : List Call) : ∀ d : Drv W,
    (cs.foldl applyCall d).cycleIter = d.cycleIter ∧ (cs.foldl applyCall d).maxCycles = maxAfterCalls d.maxCycles cs ∧
    ((cs.foldl applyCall d).fixedPoint = true ↔ d.fixedPoint = true ∧ Call.notify ∉ cs) := by
  induction cs with
  | nil => intro d; simp [maxAfterCalls]
  | cons c cs ih =>
    intro d
    obtain ⟨a, b, e⟩ := ih (applyCall d c)
    rw [List.foldl_cons, a, b, e]
    cases c <;> simp [applyCall, maxAfterCalls]

/-- The events and the effect of a completed leaf. -/
theorem dispatchLeaf_run (S : Sem ι W) (name : CStr) (lab : ι) (d : Drv W)
    (h : (dispatchLeaf S name lab d).out = .run) :
    ∃ chk calls, (chk = [] ∨ chk = [.check (d.actionId + 1)]) ∧
      (dispatchLeaf S name lab d).ev = chk ++ [.leaf (d.actionId + 1) lab calls, .done (d.actionId + 1)] ∧
      (∃ l, S.leaf lab d.world (d.actionId + 1) = l ∧ l.calls = calls ∧
        (dispatchLeaf S name lab d).d = calls.foldl applyCall { d with actionId := d.actionId + 1, world := l.world }) ∧
      (dispatchLeaf S name lab d).d.actionError = false := by
  unfold dispatchLeaf at h ⊢
  obtain ⟨h1, h2⟩ := R.bind_out_run h
  obtain ⟨h3, h4⟩ := R.bind_out_run h2
  rw [R.bind_run _ h1, R.bind_run _ h3]
  obtain ⟨hd, hev⟩ := finish_cases (ι := ι) name (begin S d).d.actionId (runLeaf S lab (begin S d).d).d
  have hev : (finish name (begin S d).d.actionId (runLeaf S lab (begin S d).d).d : R ι W).ev =
      [.done (begin S d).d.actionId] ∧ (runLeaf S lab (begin S d).d).d.actionError = false := by
    rcases hev with hev | hev
    · rw [hev.2.1] at h4; cases h4
    · exact ⟨hev.1, hev.2.2.2⟩
  have hb : (begin S d).d = { d with actionId := d.actionId + 1 } := by
    simp only [begin]; split <;> rfl
  refine ⟨(begin S d).ev, (S.leaf lab d.world (d.actionId + 1)).calls, ?_, ?_, ⟨_, rfl, rfl, ?_⟩, ?_⟩
  · simp only [begin]
    split
    · exact .inr rfl
    · exact .inl rfl
  · simp only [hev.1]
    rw [hb]
    simp [runLeaf]
  · simp only [hd]
    rw [hb]
    simp [runLeaf]
  · simp only [hd]; exact hev.2

/-- The effect of entering a phase and of completing it. -/
theorem begin_run (S : Sem ι W) (d : Drv W) : (begin S d).d = { d with actionId := d.actionId + 1 } ∧
    ((begin S d).ev = [] ∨ (begin S d).ev = [.check (d.actionId + 1)]) := by
  simp only [begin]
  split
  · exact ⟨rfl, .inr rfl⟩
  · exact ⟨rfl, .inl rfl⟩

theorem dispatchPhase_run (S : Sem ι W) (fuel : Nat) (name : CStr) (gate : Option ι) (cycle : Bool) (acts : Acts ι)
    (run : Drv W → R ι W) (d : Drv W) (h : (dispatchPhase S fuel name gate cycle acts run d).out = .run) :
    ∃ chk, (chk = [] ∨ chk = [.check (d.actionId + 1)]) ∧
      let sp := startPhase S fuel name gate cycle acts run { d with actionId := d.actionId + 1, phaseError := false }
      sp.out = .run ∧
      (dispatchPhase S fuel name gate cycle acts run d).ev = chk ++ sp.ev ++ [.done (d.actionId + 1)] ∧
      (dispatchPhase S fuel name gate cycle acts run d).d =
        { sp.d with phaseError := d.phaseError || sp.d.phaseError } ∧ sp.d.actionError = false := by
  unfold dispatchPhase at h ⊢
  obtain ⟨h1, h2⟩ := R.bind_out_run h
  obtain ⟨h3, h4⟩ := R.bind_out_run h2
  obtain ⟨h5, h6⟩ := R.bind_out_run h3
  obtain ⟨hb, hbe⟩ := begin_run S d
  refine ⟨(begin S d).ev, hbe, ?_⟩
  rw [R.bind_run _ h1, R.bind_run _ h3]
  rw [R.bind_run _ h5] at h4 ⊢
  rw [hb] at h4 h5 ⊢
  dsimp only at h4 h5 ⊢
  clear h h1 h2 h3 h6
  generalize startPhase S fuel name gate cycle acts run
    { d with actionId := d.actionId + 1, phaseError := false } = sp at h4 h5 ⊢
  obtain ⟨hd, hev⟩ := finish_cases (ι := ι) name (d.actionId + 1) (mergeError (ι := ι) d.phaseError sp.d).d
  rcases hev with hev | hev
  · rw [hev.2.1] at h4; cases h4
  · refine ⟨h5, ?_, ?_, ?_⟩
    · rw [hev.1]; simp [mergeError]
    · rw [hd]; rfl
    · exact hev.2.2.2

theorem leave_ev (new old : Option CStr) (d : Drv W) : (leave new old d : R ι W).ev = [] := by
  unfold leave; split <;> rfl

theorem startPhase_run (S : Sem ι W) (fuel : Nat) (name : CStr) (gate : Option ι) (cycle : Bool) (acts : Acts ι)
    (run : Drv W → R ι W) (d : Drv W) (h : (startPhase S fuel name gate cycle acts run d).out = .run) :
    (∃ g w, gate = some g ∧ S.gate g d.world = (w, false) ∧
      (startPhase S fuel name gate cycle acts run d).d = { d with world := w, actionId := skip acts d.actionId } ∧
      (startPhase S fuel name gate cycle acts run d).ev = [.gate d.actionId g false]) ∨
    (∃ w new, (∀ g, gate = some g → S.gate g d.world = (w, true)) ∧ (gate = none → w = d.world) ∧
      let l := loop cycle d.actionId run fuel (inside new { d with world := w })
      l.out = .run ∧ l.d.phaseError = false ∧
      (startPhase S fuel name gate cycle acts run d).ev = gateEvent d.actionId gate ++ l.ev ∧
      (∃ b, (startPhase S fuel name gate cycle acts run d).d = { l.d with cycleIter := 0, breakpoint := b })) := by
  obtain ⟨w, hg1, hg2⟩ := gateOpen_spec S gate d
  simp only [startPhase] at h ⊢
  cases ho : (gateOpen S gate d).2.1 with
  | false =>
    left
    cases gate with
    | none => simp [gateOpen] at ho
    | some g =>
      simp only [gateOpen] at ho ⊢
      refine ⟨g, (S.gate g d.world).1, rfl, ?_, ?_, ?_⟩
      · rw [← ho]
      · rw [if_neg (by simp [ho])]
      · rw [if_neg (by simp [ho])]; simp [ho]
  | true =>
    right
    rw [ho] at h hg2
    simp only [if_true] at h ⊢
    rw [R.bind_run _ rfl] at h ⊢
    dsimp only at h ⊢
    unfold openPhase at h ⊢
    rw [hg1] at h ⊢
    cases hn : narrow name d.breakpoint with
    | ok new =>
      rw [hn] at h
      simp only [hn] at h ⊢
      obtain ⟨h1, h2⟩ := R.bind_out_run h
      rw [R.bind_run _ h1]
      refine ⟨w, new, ?_, ?_, h1, ?_, ?_, ?_⟩
      · rintro g rfl
        simp only [gateOpen] at ho hg1
        have e : (S.gate g d.world).1 = w := by
          have := congrArg Drv.world hg1
          exact this
        rw [← ho, ← e]
      · rintro rfl
        have := congrArg Drv.world hg1
        exact this.symm
      · simp only [leave] at h2
        split at h2
        · cases h2
        · rename_i hp; simpa using hp
      · rw [hg2, leave_ev]
        cases gate <;> simp [gateEvent]
      · simp only [leave] at h2 ⊢
        split at h2
        · cases h2
        · rename_i hp
          rw [if_neg hp]
          cases new with
          | none => exact ⟨_, rfl⟩
          | some b => exact ⟨_, rfl⟩
    | ub w => rw [hn] at h; cases h
    | abort w => rw [hn] at h; cases h
    | diverge => rw [hn] at h; cases h

theorem loop_run_succ (cycle : Bool) (id : Nat) (body : Drv W → R ι W) (fuel : Nat) (d : Drv W)
    (h : (loop cycle id body (fuel + 1) d).out = .run) :
    let b := body { d with fixedPoint := true, actionId := id }
    b.out = .run ∧
    ((again cycle (countRound b.d) = false ∧ (loop cycle id body (fuel + 1) d).ev = .round id :: b.ev ∧
        (loop cycle id body (fuel + 1) d).d = countRound b.d) ∨
      (again cycle (countRound b.d) = true ∧ (loop cycle id body fuel (countRound b.d)).out = .run ∧
        (loop cycle id body (fuel + 1) d).ev = .round id :: b.ev ++ (loop cycle id body fuel (countRound b.d)).ev ∧
        (loop cycle id body (fuel + 1) d).d = (loop cycle id body fuel (countRound b.d)).d)) := by
  simp only [loop] at h ⊢
  obtain ⟨h1, h2⟩ := R.bind_out_run h
  obtain ⟨h3, h4⟩ := R.bind_out_run h1
  rw [R.bind_run _ h1]
  rw [R.bind_run _ h3] at h2 ⊢
  simp only [startRound] at h2 h4 ⊢
  refine ⟨h4, ?_⟩
  clear h h1 h3
  generalize body { d with fixedPoint := true, actionId := id } = b at h2 h4 ⊢
  cases ha : again cycle (countRound b.d) with
  | false => left; simp
  | true => right; rw [ha] at h2; simp only at h2; simp [h2]

/-- What we know about one run of the actions `acts`. -/
def BodyOK (strict : Prop) (acts : Acts ι) (d : Drv W) (r : R ι W) : Prop :=
  r.out = .run →
    Complete strict acts d.actionId d.maxCycles r.ev ∧ r.d.maxCycles = maxAfter d.maxCycles r.ev ∧
    (strict → r.d.cycleIter = d.cycleIter) ∧
    (Flat acts → (r.d.fixedPoint = true ↔ d.fixedPoint = true ∧ ¬ Notified r.ev))

theorem loop_complete (strict : Prop) (acts : Acts ι) (cycle : Bool) (id : Nat) (body : Drv W → R ι W)
    (hflat : strict → cycle = true → Flat acts)
    (Hyp : Drv W → Prop)
    (hbody : ∀ d : Drv W, Hyp d → d.actionId = id → BodyOK strict acts d (body d))
    (hpres : ∀ d d' : Drv W, cycle = true → Hyp d → Hyp d')
    (hstart : ∀ d : Drv W, Hyp d → Hyp { d with fixedPoint := true, actionId := id })
    (fuel : Nat) : ∀ d, Hyp d → (loop cycle id body fuel d).out = .run →
      ∃ rs, (loop cycle id body fuel d).ev = rs.flatten ∧ Rounds strict acts id d.maxCycles rs ∧
        (cycle = false → rs.length = 1) ∧ (cycle = true → strict → RoundsOK d.maxCycles d.cycleIter rs) ∧
        (loop cycle id body fuel d).d.maxCycles = maxAfter d.maxCycles rs.flatten := by
  induction fuel with
  | zero => intro d _ h; cases h
  | succ n ih =>
    intro d hy h
    obtain ⟨hb, hrest⟩ := loop_run_succ cycle id body n d h
    have B := hbody { d with fixedPoint := true, actionId := id } (hstart d hy) rfl hb
    generalize body { d with fixedPoint := true, actionId := id } = b at hb hrest B
    obtain ⟨b1, b2, b3, b4⟩ := B
    simp only at b1 b2 b3 b4
    have hnot : Notified (.round id :: b.ev) ↔ Notified b.ev := by
      rw [show (.round id :: b.ev : List (Event ι)) = [.round id] ++ b.ev from rfl, notified_append]
      constructor
      · rintro (⟨e, he, hc⟩ | h)
        · simp only [List.mem_singleton] at he; subst he; exact hc.elim
        · exact h
      · exact .inr
    have hagain : cycle = true → strict →
        (again cycle (countRound b.d) = true ↔
          Notified (.round id :: b.ev) ∧ d.cycleIter + 1 < maxAfter d.maxCycles (.round id :: b.ev)) := by
      intro hc hs
      have hf := b4 (hflat hs hc)
      have hf' : b.d.fixedPoint = false ↔ Notified b.ev := by
        rw [← Bool.not_eq_true, hf]; simp
      simp [again, countRound, hc, b3 hs, b2, maxAfter, hnot, hf', and_comm]
    rcases hrest with ⟨ha, hev, hd⟩ | ⟨ha, ho, hev, hd⟩
    · refine ⟨[.round id :: b.ev], ?_, .one b1, fun _ => rfl, ?_, ?_⟩
      · rw [hev]; simp
      · intro hc hs
        refine .last ?_
        rw [← hagain hc hs, ha]; simp
      · rw [hd]
        simp only [countRound, List.flatten_cons, List.flatten_nil, List.append_nil, maxAfter]
        exact b2
    · have hc : cycle = true := by
        cases cycle with
        | true => rfl
        | false => simp [again] at ha
      obtain ⟨rs, e1, e2, e3, e4, e5⟩ := ih (countRound b.d) (hpres d _ hc hy) ho
      have hm : (countRound b.d).maxCycles = maxAfter d.maxCycles b.ev := b2
      have hi : strict → (countRound b.d).cycleIter = d.cycleIter + 1 := by
        intro hs; simp only [countRound, b3 hs]
      rw [hm] at e2 e4 e5
      refine ⟨(.round id :: b.ev) :: rs, ?_, .more b1 e2, fun hf => ?_, ?_, ?_⟩
      · rw [hev, e1]; simp
      · rw [hc] at hf; cases hf
      · intro hc hs
        have h := (hagain hc hs).mp ha
        have e4 := e4 hc hs
        rw [hi hs] at e4
        exact .more h.1 h.2 e4
      · rw [hd, e5, List.flatten_cons, maxAfter_append]; rfl

theorem runActs_complete (S : Sem ι W) (fuel : Nat) (strict : Prop) (acts : Acts ι) : ∀ d : Drv W,
    (strict → (FlatCycles acts ∧ d.cycleIter = 0) ∨ Flat acts) → BodyOK strict acts d (runActs S fuel acts d) := by
  induction acts with
  | nil =>
    intro d _ _
    refine ⟨.nil, rfl, fun _ => rfl, fun _ => ?_⟩
    simp [runActs, notified_nil]
  | leaf name lab next ih =>
    intro d hs h
    simp only [runActs] at h ⊢
    obtain ⟨h1, h2⟩ := R.bind_out_run h
    rw [R.bind_run _ h1]
    have hid := (dispatchLeaf_num S name lab d []).2 h1
    obtain ⟨chk, calls, hchk, hev, ⟨l, _, _, hd⟩, _⟩ := dispatchLeaf_run S name lab d h1
    generalize dispatchLeaf S name lab d = r at *
    obtain ⟨e1, e2, e3⟩ := applyCalls_eff calls { d with actionId := d.actionId + 1, world := l.world }
    rw [← hd] at e1 e2 e3
    simp only at e1 e2 e3
    have hs' : strict → (FlatCycles next ∧ r.d.cycleIter = 0) ∨ Flat next := by
      intro hst
      rcases hs hst with ⟨a, b⟩ | a
      · exact .inl ⟨a, by rw [e1]; exact b⟩
      · exact .inr a
    obtain ⟨a1, a2, a3, a4⟩ := ih r.d hs' h2
    have hmax : maxAfter d.maxCycles r.ev = maxAfterCalls d.maxCycles calls := by
      rw [hev]; rcases hchk with rfl | rfl <;> rfl
    have hnot : Notified r.ev ↔ Call.notify ∈ calls := by
      rw [hev]
      rcases hchk with rfl | rfl <;> simp [Notified, Calls]
    refine ⟨?_, ?_, ?_, ?_⟩
    · rw [hid, e2] at a1
      simp only [hev]
      exact .leaf hchk a1
    · simp only [a2, e2, ← hmax, maxAfter_append]
    · intro hst; simp only [a3 hst, e1]
    · intro hf
      simp only [a4 hf, e3, notified_append, hnot]
      by_cases hn : Call.notify ∈ calls <;> simp [hn]
  | phase name gate cycle body next ihb ihn =>
    intro d hs h
    simp only [runActs] at h ⊢
    obtain ⟨h1, h2⟩ := R.bind_out_run h
    rw [R.bind_run _ h1]
    have hid := (dispatchPhase_num S fuel name gate cycle body (runActs S fuel body) [] d (by
      intro d' hd'; have := runActs_num S fuel body d'; rwa [hd'] at this)).2 h1
    obtain ⟨chk, hchk, hout, hev, hd, _⟩ := dispatchPhase_run S fuel name gate cycle body _ d h1
    generalize dispatchPhase S fuel name gate cycle body (runActs S fuel body) d = r at *
    have hs2 : strict → (if cycle then Flat body else FlatCycles body) ∧ FlatCycles next ∧ d.cycleIter = 0 := by
      intro hst
      rcases hs hst with ⟨a, b⟩ | a
      · exact ⟨a.1, a.2, b⟩
      · exact a.elim
    clear hs
    have sp := startPhase_run S fuel name gate cycle body _ _ hout
    generalize startPhase S fuel name gate cycle body (runActs S fuel body)
      { d with actionId := d.actionId + 1, phaseError := false } = s at *
    rcases sp with ⟨g, w, rfl, _, hsd, hse⟩ | ⟨w, new, _, _, hl, hpe, hse, b, hsd⟩
    · have hm : r.d.maxCycles = d.maxCycles := by rw [hd, hsd]
      have hc : r.d.cycleIter = d.cycleIter := by rw [hd, hsd]
      have hs' : strict → (FlatCycles next ∧ r.d.cycleIter = 0) ∨ Flat next := by
        intro hst; exact .inl ⟨(hs2 hst).2.1, by rw [hc]; exact (hs2 hst).2.2⟩
      obtain ⟨a1, a2, a3, a4⟩ := ihn r.d hs' h2
      have hev' : r.ev = chk ++ [.gate (d.actionId + 1) g false, .done (d.actionId + 1)] := by
        rw [hev, hse]; simp
      have hmax : maxAfter d.maxCycles r.ev = d.maxCycles := by
        rw [hev']; rcases hchk with rfl | rfl <;> rfl
      refine ⟨?_, ?_, ?_, ?_⟩
      · rw [hid, hm] at a1
        simp only [hev']
        exact .closed hchk a1
      · simp only [a2, hm, maxAfter_append, hmax]
      · intro hst; simp only [a3 hst, hc]
      · intro hf; exact hf.elim
    · have hc : strict → r.d.cycleIter = d.cycleIter := by
        intro hst; rw [hd, hsd]; exact ((hs2 hst).2.2).symm
      have hs' : strict → (FlatCycles next ∧ r.d.cycleIter = 0) ∨ Flat next := by
        intro hst; exact .inl ⟨(hs2 hst).2.1, by rw [hc hst]; exact (hs2 hst).2.2⟩
      obtain ⟨a1, a2, a3, a4⟩ := ihn r.d hs' h2
      have hin : ∀ x : Drv W, (inside new x).maxCycles = x.maxCycles ∧ (inside new x).cycleIter = x.cycleIter := by
        intro x; cases new <;> exact ⟨rfl, rfl⟩
      have L := loop_complete strict body cycle (d.actionId + 1) (runActs S fuel body)
        (by intro hst hcy; have := (hs2 hst).1; rwa [if_pos hcy] at this)
        (fun d' => strict → cycle = false → d'.cycleIter = 0)
        (by
          intro d' hy hd'
          have := ihb d' (by
            intro hst
            have hb := (hs2 hst).1
            cases hcy : cycle with
            | true => right; rwa [if_pos hcy] at hb
            | false => left; rw [if_neg (by simp [hcy])] at hb; exact ⟨hb, hy hst hcy⟩)
          exact this)
        (by intro d1 d2 hcy _ _ hcf; rw [hcy] at hcf; cases hcf)
        (by intro d1 hy; exact hy)
        fuel _ (by
          intro hst _
          rw [(hin _).2]
          exact (hs2 hst).2.2) hl
      obtain ⟨rs, l1, l2, l3, l4, l5⟩ := L
      rw [(hin _).1] at l2 l4 l5
      rw [(hin _).2] at l4
      dsimp only at l1 l2 l3 l4 l5 hse hsd
      rw [l1] at hse
      have hm : r.d.maxCycles = maxAfter d.maxCycles rs.flatten := by rw [hd, hsd]; exact l5
      have hev' : r.ev = chk ++ gateEvent (d.actionId + 1) gate ++ rs.flatten ++ [.done (d.actionId + 1)] := by
        rw [hev, hse]; simp
      have hmax : maxAfter d.maxCycles r.ev = maxAfter d.maxCycles rs.flatten := by
        rw [hev', maxAfter_append, maxAfter_append, maxAfter_append]
        have e1 : maxAfter d.maxCycles chk = d.maxCycles := by rcases hchk with rfl | rfl <;> rfl
        have e2 : ∀ m, maxAfter m (gateEvent (d.actionId + 1) gate) = m := by intro m; cases gate <;> rfl
        rw [e1, e2]; rfl
      refine ⟨?_, ?_, ?_, ?_⟩
      · rw [hid, hm] at a1
        simp only [hev']
        refine .opened hchk l2 l3 ?_ a1
        intro hcy hst
        have := l4 hcy hst
        rwa [(hs2 hst).2.2] at this
      · simp only [a2, hm, maxAfter_append, hmax]
      · intro hst; simp only [a3 hst, hc hst]
      · intro hf; exact hf.elim

end Verif.PD
