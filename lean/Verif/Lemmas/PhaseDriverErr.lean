import Verif.Lemmas.PhaseDriverTrace

/-! Helper lemmas about the phase driver model: error signals. -/

namespace Verif.PD
open Verif.Str Verif.Spec.PD

variable {ι W : Type}

/-! ### Properties that hold of every event -/

/-- `P` holds of all events of user code and driver. -/
structure AllEv (S : Sem ι W) (P : Event ι → Prop) : Prop where
  check : ∀ id, P (.check id)
  leaf : ∀ id lab w, P (.leaf id lab (S.leaf lab w id).calls)
  gate : ∀ id g b, P (.gate id g b)
  round : ∀ id, P (.round id)
  done : ∀ id, P (.done id)

theorem bind_all {P : Event ι → Prop} {r : R ι W} {f : Drv W → R ι W} (h1 : ∀ e ∈ r.ev, P e)
    (h2 : ∀ e ∈ (f r.d).ev, P e) : ∀ e ∈ (r.bind f).ev, P e := by
  apply R.bind_elim (P := fun r => ∀ e ∈ r.ev, P e)
  · intro _; exact h1
  · intro _ e he
    rcases List.mem_append.mp he with h | h
    · exact h1 e h
    · exact h2 e h

theorem begin_all {S : Sem ι W} {P : Event ι → Prop} (H : AllEv S P) (d : Drv W) : ∀ e ∈ (begin S d).ev, P e := by
  intro e he
  rcases (begin_run S d).2 with h | h
  · rw [h] at he; simp at he
  · rw [h, List.mem_singleton] at he; subst he; exact H.check _

theorem finish_all {S : Sem ι W} {P : Event ι → Prop} (H : AllEv S P) (name : CStr) (id : Nat) (d : Drv W) :
    ∀ e ∈ (finish name id d : R ι W).ev, P e := by
  intro e he
  rcases (finish_cases (ι := ι) name id d).2 with h | h
  · rw [h.1] at he; simp at he
  · rw [h.1, List.mem_singleton] at he; subst he; exact H.done _

theorem loop_all {P : Event ι → Prop} (cycle : Bool) (id : Nat) (hround : P (.round id)) (body : Drv W → R ι W)
    (hbody : ∀ d, ∀ e ∈ (body d).ev, P e) (fuel : Nat) : ∀ d, ∀ e ∈ (loop cycle id body fuel d).ev, P e := by
  induction fuel with
  | zero => intro d e he; simp [loop] at he
  | succ n ih =>
    intro d
    simp only [loop]
    refine bind_all (bind_all ?_ (hbody _)) ?_
    · intro e he
      simp only [startRound, List.mem_singleton] at he
      subst he; exact hround
    · split
      · exact ih _
      · simp

theorem startPhase_all {S : Sem ι W} {P : Event ι → Prop} (hgate : ∀ id g b, P (.gate id g b))
    (hround : ∀ id, P (.round id)) (fuel : Nat) (name : CStr) (gate : Option ι)
    (cycle : Bool) (acts : Acts ι) (run : Drv W → R ι W) (hrun : ∀ d, ∀ e ∈ (run d).ev, P e) (d : Drv W) :
    ∀ e ∈ (startPhase S fuel name gate cycle acts run d).ev, P e := by
  obtain ⟨w, _, hg2⟩ := gateOpen_spec S gate d
  have hg : ∀ e ∈ (gateOpen S gate d).2.2, P e := by
    intro e he
    rw [hg2] at he
    cases gate with
    | none => simp at he
    | some g => simp only [List.mem_singleton] at he; subst he; exact hgate _ _ _
  simp only [startPhase]
  split
  · refine bind_all hg ?_
    unfold openPhase
    split
    · refine bind_all (loop_all cycle _ (hround _) run hrun fuel _) ?_
      rw [leave_ev]; simp
    · simp
  · exact hg

theorem runActs_all {S : Sem ι W} {P : Event ι → Prop} (H : AllEv S P) (fuel : Nat) (acts : Acts ι) :
    ∀ d, ∀ e ∈ (runActs S fuel acts d).ev, P e := by
  induction acts with
  | nil => intro d e he; simp [runActs] at he
  | leaf name lab next ih =>
    intro d
    simp only [runActs, dispatchLeaf]
    refine bind_all (bind_all (begin_all H d) (bind_all ?_ (finish_all H _ _ _))) (ih _)
    intro e he
    simp only [runLeaf, List.mem_singleton] at he
    subst he; exact H.leaf _ _ _
  | phase name gate cycle body next ihb ihn =>
    intro d
    simp only [runActs, dispatchPhase]
    refine bind_all (bind_all (begin_all H d) (bind_all (bind_all ?_ ?_) (finish_all H _ _ _))) (ihn _)
    · exact startPhase_all H.gate H.round fuel name gate cycle body _ ihb _
    · simp [mergeError]

theorem dispatchPhase_all {S : Sem ι W} {P : Event ι → Prop} (H : AllEv S P) (fuel : Nat) (name : CStr)
    (gate : Option ι) (cycle : Bool) (acts : Acts ι) (d : Drv W) :
    ∀ e ∈ (dispatchPhase S fuel name gate cycle acts (runActs S fuel acts) d).ev, P e := by
  unfold dispatchPhase
  refine bind_all (begin_all H d) (bind_all (bind_all ?_ ?_) (finish_all H _ _ _))
  · exact startPhase_all H.gate H.round fuel name gate cycle acts _ (runActs_all H fuel acts) _
  · simp [mergeError]

/-! ### `CCNerrorAction` -/

/-- An action that signalled an action error is the last thing that happens. -/
def StopsAt (c : Call) (r : R ι W) : Prop :=
  (∀ a e b, r.ev = a ++ e :: b → Calls e c → b = [] ∧ r.out = .abort) ∧ (r.out = .run → r.d.actionError = false)

theorem StopsAt.none_of_run {c : Call} {r : R ι W} (h : StopsAt c r) (hr : r.out = .run) :
    ∀ e ∈ r.ev, ¬ Calls e c := by
  intro e he hc
  obtain ⟨a, b, hab⟩ := List.append_of_mem he
  have := (h.1 a e b hab hc).2
  rw [hr] at this; cases this

theorem append_split {α : Type} {xs ys a b : List α} {e : α} (h : xs ++ ys = a ++ e :: b) :
    (∃ b', xs = a ++ e :: b' ∧ b = b' ++ ys) ∨ (∃ a', ys = a' ++ e :: b ∧ a = xs ++ a') := by
  rcases List.append_eq_append_iff.mp h with ⟨a', h1, h2⟩ | ⟨c', h1, h2⟩
  · right; exact ⟨a', h2, h1⟩
  · cases c' with
    | nil =>
      right
      refine ⟨[], ?_, ?_⟩
      · simpa using h2.symm
      · simpa using h1.symm
    | cons x c' =>
      left
      simp only [List.cons_append, List.cons.injEq] at h2
      obtain ⟨rfl, h2⟩ := h2
      exact ⟨c', h1, h2⟩

theorem stopsAt_bind {c : Call} {r : R ι W} {f : Drv W → R ι W} (h1 : StopsAt c r)
    (h2 : r.out = .run → r.d.actionError = false → StopsAt c (f r.d)) : StopsAt c (r.bind f) := by
  apply R.bind_elim (P := StopsAt c)
  · intro _; exact h1
  · intro hr
    have h3 := h2 hr (h1.2 hr)
    refine ⟨?_, h3.2⟩
    intro a e b he hc
    rcases append_split he with ⟨b', e1, _⟩ | ⟨a', e1, _⟩
    · exact absurd hc (h1.none_of_run hr e (by rw [e1]; simp))
    · exact h3.1 a' e b e1 hc

theorem stopsAt_quiet {c : Call} {r : R ι W} (h : ∀ e ∈ r.ev, ¬ Calls e c)
    (h2 : r.out = .run → r.d.actionError = false) : StopsAt c r := by
  refine ⟨?_, h2⟩
  intro a e b he hc
  exact absurd hc (h e (by rw [he]; simp))

theorem begin_quiet (S : Sem ι W) (c : Call) (d : Drv W) : ∀ e ∈ (begin S d).ev, ¬ Calls e c := by
  intro e he
  rcases (begin_run S d).2 with h | h
  · rw [h] at he; simp at he
  · rw [h, List.mem_singleton] at he; subst he; exact id

theorem finish_quiet (c : Call) (name : CStr) (id : Nat) (d : Drv W) :
    ∀ e ∈ (finish name id d : R ι W).ev, ¬ Calls e c := by
  intro e he
  rcases (finish_cases (ι := ι) name id d).2 with h | h
  · rw [h.1] at he; simp at he
  · rw [h.1, List.mem_singleton] at he; subst he; exact fun h => h

theorem applyCalls_actionError (cs : List Call) : ∀ d : Drv W,
    (cs.foldl applyCall d).actionError = true ↔ d.actionError = true ∨ Call.errorAction ∈ cs := by
  induction cs with
  | nil => intro d; simp
  | cons c cs ih => intro d; rw [List.foldl_cons, ih]; cases c <;> simp [applyCall]

theorem finish_stops (name : CStr) (id : Nat) (d : Drv W) :
    StopsAt .errorAction (finish name id d : R ι W) := by
  refine stopsAt_quiet (finish_quiet _ name id d) fun h => ?_
  obtain ⟨hd, hc⟩ := finish_cases (ι := ι) name id d
  rw [hd]
  rcases hc with hc | hc
  · rw [hc.2.1] at h; cases h
  · exact hc.2.2.2

theorem dispatchLeaf_stops (S : Sem ι W) (name : CStr) (lab : ι) (d : Drv W) (hd : d.actionError = false) :
    StopsAt .errorAction (dispatchLeaf S name lab d) := by
  unfold dispatchLeaf
  refine stopsAt_bind (stopsAt_quiet (begin_quiet S _ d) fun _ => by rw [(begin_run S d).1]; exact hd) fun _ hae => ?_
  generalize (begin S d).d = d1 at *
  have hx : (runLeaf S lab d1).d.actionError = true ↔ Call.errorAction ∈ (S.leaf lab d1.world d1.actionId).calls := by
    simp only [runLeaf, applyCalls_actionError]
    simp [hae]
  by_cases hE : Call.errorAction ∈ (S.leaf lab d1.world d1.actionId).calls
  · -- the error is signalled: abort, and the leaf event is the last one
    have hE' := hx.mpr hE
    have hf : (finish name d1.actionId (runLeaf S lab d1).d : R ι W) =
        { out := .abort, d := (runLeaf S lab d1).d, ev := [] } := by
      simp only [finish, hE', if_true]
    have : (((runLeaf S lab d1).bind (finish name d1.actionId)).out = .abort) ∧
        ((runLeaf S lab d1).bind (finish name d1.actionId)).ev = (runLeaf S lab d1).ev := by
      by_cases ho : (runLeaf S lab d1).out = .run
      · rw [R.bind_run _ ho, hf]; simp
      · rw [R.bind_stop _ ho]
        refine ⟨?_, rfl⟩
        simp only [runLeaf] at ho ⊢
        split at ho <;> simp_all
    refine ⟨?_, fun h => by rw [this.1] at h; cases h⟩
    intro a e b he hc
    rw [this.2] at he
    simp only [runLeaf] at he
    refine ⟨?_, this.1⟩
    have := congrArg List.length he
    simp at this
    cases b with
    | nil => rfl
    | cons _ _ => simp at this; omega
  · refine stopsAt_bind (stopsAt_quiet ?_ ?_) fun _ _ => finish_stops _ _ _
    · intro e he
      simp only [runLeaf, List.mem_singleton] at he
      subst he; exact hE
    · intro _
      have := mt hx.mp hE
      simpa using this

theorem loop_stops (c : Call) (cycle : Bool) (id : Nat) (body : Drv W → R ι W)
    (hbody : ∀ d, d.actionError = false → StopsAt c (body d)) (fuel : Nat) :
    ∀ d, d.actionError = false → StopsAt c (loop cycle id body fuel d) := by
  induction fuel with
  | zero => intro d hd; exact stopsAt_quiet (by simp [loop]) (by simp [loop])
  | succ n ih =>
    intro d hd
    simp only [loop]
    refine stopsAt_bind (stopsAt_bind (stopsAt_quiet ?_ fun _ => hd) fun _ h => hbody _ h) fun _ h => ?_
    · intro e he
      simp only [startRound, List.mem_singleton] at he
      subst he; exact fun h => h
    · split
      · exact ih _ h
      · exact stopsAt_quiet (by simp) fun _ => h

theorem startPhase_stops (S : Sem ι W) (c : Call) (fuel : Nat) (name : CStr) (gate : Option ι) (cycle : Bool)
    (acts : Acts ι) (run : Drv W → R ι W) (hrun : ∀ d, d.actionError = false → StopsAt c (run d)) (d : Drv W)
    (hd : d.actionError = false) : StopsAt c (startPhase S fuel name gate cycle acts run d) := by
  obtain ⟨w, hg1, hg2⟩ := gateOpen_spec S gate d
  have hg : ∀ e ∈ (gateOpen S gate d).2.2, ¬ Calls e c := by
    intro e he
    rw [hg2] at he
    cases gate with
    | none => simp at he
    | some g => simp only [List.mem_singleton] at he; subst he; exact fun h => h
  simp only [startPhase]
  split
  · refine stopsAt_bind (stopsAt_quiet hg fun _ => by simp only [hg1]; exact hd) fun _ hae => ?_
    dsimp only at hae ⊢
    unfold openPhase
    split
    · rename_i new _
      refine stopsAt_bind (loop_stops c cycle _ run hrun fuel _ ?_) fun _ hae2 => ?_
      · cases new <;> exact hae
      · refine stopsAt_quiet (by rw [leave_ev]; simp) ?_
        unfold leave
        split
        · intro h; cases h
        · intro _
          dsimp only
          split <;> exact hae2
    · exact stopsAt_quiet (by simp) (by simp)
  · exact stopsAt_quiet hg fun _ => by simp only [hg1]; exact hd

theorem dispatchPhase_stops (S : Sem ι W) (fuel : Nat) (name : CStr) (gate : Option ι) (cycle : Bool)
    (acts : Acts ι) (run : Drv W → R ι W) (hrun : ∀ d, d.actionError = false → StopsAt .errorAction (run d))
    (d : Drv W) (hd : d.actionError = false) :
    StopsAt .errorAction (dispatchPhase S fuel name gate cycle acts run d) := by
  unfold dispatchPhase
  refine stopsAt_bind (stopsAt_quiet (begin_quiet S _ d) fun _ => by rw [(begin_run S d).1]; exact hd) fun _ hae => ?_
  refine stopsAt_bind (stopsAt_bind (startPhase_stops S _ fuel name gate cycle acts run hrun _ hae) fun _ h =>
    stopsAt_quiet (by simp [mergeError]) fun _ => h) fun _ _ => finish_stops _ _ _

theorem runActs_stops (S : Sem ι W) (fuel : Nat) (acts : Acts ι) : ∀ d : Drv W, d.actionError = false →
    StopsAt .errorAction (runActs S fuel acts d) := by
  induction acts with
  | nil => intro d hd; exact stopsAt_quiet (by simp [runActs]) fun _ => hd
  | leaf name lab next ih =>
    intro d hd
    simp only [runActs]
    exact stopsAt_bind (dispatchLeaf_stops S name lab d hd) fun _ h => ih _ h
  | phase name gate cycle body next ihb ihn =>
    intro d hd
    simp only [runActs]
    exact stopsAt_bind (dispatchPhase_stops S fuel name gate cycle body _ ihb d hd) fun _ h => ihn _ h

/-! ### `CCNerrorPhase` -/

/-- Somebody signalled a phase error. -/
def PErr (ev : List (Event ι)) : Prop := ∃ e ∈ ev, Calls e .errorPhase

theorem pErr_append (a b : List (Event ι)) : PErr (a ++ b) ↔ PErr a ∨ PErr b := by
  unfold PErr
  constructor
  · rintro ⟨e, he, hc⟩
    rcases List.mem_append.mp he with h | h
    · exact .inl ⟨e, h, hc⟩
    · exact .inr ⟨e, h, hc⟩
  · rintro (⟨e, he, hc⟩ | ⟨e, he, hc⟩)
    · exact ⟨e, List.mem_append_left _ he, hc⟩
    · exact ⟨e, List.mem_append_right _ he, hc⟩

theorem not_pErr {ev : List (Event ι)} (h : ∀ e ∈ ev, ¬ Calls e .errorPhase) : ¬ PErr ev := by
  rintro ⟨e, he, hc⟩; exact h e he hc

theorem applyCalls_phaseError (cs : List Call) : ∀ d : Drv W,
    (cs.foldl applyCall d).phaseError = true ↔ d.phaseError = true ∨ Call.errorPhase ∈ cs := by
  induction cs with
  | nil => intro d; simp
  | cons c cs ih => intro d; rw [List.foldl_cons, ih]; cases c <;> simp [applyCall]

/-- The flag after a completed list of actions. -/
def PFlag (d : Drv W) (r : R ι W) : Prop :=
  r.out = .run → (r.d.phaseError = true ↔ d.phaseError = true ∨ PErr r.ev)

theorem loop_pflag (cycle : Bool) (id : Nat) (body : Drv W → R ι W) (hbody : ∀ d, PFlag d (body d)) (fuel : Nat) :
    ∀ d, PFlag d (loop cycle id body fuel d) := by
  induction fuel with
  | zero => intro d h; cases h
  | succ n ih =>
    intro d h
    obtain ⟨hb, hrest⟩ := loop_run_succ cycle id body n d h
    have B := hbody { d with fixedPoint := true, actionId := id } hb
    generalize body { d with fixedPoint := true, actionId := id } = b at hb hrest B
    have hcons : PErr (.round id :: b.ev) ↔ PErr b.ev := by
      rw [show (.round id :: b.ev : List (Event ι)) = [.round id] ++ b.ev from rfl, pErr_append]
      simp [PErr, Calls]
    rcases hrest with ⟨_, hev, hd⟩ | ⟨_, ho, hev, hd⟩
    · rw [hev, hd, hcons]; exact B
    · have := ih (countRound b.d) ho
      rw [hev, hd, this, pErr_append, hcons]
      simp only [countRound, B]
      exact or_assoc

theorem dispatchPhase_pflag (S : Sem ι W) (fuel : Nat) (name : CStr) (gate : Option ι) (cycle : Bool)
    (acts : Acts ι) (run : Drv W → R ι W) (hrun : ∀ d, PFlag d (run d)) (d : Drv W)
    (h : (dispatchPhase S fuel name gate cycle acts run d).out = .run) :
    ¬ PErr (dispatchPhase S fuel name gate cycle acts run d).ev ∧
      (dispatchPhase S fuel name gate cycle acts run d).d.phaseError = d.phaseError := by
  obtain ⟨chk, hchk, hout, hev, hd, _⟩ := dispatchPhase_run S fuel name gate cycle acts run d h
  have hq : ¬ PErr chk := by rcases hchk with rfl | rfl <;> simp [PErr, Calls]
  have hdone : ¬ PErr ([.done (d.actionId + 1)] : List (Event ι)) := by simp [PErr, Calls]
  rcases startPhase_run S fuel name gate cycle acts run _ hout with
    ⟨g, w, _, _, hsd, hse⟩ | ⟨w, new, _, _, hl, hpe, hse, b, hsd⟩
  · refine ⟨?_, ?_⟩
    · rw [hev, hse, pErr_append, pErr_append]
      simp [PErr, Calls]
      rcases hchk with rfl | rfl <;> simp
    · rw [hd, hsd]; simp
  · have hL := loop_pflag cycle _ run hrun fuel _ hl
    rw [hpe] at hL
    have hne : ¬ PErr (loop cycle (d.actionId + 1) run fuel
        (inside new { d with actionId := d.actionId + 1, phaseError := false, world := w })).ev := by
      intro hx
      have := hL.mpr (.inr hx)
      cases this
    have hge : ¬ PErr (gateEvent (d.actionId + 1) gate) := by
      cases gate <;> simp [gateEvent, PErr, Calls]
    refine ⟨?_, ?_⟩
    · rw [hev, hse, pErr_append, pErr_append, pErr_append]
      rintro ((hx | hx | hx) | hx)
      · exact hq hx
      · exact hge hx
      · exact hne hx
      · exact hdone hx
    · rw [hd, hsd]
      simp only
      rw [hpe]; simp

theorem runActs_pflag (S : Sem ι W) (fuel : Nat) (acts : Acts ι) : ∀ d : Drv W, PFlag d (runActs S fuel acts d) := by
  induction acts with
  | nil => intro d _; simp [runActs, PErr]
  | leaf name lab next ih =>
    intro d h
    simp only [runActs] at h ⊢
    obtain ⟨h1, h2⟩ := R.bind_out_run h
    rw [R.bind_run _ h1]
    obtain ⟨chk, calls, hchk, hev, ⟨l, _, _, hd⟩, _⟩ := dispatchLeaf_run S name lab d h1
    have := ih _ h2
    simp only [this, pErr_append]
    rw [hd, applyCalls_phaseError, hev]
    have : PErr (chk ++ [.leaf (d.actionId + 1) lab calls, .done (d.actionId + 1)]) ↔ Call.errorPhase ∈ calls := by
      rcases hchk with rfl | rfl <;> simp [PErr, Calls]
    rw [this]
    exact or_assoc
  | phase name gate cycle body next ihb ihn =>
    intro d h
    simp only [runActs] at h ⊢
    obtain ⟨h1, h2⟩ := R.bind_out_run h
    rw [R.bind_run _ h1]
    obtain ⟨a, b⟩ := dispatchPhase_pflag S fuel name gate cycle body _ ihb d h1
    have := ihn _ h2
    simp only [this, pErr_append, b]
    simp [a]

/-! ### Where execution goes on after a phase error -/

/-- The event lies below the phase with that range, or starts another round of it. -/
def InScope (s : Nat × Nat) (e : Event ι) : Prop := (s.1 < eid e ∧ eid e ≤ s.2) ∨ e = .round s.1

/-- After a phase error, only events of the surrounding phase follow; if the list completes, the error belongs to the
surrounding phase. -/
def ScopeOK (lo hi : Nat) (acts : Acts ι) (n : Nat) (r : R ι W) : Prop :=
  ∀ a e b, r.ev = a ++ e :: b → Calls e .errorPhase →
    (∀ e' ∈ b, InScope (scope lo hi acts n (eid e)) e') ∧ (r.out = .run → scope lo hi acts n (eid e) = (lo, hi))

theorem numOK_range {n m : Nat} {occ : List (Node ι)} {r : R ι W} (h : NumOK n occ m r) :
    ∀ e ∈ r.ev, n < eid e ∧ eid e ≤ n + occ.length := by
  intro e he
  obtain ⟨h1, x, h2, _⟩ := h.1 e he
  refine ⟨h1, ?_⟩
  apply Classical.byContradiction
  intro hc
  rw [List.getElem?_eq_none (by omega)] at h2
  cases h2

theorem loop_scope (cycle : Bool) (id hi : Nat) (acts : Acts ι) (body : Drv W → R ι W)
    (hbody : ∀ d, d.actionId = id → ScopeOK id hi acts id (body d))
    (hrange : ∀ d, d.actionId = id → ∀ e ∈ (body d).ev, id < eid e ∧ eid e ≤ hi) (fuel : Nat) :
    ∀ d, ScopeOK id hi acts id (loop cycle id body fuel d) ∧
      ∀ e ∈ (loop cycle id body fuel d).ev, InScope (id, hi) e := by
  induction fuel with
  | zero => intro d; exact ⟨by intro a e b he; simp [loop] at he, by simp [loop]⟩
  | succ n ih =>
    intro d
    have hb := hbody { d with fixedPoint := true, actionId := id } rfl
    have hr := hrange { d with fixedPoint := true, actionId := id } rfl
    have hfirst : ((startRound id d).bind body : R ι W) =
        { out := (body { d with fixedPoint := true, actionId := id }).out,
          d := (body { d with fixedPoint := true, actionId := id }).d,
          ev := .round id :: (body { d with fixedPoint := true, actionId := id }).ev } := by
      rw [R.bind_run _ rfl]; rfl
    simp only [loop]
    rw [hfirst]
    generalize body { d with fixedPoint := true, actionId := id } = r at hb hr
    have hr' : ∀ e ∈ Event.round id :: r.ev, InScope (id, hi) e := by
      intro e he
      rcases List.mem_cons.mp he with rfl | he
      · exact .inr rfl
      · exact .inl (hr e he)
    have hb' : ∀ a e b, Event.round id :: r.ev = a ++ e :: b → Calls e .errorPhase →
        (∀ e' ∈ b, InScope (scope id hi acts id (eid e)) e') ∧
          (r.out = .run → scope id hi acts id (eid e) = (id, hi)) := by
      intro a e b he hc
      cases a with
      | nil =>
        simp only [List.nil_append, List.cons.injEq] at he
        rw [← he.1] at hc; exact hc.elim
      | cons x a =>
        simp only [List.cons_append, List.cons.injEq] at he
        exact hb a e b he.2 hc
    by_cases hrun : r.out = .run
    · have hrun' : (⟨r.out, r.d, .round id :: r.ev⟩ : R ι W).out = .run := hrun
      rw [R.bind_run _ hrun']
      dsimp only
      cases ha : again cycle (countRound r.d) with
      | false =>
        simp only [List.append_nil]
        exact ⟨fun a e b he hc => ⟨(hb' a e b he hc).1, fun _ => (hb' a e b he hc).2 hrun⟩, hr'⟩
      | true =>
        obtain ⟨i1, i2⟩ := ih (countRound r.d)
        refine ⟨?_, ?_⟩
        · intro a e b he hc
          rcases append_split he with ⟨b', e1, e2⟩ | ⟨a', e1, _⟩
          · obtain ⟨s1, s2⟩ := hb' a e b' e1 hc
            refine ⟨?_, fun _ => s2 hrun⟩
            intro e' he'
            rw [e2] at he'
            rcases List.mem_append.mp he' with h | h
            · exact s1 e' h
            · rw [s2 hrun]; exact i2 e' h
          · exact i1 a' e b e1 hc
        · intro e he
          rcases List.mem_append.mp he with h | h
          · exact hr' e h
          · exact i2 e h
    · have hrun' : (⟨r.out, r.d, .round id :: r.ev⟩ : R ι W).out ≠ .run := hrun
      rw [R.bind_stop _ hrun']
      exact ⟨fun a e b he hc => ⟨(hb' a e b he hc).1, fun h => absurd h hrun⟩, hr'⟩

/-- `bind` when the second part has no phase errors of its own to worry about. -/
theorem bind_quiet_second {r : R ι W} {f : Drv W → R ι W} {a b : List (Event ι)} {e : Event ι}
    (h : (r.bind f).ev = a ++ e :: b) (hc : Calls e .errorPhase) (hq : ∀ d, ∀ e ∈ (f d).ev, ¬ Calls e .errorPhase) :
    ∃ b', r.ev = a ++ e :: b' ∧ ((r.out ≠ .run ∧ b = b') ∨ (r.out = .run ∧ b = b' ++ (f r.d).ev)) := by
  by_cases hr : r.out = .run
  · rw [R.bind_run _ hr] at h
    rcases append_split h with ⟨b', e1, e2⟩ | ⟨a', e1, _⟩
    · exact ⟨b', e1, .inr ⟨hr, e2⟩⟩
    · exact absurd hc (hq _ e (by rw [e1]; simp))
  · rw [R.bind_stop _ hr] at h
    exact ⟨b, h, .inl ⟨hr, rfl⟩⟩

theorem bind_quiet_first {r : R ι W} {f : Drv W → R ι W} {a b : List (Event ι)} {e : Event ι}
    (h : (r.bind f).ev = a ++ e :: b) (hc : Calls e .errorPhase) (hq : ∀ e ∈ r.ev, ¬ Calls e .errorPhase) :
    r.out = .run ∧ ∃ a', (f r.d).ev = a' ++ e :: b := by
  by_cases hr : r.out = .run
  · rw [R.bind_run _ hr] at h
    rcases append_split h with ⟨b', e1, e2⟩ | ⟨a', e1, _⟩
    · exact absurd hc (hq e (by rw [e1]; simp))
    · exact ⟨hr, a', e1⟩
  · rw [R.bind_stop _ hr] at h
    exact absurd hc (hq e (by rw [h]; simp))

/-- In a phase, everything after a phase error below it happens inside the loop; the phase does not complete. -/
theorem startPhase_err (S : Sem ι W) (fuel : Nat) (name : CStr) (gate : Option ι) (cycle : Bool) (acts : Acts ι)
    (run : Drv W → R ι W) (d : Drv W) (a b : List (Event ι)) (e : Event ι)
    (h : (startPhase S fuel name gate cycle acts run d).ev = a ++ e :: b) (hc : Calls e .errorPhase) :
    ∃ (dl : Drv W) (a' : List (Event ι)), (loop cycle d.actionId run fuel dl).ev = a' ++ e :: b := by
  obtain ⟨w, hg1, hg2⟩ := gateOpen_spec S gate d
  have hg : ∀ e ∈ (gateOpen S gate d).2.2, ¬ Calls e .errorPhase := by
    intro e he
    rw [hg2] at he
    cases gate with
    | none => simp at he
    | some g => simp only [List.mem_singleton] at he; subst he; exact fun h => h
  simp only [startPhase] at h
  split at h
  · obtain ⟨_, a', h⟩ := bind_quiet_first h hc hg
    dsimp only at h
    unfold openPhase at h
    split at h
    · rename_i new _
      obtain ⟨b', h1, h2⟩ := bind_quiet_second h hc (by intro d' e' he'; rw [leave_ev] at he'; simp at he')
      rw [hg1] at h1
      refine ⟨inside new { d with world := w }, a', ?_⟩
      · rcases h2 with ⟨_, rfl⟩ | ⟨_, e2⟩
        · exact h1
        · rw [leave_ev, List.append_nil] at e2; subst e2; exact h1
    · simp at h
  · have h' : (gateOpen S gate d).2.2 = a ++ e :: b := h
    exact absurd hc (hg e (by rw [h']; simp))

theorem runActs_scope (S : Sem ι W) (fuel : Nat) (acts : Acts ι) : ∀ (lo hi : Nat) (d : Drv W), lo ≤ d.actionId →
    d.actionId + (pre acts).length ≤ hi → ScopeOK lo hi acts d.actionId (runActs S fuel acts d) := by
  induction acts with
  | nil => intro lo hi d _ _ a e b he; simp [runActs] at he
  | leaf name lab next ih =>
    intro lo hi d hlo hhi a e b he hc
    simp only [pre, List.length_cons] at hhi
    simp only [runActs] at he ⊢
    have hall := numOK_range (runActs_num S fuel (.leaf name lab next) d)
    simp only [runActs, pre, List.length_cons] at hall
    have hfirst := numOK_range (dispatchLeaf_num S name lab d [])
    by_cases hr : (dispatchLeaf S name lab d).out = .run
    · have hid := (dispatchLeaf_num S name lab d []).2 hr
      rw [R.bind_run _ hr] at he hall ⊢
      rcases append_split he with ⟨b', e1, e2⟩ | ⟨a', e1, _⟩
      · have heq : eid e = d.actionId + 1 := by
          have := hfirst e (by rw [e1]; simp)
          simp only [List.length_cons, List.length_nil] at this; omega
        have hs : scope lo hi (.leaf name lab next) d.actionId (eid e) = (lo, hi) := by
          simp only [scope, heq, if_true]
        rw [hs]
        refine ⟨?_, fun _ => rfl⟩
        intro e' he'
        have := hall e' (by rw [show _ = a ++ e :: b from he]; simp [he'])
        left; simp only; omega
      · have hge : d.actionId + 1 < eid e := by
          have := numOK_range (runActs_num S fuel next (dispatchLeaf S name lab d).d) e (by rw [e1]; simp)
          rw [hid] at this; omega
        have hs : scope lo hi (.leaf name lab next) d.actionId (eid e) =
            scope lo hi next (dispatchLeaf S name lab d).d.actionId (eid e) := by
          rw [hid]; simp only [scope]; rw [if_neg (by omega)]
        rw [hs]
        exact ih lo hi _ (by rw [hid]; omega) (by rw [hid]; omega) a' e b e1 hc
    · rw [R.bind_stop _ hr] at he hall ⊢
      have heq : eid e = d.actionId + 1 := by
        have := hfirst e (by rw [he]; simp)
        simp only [List.length_cons, List.length_nil] at this; omega
      have hs : scope lo hi (.leaf name lab next) d.actionId (eid e) = (lo, hi) := by
        simp only [scope, heq, if_true]
      rw [hs]
      refine ⟨?_, fun _ => rfl⟩
      intro e' he'
      have := hall e' (by rw [he]; simp [he'])
      left; simp only; omega
  | phase name gate cycle body next ihb ihn =>
    intro lo hi d hlo hhi a e b he hc
    simp only [pre, List.length_cons, List.length_append] at hhi
    simp only [runActs] at he ⊢
    have hnum := dispatchPhase_num S fuel name gate cycle body (runActs S fuel body) [] d (by
      intro d' hd'; have := runActs_num S fuel body d'; rwa [hd'] at this)
    have hinner : ∀ a b, (dispatchPhase S fuel name gate cycle body (runActs S fuel body) d).ev = a ++ e :: b →
        (∀ e' ∈ b, InScope (scope lo hi (.phase name gate cycle body next) d.actionId (eid e)) e') ∧
        (dispatchPhase S fuel name gate cycle body (runActs S fuel body) d).out ≠ .run := by
      intro a b he
      have hnr : (dispatchPhase S fuel name gate cycle body (runActs S fuel body) d).out ≠ .run := by
        intro hr
        have := (dispatchPhase_pflag S fuel name gate cycle body _ (runActs_pflag S fuel body) d hr).1
        exact this ⟨e, by rw [he]; simp, hc⟩
      refine ⟨?_, hnr⟩
      have he0 := he
      unfold dispatchPhase at he
      obtain ⟨_, a1, he⟩ := bind_quiet_first he hc (begin_quiet S _ d)
      obtain ⟨b1, he, hb1⟩ := bind_quiet_second he hc (fun d' => finish_quiet _ _ _ _)
      obtain ⟨b2, he, hb2⟩ := bind_quiet_second he hc (by intro d' e' he'; simp [mergeError] at he')
      have hbb2 : b1 = b2 := by
        rcases hb2 with ⟨_, h⟩ | ⟨_, h⟩
        · exact h
        · simpa [mergeError] using h
      subst hbb2
      obtain ⟨dl, a3, hl⟩ := startPhase_err S fuel name gate cycle body _ _ _ _ _ he hc
      rw [(begin_run S d).1] at hl
      dsimp only at hl
      have hbrange : ∀ d' : Drv W, d'.actionId = d.actionId + 1 → ∀ e ∈ (runActs S fuel body d').ev,
          d.actionId + 1 < eid e ∧ eid e ≤ d.actionId + 1 + (pre body).length := by
        intro d' hd' e' he'
        have := numOK_range (runActs_num S fuel body d') e' he'
        rw [hd'] at this; exact this
      obtain ⟨L1, L2⟩ := loop_scope cycle (d.actionId + 1) (d.actionId + 1 + (pre body).length) body
        (runActs S fuel body) (by
          intro d' hd'
          have := ihb (d.actionId + 1) (d.actionId + 1 + (pre body).length) d' (by omega) (by omega)
          rwa [hd'] at this) hbrange fuel dl
      have hin := L2 e (by rw [hl]; simp)
      have hin : d.actionId + 1 < eid e ∧ eid e ≤ d.actionId + 1 + (pre body).length := by
        rcases hin with h | h
        · exact h
        · rw [h] at hc; exact hc.elim
      have hs : scope lo hi (.phase name gate cycle body next) d.actionId (eid e) =
          scope (d.actionId + 1) (d.actionId + 1 + (pre body).length) body (d.actionId + 1) (eid e) := by
        simp only [scope]
        rw [if_neg (by omega), if_pos hin.2]
      rw [hs]
      have hL := (L1 a3 e b1 hl hc).1
      rcases hb1 with ⟨_, h⟩ | ⟨hrun, h⟩
      · rw [h]; exact hL
      · -- the phase would have completed, impossible
        exfalso
        have hsr := (R.bind_out_run hrun).1
        rcases startPhase_run S fuel name gate cycle body _ _ hsr with
          ⟨g, w, _, _, _, hse⟩ | ⟨w, new, _, _, hlr, hpe, hse, _, _⟩
        · rw [hse] at he
          cases a1 with
          | nil =>
            simp only [List.nil_append, List.cons.injEq] at he
            rw [← he.1] at hc; exact hc
          | cons x a1 => simp at he
        · have hPE : PErr (startPhase S fuel name gate cycle body (runActs S fuel body)
              { (begin S d).d with phaseError := false }).ev := ⟨e, by rw [he]; simp, hc⟩
          rw [hse, pErr_append] at hPE
          rcases hPE with hPE | hPE
          · cases gate <;> simp [gateEvent, PErr, Calls] at hPE
          · have := (loop_pflag cycle _ _ (runActs_pflag S fuel body) fuel _ hlr).mpr (.inr hPE)
            rw [hpe] at this; cases this
    by_cases hr : (dispatchPhase S fuel name gate cycle body (runActs S fuel body) d).out = .run
    · have hid := hnum.2 hr
      rw [R.bind_run _ hr] at he ⊢
      rcases append_split he with ⟨b', e1, e2⟩ | ⟨a', e1, _⟩
      · exact absurd hr (hinner a b' e1).2
      · have hge := numOK_range (runActs_num S fuel next _) e (by rw [e1]; simp)
        rw [hid] at hge
        have hs : scope lo hi (.phase name gate cycle body next) d.actionId (eid e) =
            scope lo hi next (dispatchPhase S fuel name gate cycle body (runActs S fuel body) d).d.actionId (eid e) := by
          rw [hid]; simp only [scope]; rw [if_neg (by omega), if_neg (by omega)]
        rw [hs]
        exact ihn lo hi _ (by rw [hid]; omega) (by rw [hid]; omega) a' e b e1 hc
    · rw [R.bind_stop _ hr] at he ⊢
      exact ⟨(hinner a b he).1, fun h => absurd h hr⟩

/-! ### A pending phase error does not change what the remaining actions do -/

/-- Equal up to the pending phase error. -/
def SameBut (d d' : Drv W) : Prop := { d with phaseError := false } = { d' with phaseError := false }

/-- Same outcome, same events, same state up to the pending phase error. -/
def SameRun (r r' : R ι W) : Prop := r.out = r'.out ∧ r.ev = r'.ev ∧ SameBut r.d r'.d

theorem sameBut_iff {d d' : Drv W} : SameBut d d' ↔ d' = { d with phaseError := d'.phaseError } := by
  cases d; cases d'; simp [SameBut]
  constructor
  · rintro ⟨a, b, c, e, f, g, h, i, j⟩; simp [*]
  · rintro ⟨a, b, c, e, f, g, h, i, j⟩; simp [*]

theorem sameRun_bind {r r' : R ι W} {f f' : Drv W → R ι W} (h : SameRun r r')
    (hf : ∀ d d', SameBut d d' → SameRun (f d) (f' d')) : SameRun (r.bind f) (r'.bind f') := by
  obtain ⟨h1, h2, h3⟩ := h
  by_cases hr : r.out = .run
  · rw [R.bind_run _ hr, R.bind_run _ (h1 ▸ hr)]
    obtain ⟨a, b, c⟩ := hf _ _ h3
    exact ⟨a, by simp only [h2, b], c⟩
  · rw [R.bind_stop _ hr, R.bind_stop _ (h1 ▸ hr)]
    exact ⟨h1, h2, h3⟩

theorem applyCalls_sameBut (cs : List Call) : ∀ d d' : Drv W, SameBut d d' →
    SameBut (cs.foldl applyCall d) (cs.foldl applyCall d') := by
  induction cs with
  | nil => intro d d' h; exact h
  | cons c cs ih =>
    intro d d' h
    rw [sameBut_iff] at h
    rw [List.foldl_cons, List.foldl_cons]
    apply ih
    rw [h]
    cases c <;> simp [applyCall, SameBut]

theorem begin_sameRun (S : Sem ι W) {d d' : Drv W} (h : SameBut d d') : SameRun (begin S d) (begin S d') := by
  rw [sameBut_iff] at h
  rw [h]
  simp only [begin]
  split <;> exact ⟨rfl, rfl, by simp [SameBut]⟩

theorem finish_sameRun (name : CStr) (id : Nat) {d d' : Drv W} (h : SameBut d d') :
    SameRun (finish name id d : R ι W) (finish name id d') := by
  rw [sameBut_iff] at h
  rw [h]
  simp only [finish]
  split
  · exact ⟨rfl, rfl, by simp [SameBut]⟩
  · split
    · exact ⟨rfl, rfl, by simp [SameBut]⟩
    · split <;> exact ⟨rfl, rfl, by simp [SameBut]⟩
    · exact ⟨rfl, rfl, by simp [SameBut]⟩

theorem runActs_sameRun (S : Sem ι W) (fuel : Nat) (acts : Acts ι) : ∀ d d' : Drv W, SameBut d d' →
    SameRun (runActs S fuel acts d) (runActs S fuel acts d') := by
  induction acts with
  | nil => intro d d' h; exact ⟨rfl, rfl, h⟩
  | leaf name lab next ih =>
    intro d d' h
    simp only [runActs, dispatchLeaf]
    refine sameRun_bind (sameRun_bind (begin_sameRun S h) fun d1 d1' h1 => ?_) ih
    have hid : d1'.actionId = d1.actionId := by rw [sameBut_iff.mp h1]
    rw [hid]
    refine sameRun_bind ?_ fun d2 d2' h2 => finish_sameRun _ _ h2
    rw [sameBut_iff] at h1
    rw [h1]
    simp only [runLeaf]
    refine ⟨rfl, rfl, applyCalls_sameBut _ _ _ ?_⟩
    simp [SameBut]
  | phase name gate cycle body next ihb ihn =>
    intro d d' h
    simp only [runActs, dispatchPhase]
    refine sameRun_bind (sameRun_bind (begin_sameRun S h) fun d1 d1' h1 => ?_) ihn
    have hid : d1'.actionId = d1.actionId := by rw [sameBut_iff.mp h1]
    have hsame : { d1' with phaseError := false } = { d1 with phaseError := false } := h1.symm
    rw [hsame, hid]
    refine sameRun_bind (sameRun_bind ⟨rfl, rfl, rfl⟩ fun d2 d2' h2 => ?_) fun d2 d2' h2 => finish_sameRun _ _ h2
    exact ⟨rfl, rfl, by rw [sameBut_iff] at h2; rw [h2]; simp [mergeError, SameBut]⟩

theorem loop_sameRun (cycle : Bool) (id : Nat) (body : Drv W → R ι W)
    (hbody : ∀ d d', SameBut d d' → SameRun (body d) (body d')) (fuel : Nat) : ∀ d d', SameBut d d' →
    SameRun (loop cycle id body fuel d) (loop cycle id body fuel d') := by
  induction fuel with
  | zero => intro d d' h; exact ⟨rfl, rfl, h⟩
  | succ n ih =>
    intro d d' h
    simp only [loop]
    refine sameRun_bind (sameRun_bind ?_ hbody) fun d1 d1' h1 => ?_
    · rw [sameBut_iff] at h
      rw [h]
      exact ⟨rfl, rfl, by simp [startRound, SameBut]⟩
    · have hb : SameBut (countRound d1) (countRound d1') := by
        rw [sameBut_iff] at h1
        rw [h1]; simp [countRound, SameBut]
      have ha : again cycle (countRound d1') = again cycle (countRound d1) := by
        rw [sameBut_iff] at h1; rw [h1]; rfl
      rw [ha]
      split
      · exact ih _ _ hb
      · exact ⟨rfl, rfl, hb⟩

end Verif.PD
