import Verif.Lemmas.ParseDecl

/-!
# The grammar has one reading: phases and whole files
-/

namespace Verif.Parse
open Verif.Str (CStr)

/-- The head of a phase or cycle: start, cycle, name, and what follows the `{`. -/
def headerE : List T → Option (Bool × Bool × Name × List T)
  | .start :: .phase :: .id n :: .lbrace :: r => some (true, false, n, r)
  | .phase :: .id n :: .lbrace :: r => some (false, false, n, r)
  | .start :: .cycle :: .id n :: .lbrace :: r => some (true, true, n, r)
  | .cycle :: .id n :: .lbrace :: r => some (false, true, n, r)
  | _ => none

theorem headerE_phase {ts : List T} {b : Bool} {n : Name} {r : List T} (h : PhaseHeader ts b n r) :
    headerE ts = some (b, false, n, r) := by
  cases h with
  | mk h => cases h <;> rfl

theorem headerE_cycle {ts : List T} {b : Bool} {n : Name} {r : List T} (h : CycleHeader ts b n r) :
    headerE ts = some (b, true, n, r) := by
  cases h with
  | mk h => cases h <;> rfl

/-- The phrase begins like a phase. -/
def PhaseStart (ts : List T) : Prop := ∃ us, ts = .start :: us ∨ ts = .phase :: us ∨ ts = .cycle :: us

theorem PhaseHeader.lt {ts : List T} {b : Bool} {n : Name} {r : List T} (h : PhaseHeader ts b n r) :
    r.length < ts.length ∧ PhaseStart ts := by
  cases h with
  | mk h =>
    cases h with
    | empty => exact ⟨by simp only [List.length_cons]; omega, _, Or.inr (Or.inl rfl)⟩
    | start => exact ⟨by simp only [List.length_cons]; omega, _, Or.inl rfl⟩

theorem CycleHeader.lt {ts : List T} {b : Bool} {n : Name} {r : List T} (h : CycleHeader ts b n r) :
    r.length < ts.length ∧ PhaseStart ts := by
  cases h with
  | mk h =>
    cases h with
    | empty => exact ⟨by simp only [List.length_cons]; omega, _, Or.inr (Or.inr rfl)⟩
    | start => exact ⟨by simp only [List.length_cons]; omega, _, Or.inl rfl⟩

/-- A `uid` with its comma, if there is one. -/
def uidCommaE : List T → Option (Option Name × List T)
  | .uid :: .eq :: .id u :: .comma :: r => some (some u, r)
  | .uid :: _ => none
  | ts => some (none, ts)

/-- A `gate` with its comma, if there is one; the gate may be empty. -/
def gateCommaE : List T → Option (Option Name × List T)
  | .gate :: .eq :: .id g :: .comma :: r => some (some g, r)
  | .comma :: r => some (none, r)
  | .gate :: _ => none
  | ts => some (none, ts)

/-- What stands before the actions of a phase. -/
def settingsE (ts : List T) : Option (Option CStr × Option Name × Option Name × List T) :=
  match infoCommaE ts with
  | some (i, t1) =>
    match uidCommaE t1 with
    | some (u, t2) =>
      match gateCommaE t2 with
      | some (g, r) => some (i, u, g, r)
      | none => none
    | none => none
  | none => none

/-- What stands before the actions of a cycle. -/
def cycleSettingsE : List T → Option (Option CStr × Option Name × Option Name × List T)
  | .info :: .eq :: .str i :: .uid :: .eq :: .id u :: .gate :: .eq :: .id g :: r => some (some i, some u, some g, r)
  | .info :: .eq :: .str i :: .uid :: .eq :: .id u :: r => some (some i, some u, none, r)
  | .info :: .eq :: .str i :: .comma :: .uid :: .eq :: .id u :: .comma :: r => some (some i, some u, none, r)
  | ts => settingsE ts

/-- What stands before the actions. -/
def eachSettingsE (c : Bool) (ts : List T) : Option (Option CStr × Option Name × Option Name × List T) :=
  match c with
  | true => cycleSettingsE ts
  | false => settingsE ts

mutual

def phaseE : Nat → St → List T → Option (Phase × St × List T)
  | 0, _, _ => none
  | n + 1, s, ts =>
    match headerE ts with
    | some (b, c, nm, us) =>
      match eachSettingsE c us with
      | some (i, u, g, .actions :: .lbrace :: vs) =>
        match actionsE n s vs with
        | some (as, s', .rbrace :: .rbrace :: r) => some (⟨nm, b, c, i, u, g, as⟩, s', r)
        | _ => none
      | _ => none
    | none => none

def actionsE : Nat → St → List T → Option (List Name × St × List T)
  | 0, _, _ => none
  | n + 1, s, ts =>
    match actionE n s ts with
    | some (a, s1, .semi :: us) =>
      match actionsE n s1 us with
      | some (as, s', r) => some (a :: as, s', r)
      | none => some ([a], s1, us)
    | _ => none

def actionE : Nat → St → List T → Option (Name × St × List T)
  | 0, _, _ => none
  | n + 1, s, ts =>
    match ts with
    | .id m :: r => some (m, s, r)
    | .pass :: us =>
      match passE (.pass :: us) with
      | some (p, r) => some (p.name, s.addPass p, r)
      | none => none
    | .traversal :: us =>
      match traversalE s.travIndex (.traversal :: us) with
      | some (t, r) => some (t.name, s.addTraversal t, r)
      | none => none
    | ts =>
      match phaseE n s ts with
      | some (p, s', r) => some (p.name, s'.addPhase p, r)
      | none => none

end

/-- With enough fuel the parser reads the phase. -/
def PhaseReads (s : St) (ts : List T) (p : Phase) (s' : St) (r : List T) : Prop :=
  r.length < ts.length ∧ PhaseStart ts ∧ ∀ n, 3 * ts.length + 1 ≤ n → phaseE n s ts = some (p, s', r)

/-- With enough fuel the parser reads the actions. -/
def BodyReads (s : St) (ts : List T) (as : List Name) (s' : St) (r : List T) : Prop :=
  r.length < ts.length ∧ ∃ us, ts = .actions :: .lbrace :: us ∧
    ∀ n, 3 * us.length + 3 ≤ n → ∀ r', r = .rbrace :: r' → actionsE n s us = some (as, s', .rbrace :: r)

/-- With enough fuel the parser reads the actions up to the `}`. -/
def ActionsRead (s : St) (ts : List T) (as : List Name) (s' : St) (r : List T) : Prop :=
  r.length < ts.length ∧
    ∀ n, 3 * ts.length + 3 ≤ n → ∀ r', r = .rbrace :: r' → actionsE n s ts = some (as, s', r)

/-- With enough fuel the parser reads the action. -/
def ActionReads (s : St) (ts : List T) (a : Name) (s' : St) (r : List T) : Prop :=
  r.length < ts.length ∧ ∀ n, 3 * ts.length + 2 ≤ n → Ends r → actionE n s ts = some (a, s', r)

theorem phase_step {s s' : St} {ts us vs r : List T} {b c : Bool} {m : Name} {i : Option CStr} {u g : Option Name}
    {as : List Name} (h1 : headerE ts = some (b, c, m, us)) (l1 : us.length < ts.length ∧ PhaseStart ts)
    (h2 : (eachSettingsE c us) = some (i, u, g, vs)) (l2 : vs.length ≤ us.length)
    (h3 : BodyReads s vs as s' (.rbrace :: r)) : PhaseReads s ts ⟨m, b, c, i, u, g, as⟩ s' r := by
  obtain ⟨l3, ws, rfl, h3⟩ := h3
  simp only [List.length_cons] at l2 l3
  refine ⟨by omega, l1.2, fun n hn => ?_⟩
  match n with
  | 0 => omega
  | n + 1 =>
    have := l1.1
    simp only [phaseE, h1, h2, h3 n (by omega) r rfl]

theorem settings_of {t1 t2 t3 t4 : List T} {i : Option CStr} {u g : Option Name} (h1 : infoCommaE t1 = some (i, t2))
    (h2 : uidCommaE t2 = some (u, t3)) (h3 : gateCommaE t3 = some (g, t4)) : settingsE t1 = some (i, u, g, t4) := by
  simp only [settingsE, h1, h2, h3]

theorem settings_phase {t1 t2 t3 t4 : List T} {i : Option CStr} {u g : Option Name} (h1 : infoCommaE t1 = some (i, t2))
    (h2 : uidCommaE t2 = some (u, t3)) (h3 : gateCommaE t3 = some (g, t4)) : eachSettingsE false t1 = some (i, u, g, t4) :=
  settings_of h1 h2 h3

theorem infoComma_some (i : CStr) (t : List T) : infoCommaE (.info :: .eq :: .str i :: .comma :: t) = some (some i, t) := rfl

theorem uidComma_some (u : Name) (t : List T) : uidCommaE (.uid :: .eq :: .id u :: .comma :: t) = some (some u, t) := rfl

theorem infoComma_uid (t : List T) : infoCommaE (.uid :: t) = some (none, .uid :: t) := rfl

theorem cycle_of {ts : List T} (h : ∀ i r, ts ≠ .info :: .eq :: .str i :: .uid :: r)
    (h2 : ∀ i r, ts ≠ .info :: .eq :: .str i :: .comma :: .uid :: r) : cycleSettingsE ts = settingsE ts := by
  unfold cycleSettingsE
  split
  · exact absurd rfl (h _ _)
  · exact absurd rfl (h _ _)
  · exact absurd rfl (h2 _ _)
  · rfl

theorem gate_some {ts : List T} {g : Option Name} {r : List T} (h : Gate ts g (.comma :: r)) :
    gateCommaE ts = some (g, r) ∧ r.length ≤ ts.length := by
  cases h with
  | empty => exact ⟨rfl, by simp only [List.length_cons]; omega⟩
  | mk n => exact ⟨rfl, by simp only [List.length_cons]; omega⟩

/-- The phrase is no information, no `uid` and no gate. -/
theorem gate_head {ts : List T} {g : Option Name} {r : List T} (h : Gate ts g (.comma :: r)) :
    infoCommaE ts = some (none, ts) ∧ uidCommaE ts = some (none, ts) ∧ (∀ r', ts ≠ .info :: r') ∧ (∀ r', ts ≠ .uid :: r') := by
  cases h with
  | empty => exact ⟨rfl, rfl, (fun _ e => by cases e), (fun _ e => by cases e)⟩
  | mk n => exact ⟨rfl, rfl, (fun _ e => by cases e), (fun _ e => by cases e)⟩

theorem body_head {s : St} {ts : List T} {as : List Name} {s' : St} {r : List T} (h : BodyReads s ts as s' r) :
    infoCommaE ts = some (none, ts) ∧ uidCommaE ts = some (none, ts) ∧ gateCommaE ts = some (none, ts) ∧
      (∀ r', ts ≠ .info :: r') ∧ (∀ r', ts ≠ .uid :: r') ∧ (∀ r', ts ≠ .gate :: r') := by
  obtain ⟨_, us, rfl, _⟩ := h
  exact ⟨rfl, rfl, rfl, (fun _ e => by cases e), (fun _ e => by cases e), (fun _ e => by cases e)⟩

theorem uid_comma (t : List T) (u : Name) : infoCommaE (.uid :: .eq :: .id u :: .comma :: t) =
    some (none, .uid :: .eq :: .id u :: .comma :: t) ∧ uidCommaE (.uid :: .eq :: .id u :: .comma :: t) = some (some u, t) :=
  ⟨rfl, rfl⟩

theorem phase_reads : (∀ {s ts p s' r}, PhaseP s ts p s' r → PhaseReads s ts p s' r) := by
  intro s ts p s' r h
  refine PhaseP.rec (motive_1 := fun s ts p s' r _ => PhaseReads s ts p s' r)
    (motive_2 := fun s ts as s' r _ => BodyReads s ts as s' r)
    (motive_3 := fun s ts as s' r _ => ActionsRead s ts as s' r)
    (motive_4 := fun s ts a s' r _ => ActionReads s ts a s' r)
    ?iug ?ug ?ig ?g ?plain ?iu ?i ?u ?ciug ?cug ?cig ?cg ?cplain ?ciu ?ci ?cu ?body ?cons ?one ?trav ?pass ?phase ?id h
  case iug =>
    intro s s' ts t1 t2 t3 t4 r b n i u g as h0 h1 h2 h3 _ ih
    cases h1; cases h2
    have := gate_some h3
    exact phase_step (headerE_phase h0) h0.lt (settings_phase (infoComma_some _ _) (uidComma_some _ _) this.1) (by simp only [List.length_cons]; omega) ih
  case ug =>
    intro s s' ts t1 t2 t3 r b n u g as h0 h2 h3 _ ih
    cases h2
    have := gate_some h3
    exact phase_step (headerE_phase h0) h0.lt (settings_phase (infoComma_uid _) (uidComma_some _ _) this.1) (by simp only [List.length_cons]; omega) ih
  case ig =>
    intro s s' ts t1 t2 t3 r b n i g as h0 h1 h3 _ ih
    cases h1
    have := gate_some h3
    exact phase_step (headerE_phase h0) h0.lt (settings_phase (infoComma_some _ _) (gate_head h3).2.1 this.1)
      (by simp only [List.length_cons]; omega) ih
  case g =>
    intro s s' ts t1 t2 r b n g as h0 h3 _ ih
    have := gate_some h3
    exact phase_step (headerE_phase h0) h0.lt (settings_phase (gate_head h3).1 (gate_head h3).2.1 this.1) this.2 ih
  case plain =>
    intro s s' ts t1 r b n as h0 _ ih
    have hb := body_head ih
    exact phase_step (headerE_phase h0) h0.lt (settings_phase hb.1 hb.2.1 hb.2.2.1) (Nat.le_refl _) ih
  case iu =>
    intro s s' ts t1 t2 t3 r b n i u as h0 h1 h2 _ ih
    cases h1; cases h2
    have hb := body_head ih
    exact phase_step (headerE_phase h0) h0.lt (settings_phase (infoComma_some _ _) (uidComma_some _ _) hb.2.2.1) (by simp only [List.length_cons]; omega) ih
  case i =>
    intro s s' ts t1 t2 r b n i as h0 h1 _ ih
    cases h1
    have hb := body_head ih
    exact phase_step (headerE_phase h0) h0.lt (settings_phase (infoComma_some _ _) hb.2.1 hb.2.2.1) (by simp only [List.length_cons]; omega) ih
  case u =>
    intro s s' ts t1 t2 r b n u as h0 h2 _ ih
    cases h2
    have hb := body_head ih
    exact phase_step (headerE_phase h0) h0.lt (settings_phase (infoComma_uid _) (uidComma_some _ _) hb.2.2.1) (by simp only [List.length_cons]; omega) ih
  case ciug =>
    intro s s' ts t1 t2 t3 t4 r b n i u g as h0 h1 h2 h3 _ ih
    cases h1; cases h2
    cases h3 with
    | empty =>
      refine phase_step (headerE_cycle h0) h0.lt (i := some i) (u := some u) (g := none) (vs := t3) ?_
        (by simp only [List.length_cons]; omega) ih
      obtain ⟨_, us, rfl, _⟩ := ih
      rfl
    | mk g => exact phase_step (headerE_cycle h0) h0.lt rfl (by simp only [List.length_cons]; omega) ih
  case cug =>
    intro s s' ts t1 t2 t3 r b n u g as h0 h2 h3 _ ih
    cases h2
    have := gate_some h3
    refine phase_step (headerE_cycle h0) h0.lt ?_ (by simp only [List.length_cons]; omega) ih
    exact (cycle_of (fun _ _ e => by cases e) (fun _ _ e => by cases e)).trans (settings_of (infoComma_uid _) (uidComma_some _ _) this.1)
  case cig =>
    intro s s' ts t1 t2 t3 r b n i g as h0 h1 h3 _ ih
    cases h1
    have := gate_some h3
    have hh := gate_head h3
    refine phase_step (headerE_cycle h0) h0.lt ?_ (by simp only [List.length_cons]; omega) ih
    exact (cycle_of (fun _ _ e => by cases e) (fun _ _ e => by injection e with _ e; injection e with _ e; injection e with _ e; injection e with _ e; exact hh.2.2.2 _ e)).trans (settings_of (infoComma_some _ _) hh.2.1 this.1)
  case cg =>
    intro s s' ts t1 t2 r b n g as h0 h3 _ ih
    have := gate_some h3
    have hh := gate_head h3
    refine phase_step (headerE_cycle h0) h0.lt ?_ this.2 ih
    exact (cycle_of (fun _ _ e => hh.2.2.1 _ e) (fun _ _ e => hh.2.2.1 _ e)).trans (settings_of hh.1 hh.2.1 this.1)
  case cplain =>
    intro s s' ts t1 r b n as h0 _ ih
    have hb := body_head ih
    refine phase_step (headerE_cycle h0) h0.lt ?_ (Nat.le_refl _) ih
    exact (cycle_of (fun _ _ e => hb.2.2.2.1 _ e) (fun _ _ e => hb.2.2.2.1 _ e)).trans (settings_of hb.1 hb.2.1 hb.2.2.1)
  case ciu =>
    intro s s' ts t1 t2 t3 r b n i u as h0 h1 h2 _ ih
    cases h1; cases h2
    exact phase_step (headerE_cycle h0) h0.lt rfl (by simp only [List.length_cons]; omega) ih
  case ci =>
    intro s s' ts t1 t2 r b n i as h0 h1 _ ih
    cases h1
    have hb := body_head ih
    refine phase_step (headerE_cycle h0) h0.lt ?_ (by simp only [List.length_cons]; omega) ih
    exact (cycle_of (fun _ _ e => by cases e) (fun _ _ e => by injection e with _ e; injection e with _ e; injection e with _ e; injection e with _ e; exact hb.2.2.2.2.1 _ e)).trans (settings_of (infoComma_some _ _) hb.2.1 hb.2.2.1)
  case cu =>
    intro s s' ts t1 t2 r b n u as h0 h2 _ ih
    cases h2
    have hb := body_head ih
    refine phase_step (headerE_cycle h0) h0.lt ?_ (by simp only [List.length_cons]; omega) ih
    exact (cycle_of (fun _ _ e => by cases e) (fun _ _ e => by cases e)).trans (settings_of (infoComma_uid _) (uidComma_some _ _) hb.2.2.1)
  case body =>
    intro s s' ts as r _ ih
    have := ih.1
    simp only [List.length_cons] at this
    exact ⟨by simp only [List.length_cons]; omega, ts, rfl, fun n hn r' e => ih.2 n hn r rfl⟩
  case cons =>
    intro s s1 s' ts us a as r _ _ ih1 ih2
    have l1 := ih1.1
    have l2 := ih2.1
    simp only [List.length_cons] at l1
    refine ⟨by omega, fun n hn r' e => ?_⟩
    match n with
    | 0 => omega
    | n + 1 => simp only [actionsE, ih1.2 n (by omega) (Or.inr ⟨us, rfl⟩), ih2.2 n (by omega) r' e]
  case one =>
    intro s s' ts a r _ ih
    have l1 := ih.1
    simp only [List.length_cons] at l1
    refine ⟨by omega, fun n hn r' e => ?_⟩
    match n with
    | 0 => omega
    | 1 => omega
    | 2 => omega
    | n + 3 =>
      subst e
      have h2 : actionsE (n + 2) s' (.rbrace :: r') = none := by
        cases n <;> rfl
      rw [actionsE, ih.2 (n + 2) (by omega) (Or.inr ⟨_, rfl⟩)]
      simp only [h2]
  case trav =>
    intro s ts t r h
    refine ⟨h.lt, fun n hn _ => ?_⟩
    match n with
    | 0 => omega
    | n + 1 =>
      have e := traversalE_eq h
      obtain ⟨us, rfl⟩ := h.head
      simp only [actionE, e]
  case pass =>
    intro s ts p r h
    refine ⟨h.lt, fun n hn hr => ?_⟩
    match n with
    | 0 => omega
    | n + 1 =>
      have e := passE_eq h hr
      obtain ⟨us, rfl⟩ := h.head
      simp only [actionE, e]
  case phase =>
    intro s s' ts p r _ ih
    refine ⟨ih.1, fun n hn hr => ?_⟩
    match n with
    | 0 => omega
    | n + 1 =>
      have e := ih.2.2 n (by omega)
      obtain ⟨us, rfl | rfl | rfl⟩ := ih.2.1 <;> simp only [actionE, e]
  case id =>
    intro s n r
    refine ⟨by simp only [List.length_cons]; omega, fun k hk _ => ?_⟩
    match k with
    | 0 => omega
    | k + 1 => rfl

/-! ## Whole files -/

def entryE (s : St) (ts : List T) : Option (St × List T) :=
  match ts with
  | .pass :: us =>
    match passE (.pass :: us) with
    | some (p, r) => some (s.addPass p, r)
    | none => none
  | .traversal :: us =>
    match traversalE s.travIndex (.traversal :: us) with
    | some (t, r) => some (s.addTraversal t, r)
    | none => none
  | .root :: us =>
    match nodeE (.root :: us) with
    | some (n, r) => some (s.addNode n, r)
    | none => none
  | .node :: us =>
    match nodeE (.node :: us) with
    | some (n, r) => some (s.addNode n, r)
    | none => none
  | .nodeset :: us =>
    match nodesetE (.nodeset :: us) with
    | some (n, r) => some (s.addNodeSet n, r)
    | none => none
  | .enum :: us =>
    match enumE (.enum :: us) with
    | some (e, r) => some (s.addEnum e, r)
    | none => none
  | ts =>
    match phaseE (3 * ts.length + 1) s ts with
    | some (p, s', r) => some (s'.addPhase p, r)
    | none => none

theorem entryE_eq {s : St} {ts : List T} {s' : St} {r : List T} (h : Entry s ts s' r) (hr : Ends r) :
    entryE s ts = some (s', r) ∧ r.length < ts.length := by
  cases h with
  | phase s' _ p _ h =>
    have hh := phase_reads h
    have e := hh.2.2 _ (Nat.le_refl _)
    refine ⟨?_, hh.1⟩
    obtain ⟨us, rfl | rfl | rfl⟩ := hh.2.1 <;> simp only [entryE, e]
  | pass _ p _ h =>
    have e := passE_eq h hr
    refine ⟨?_, h.lt⟩
    obtain ⟨us, rfl⟩ := h.head
    simp only [entryE, e]
  | traversal _ t _ h =>
    have e := traversalE_eq h
    refine ⟨?_, h.lt⟩
    obtain ⟨us, rfl⟩ := h.head
    simp only [entryE, e]
  | node _ n _ h =>
    have e := nodeE_eq h
    refine ⟨?_, h.lt⟩
    obtain ⟨us, rfl | rfl⟩ := h.head <;> simp only [entryE, e]
  | nodeset _ n _ h =>
    have e := nodesetE_eq h hr
    refine ⟨?_, h.lt⟩
    obtain ⟨us, rfl⟩ := h.head
    simp only [entryE, e]
  | enum _ n _ h =>
    have e := enumE_eq h
    refine ⟨?_, h.lt⟩
    obtain ⟨us, rfl⟩ := h.head
    simp only [entryE, e]

def entriesE : Nat → St → List T → Option St
  | 0, _, _ => none
  | n + 1, s, ts =>
    match ts with
    | [] => some s
    | t :: ts =>
      match entryE s (t :: ts) with
      | some (s1, []) => some s1
      | some (s1, .semi :: us) => entriesE n s1 us
      | _ => none

theorem entriesE_eq {s : St} {ts : List T} {s' : St} (h : Entries s ts s' []) :
    ∀ n, ts.length < n → entriesE n s ts = some s' := by
  generalize e : ([] : List T) = r at h
  induction h with
  | cons s s1 s' ts us r h _ ih =>
    intro n hn
    obtain ⟨e1, l1⟩ := entryE_eq h (Or.inr ⟨us, rfl⟩)
    simp only [List.length_cons] at l1
    match n, ts with
    | 0, _ => omega
    | n + 1, [] => cases l1
    | n + 1, t :: ts => simp only [entriesE, e1, ih e n (by omega)]
  | one s s' ts r h =>
    intro n hn
    subst e
    obtain ⟨e1, l1⟩ := entryE_eq h (Or.inl rfl)
    match n, ts with
    | 0, _ => omega
    | n + 1, [] => cases l1
    | n + 1, t :: ts => simp only [entriesE, e1]
  | empty s r =>
    intro n hn
    subst e
    match n with
    | 0 => omega
    | n + 1 => rfl

/-- The parser as a function. -/
def parseE (ts : List T) : Option St := entriesE (ts.length + 1) start ts

theorem parseE_eq {ts : List T} {s : St} (h : Entries start ts s []) : parseE ts = some s :=
  entriesE_eq h _ (Nat.lt_succ_self _)

/-- A file has one reading at most. -/
theorem entries_unique {ts : List T} {s s' : St} (h : Entries start ts s []) (h' : Entries start ts s' []) : s = s' := by
  have := (parseE_eq h).symm.trans (parseE_eq h')
  injection this

/-- What the function does not read is an error. -/
theorem rejects {ts : List T} (h : parseE ts = none) : Yyparse ts (.abort "syntax error") :=
  .error fun s hs => by rw [parseE_eq hs] at h; cases h

theorem yyparse_unique {ts : List T} {a b : Res St} (ha : Yyparse ts a) (hb : Yyparse ts b) : a = b := by
  cases ha with
  | accept s h =>
    cases hb with
    | accept s' h' => rw [entries_unique h h']
    | error h' => exact absurd h (h' s)
  | error h =>
    cases hb with
    | accept s' h' => exact absurd h' (h s')
    | error h' => rfl

end Verif.Parse
