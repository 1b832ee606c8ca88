import Verif.Spec.Trav

/-!
# Lemmas about the traversal core
-/

namespace Verif.Trav
open Verif.Spec.Trav

/-! ## Maps -/

theorem upd_same {α : Type} (m : Addr → Option α) (a : Addr) (v : Option α) : upd m a v a = v := by simp [upd]

theorem upd_other {α : Type} (m : Addr → Option α) {a b : Addr} (v : Option α) (h : b ≠ a) : upd m a v b = m b := by
  simp [upd, h]

theorem upd_upd {α : Type} (m : Addr → Option α) (a : Addr) (v w : Option α) : upd (upd m a v) a w = upd m a w := by
  funext b
  by_cases h : b = a <;> simp [upd, h]

theorem upd_none {α : Type} (m : Addr → Option α) (a : Addr) (h : m a = none) : upd m a none = m := by
  funext b
  by_cases hb : b = a
  · subst hb; simp [upd, h]
  · simp [upd, hb]

/-! ## Orderly sequences of events -/

theorem steps_append {L : Addr → Prop} {c : Ptr} {ps qs rs : List (Addr × Nat)} {t u : List Event}
    (h : Steps L c ps t qs) (h' : Steps L c qs u rs) : Steps L c ps (t ++ u) rs := by
  induction h with
  | nil => exact h'
  | init ha hp _ ih => exact .init ha hp (ih h')
  | fini _ ih => exact .fini (ih h')
  | visit ht _ ih => exact .visit ht (ih h')

theorem steps_lift {L L' : Addr → Prop} {c : Ptr} {ps : List (Addr × Nat)}
    (hL : ∀ a, L a → L' a) (hp : ∀ x, x ∈ ps → L' x.1) {as bs : List (Addr × Nat)} {t : List Event}
    (h : Steps L' (top c ps) as t bs) : Steps L c (as ++ ps) t (bs ++ ps) := by
  induction h with
  | nil => exact .nil _
  | @init a ty as t qs ha hps _ ih =>
    refine .init (fun h => ha (hL a h)) (fun x hx => ?_) ih
    rcases List.mem_append.mp hx with hx | hx
    · exact hps x hx
    · intro e
      exact ha (e ▸ hp x hx)
  | fini _ ih => exact .fini ih
  | @visit a n as t qs ht _ ih =>
    refine .visit ?_ ih
    cases as with
    | nil => exact ht
    | cons x as => exact ht

/-! ## States with open traversals -/

/-- The data of the current traversal. -/
def curData (s : St) : Ptr :=
  match s.cur with
  | none => none
  | some a =>
    match s.frames a with
    | none => none
    | some fr => fr.data

/-- State `s` is `s₁` with the traversal `x` started on top (as far as the stack is concerned). -/
def OnTop (E : Env) (s₁ s : St) (x : Addr × Nat) : Prop :=
  ∃ data, s₁.frames x.1 = none ∧ s.cur = some x.1 ∧
    s.frames = upd s₁.frames x.1 (some { prev := s₁.cur, ty := x.2, data := data }) ∧
    (data = none → s.dmem = s₁.dmem) ∧
    (∀ d, data = some d → s₁.dmem d = none ∧ (s.dmem d).isSome = true ∧ (∀ e, e ≠ d → s.dmem e = s₁.dmem e) ∧
      E.freeTable[x.2]? ≠ some .nop)

/-- `Over s₀ s ps`: state `s` is `s₀` with the traversals `ps` started on top (as far as the stack is concerned). -/
def Over (E : Env) (s₀ : St) : St → List (Addr × Nat) → Prop
  | s, [] => s.cur = s₀.cur ∧ s.frames = s₀.frames ∧ (∀ d, some d ≠ curData s₀ → s.dmem d = s₀.dmem d) ∧
      (∀ d, (s.dmem d).isSome = (s₀.dmem d).isSome)
  | s, x :: ps => ∃ s₁, Over E s₀ s₁ ps ∧ OnTop E s₁ s x

theorem Over.refl (E : Env) (s : St) : Over E s s [] := ⟨rfl, rfl, fun _ _ => rfl, fun _ => rfl⟩

theorem Over.congr {E : Env} {s₀ s s' : St} {ps : List (Addr × Nat)} (h : Over E s₀ s ps) (hc : s'.cur = s.cur)
    (hf : s'.frames = s.frames) (hd : s'.dmem = s.dmem) : Over E s₀ s' ps := by
  cases ps with
  | nil => simpa [Over, hc, hf, hd] using h
  | cons x ps => simpa [Over, OnTop, hc, hf, hd] using h

theorem Over.live {E : Env} {s₀ s : St} : {ps : List (Addr × Nat)} → Over E s₀ s ps →
    (∀ a, InUse s₀ a → InUse s a) ∧ (∀ x, x ∈ ps → InUse s x.1)
  | [], h => ⟨fun a ha => by unfold InUse; rw [h.2.1]; exact ha, fun _ hx => by cases hx⟩
  | x :: ps, ⟨s₁, h, data, hn, hc, hf, _, _⟩ => by
    obtain ⟨h1, h2⟩ := Over.live h
    have keep : ∀ a, InUse s₁ a → InUse s a := by
      intro a ha
      unfold InUse
      rw [hf]
      by_cases e : a = x.1
      · subst e; rw [upd_same]; simp
      · rw [upd_other _ _ e]; exact ha
    refine ⟨fun a ha => keep a (h1 a ha), fun y hy => ?_⟩
    rcases List.mem_cons.mp hy with rfl | hy
    · unfold InUse; rw [hf, upd_same]; simp
    · exact keep _ (h2 y hy)

theorem Over.cur {E : Env} {s₀ s : St} {ps : List (Addr × Nat)} (h : Over E s₀ s ps) : s.cur = top s₀.cur ps := by
  cases ps with
  | nil => exact h.1
  | cons x ps => obtain ⟨_, _, _, _, hc, _⟩ := h; exact hc

theorem OnTop.keep {E : Env} {s₁ s s' : St} {x : Addr × Nat} (h : OnTop E s₁ s x) (k : Over E s s' []) :
    OnTop E s₁ s' x := by
  obtain ⟨kc, kf, kd, kl⟩ := k
  obtain ⟨data, hn, hc, hf, h0, hd⟩ := h
  have cd : curData s = data := by simp [curData, hc, hf, upd_same]
  refine ⟨data, hn, kc.trans hc, kf.trans hf, fun e => ?_, fun d e => ?_⟩
  · funext b
    rw [kd b (by rw [cd, e]; simp), h0 e]
  · obtain ⟨a1, a2, a3, a4⟩ := hd d e
    refine ⟨a1, by rw [kl d]; exact a2, fun b hb => ?_, a4⟩
    rw [kd b (by rw [cd, e]; simpa using hb), a3 b hb]

/-- Something that leaves the stack alone, and of the data changes only that of the current traversal. -/
theorem Over.keep {E : Env} {s₀ s s' : St} {ps : List (Addr × Nat)} (h : Over E s₀ s ps) (k : Over E s s' []) :
    Over E s₀ s' ps := by
  cases ps with
  | nil =>
    obtain ⟨kc, kf, kd, kl⟩ := k
    obtain ⟨hc, hf, hd, hl⟩ := h
    refine ⟨kc.trans hc, kf.trans hf, fun d hne => ?_, fun d => (kl d).trans (hl d)⟩
    have : curData s = curData s₀ := by simp [curData, hc, hf]
    rw [kd d (by rw [this]; exact hne), hd d hne]
  | cons x ps =>
    obtain ⟨s₁, h1, h⟩ := h
    exact ⟨s₁, h1, h.keep k⟩

/-- `Over` with an orderly sequence of events. -/
def Good (E : Env) (s₀ s : St) (ps : List (Addr × Nat)) : Prop :=
  Over E s₀ s ps ∧ ∃ t, s.trace = s₀.trace ++ t ∧ Steps (InUse s₀) s₀.cur [] t ps

theorem Good.refl (E : Env) (s : St) : Good E s s [] := ⟨Over.refl E s, [], by simp, .nil _⟩

theorem Good.trans {E : Env} {s₀ s s' : St} {ps : List (Addr × Nat)} (h : Good E s₀ s ps) (k : Good E s s' []) : Good E s₀ s' ps := by
  obtain ⟨ho, t, ht, st⟩ := h
  obtain ⟨ko, u, hu, su⟩ := k
  refine ⟨ho.keep ko, t ++ u, by rw [hu, ht, List.append_assoc], steps_append st ?_⟩
  have := steps_lift (c := s₀.cur) (ps := ps) (L := InUse s₀) (L' := InUse s) ho.live.1 ho.live.2
    (as := []) (bs := []) (t := u) (by rw [← ho.cur]; exact su)
  simpa using this

theorem Good.congr {E : Env} {s₀ s s' : St} {ps : List (Addr × Nat)} (h : Good E s₀ s ps) (hc : s'.cur = s.cur)
    (hf : s'.frames = s.frames) (hd : s'.dmem = s.dmem) (ht : s'.trace = s.trace) : Good E s₀ s' ps :=
  ⟨h.1.congr hc hf hd, by rw [ht]; exact h.2⟩

theorem Good.visit {E : Env} {s₀ s s' : St} {ps : List (Addr × Nat)} {a n : Addr} (h : Good E s₀ s ps) (ha : s.cur = some a)
    (hc : s'.cur = s.cur) (hf : s'.frames = s.frames) (hd : s'.dmem = s.dmem)
    (ht : s'.trace = s.trace ++ [.visit a n]) : Good E s₀ s' ps := by
  obtain ⟨ho, t, htr, st⟩ := h
  refine ⟨ho.congr hc hf hd, t ++ [.visit a n], by rw [ht, htr, List.append_assoc], steps_append st (.visit ?_ (.nil _))⟩
  rw [← ho.cur, ha]

/-! ## Calls leave the stack as it was -/

/-- What calls do: a push adds a traversal, a pop removes the innermost one, and other calls leave the stack. -/
def CallOk (E : Env) (C : Op → St → Res (Ptr × St)) : Prop :=
  ∀ o s r s', C o s = .ok (r, s') →
    match o with
    | .push ty => ∃ a, ∀ s₀ ps, Good E s₀ s ps → Good E s₀ s' ((a, ty) :: ps)
    | .pop => ∀ s₀ ps x, Good E s₀ s (x :: ps) → Good E s₀ s' ps
    | _ => Good E s s' []

/-- What programs do. -/
def RunOk (E : Env) (R : Prog → St → Res (Ptr × St)) : Prop :=
  ∀ p s r s', Paired 0 p → R p s = .ok (r, s') → Good E s s' []

theorem run_paired {E : Env} {C : Op → St → Res (Ptr × St)} (hC : CallOk E C) : ∀ (p : Prog) (ps : List (Addr × Nat)) (s₀ s : St)
    (r : Ptr) (s' : St), Good E s₀ s ps → Paired ps.length p → runProg C p s = .ok (r, s') → Good E s₀ s' [] := by
  intro p
  induction p with
  | ret q =>
    intro ps s₀ s r s' hg hp h
    simp [runProg] at h
    obtain ⟨_, rfl⟩ := h
    simp [Paired] at hp
    subst hp
    exact hg
  | abort w => intro ps s₀ s r s' hg hp h; simp [runProg] at h
  | call o k ih =>
    intro ps s₀ s r s' hg hp h
    simp only [runProg, Res.bind_eq_ok] at h
    obtain ⟨⟨r1, s1⟩, h1, h2⟩ := h
    have hc := hC o s r1 s1 h1
    cases o with
    | push ty =>
      obtain ⟨a, ha⟩ := hc
      exact ih r1 ((a, ty) :: ps) s₀ s1 r s' (ha s₀ ps hg) (by simpa using hp r1) h2
    | pop =>
      cases ps with
      | nil => exact absurd hp (by simp [Paired])
      | cons x ps => exact ih r1 ps s₀ s1 r s' (hc s₀ ps x hg) (hp r1) h2
    | travDo q => exact ih r1 ps s₀ s1 r s' (hg.trans hc) (by simp only [Paired] at hp; exact hp r1) h2
    | travOpt q => exact ih r1 ps s₀ s1 r s' (hg.trans hc) (by simp only [Paired] at hp; exact hp r1) h2
    | travChildren q => exact ih r1 ps s₀ s1 r s' (hg.trans hc) (by simp only [Paired] at hp; exact hp r1) h2
    | travStart q ty => exact ih r1 ps s₀ s1 r s' (hg.trans hc) (by simp only [Paired] at hp; exact hp r1) h2
    | passStart q ty => exact ih r1 ps s₀ s1 r s' (hg.trans hc) (by simp only [Paired] at hp; exact hp r1) h2
  | mem f k ih =>
    intro ps s₀ s r s' hg hp h
    simp only [runProg, Res.bind_eq_ok] at h
    obtain ⟨⟨v, m⟩, h1, h2⟩ := h
    exact ih v ps s₀ { s with mem := m } r s' (hg.congr rfl rfl rfl rfl) (by simp only [Paired] at hp; exact hp v) h2
  | data f k ih =>
    intro ps s₀ s r s' hg hp h
    simp only [runProg] at h
    split at h
    · cases h
    · rename_i a hca
      split at h
      · cases h
      · rename_i fr hfr
        split at h
        · cases h
        · rename_i d hd
          split at h
          · cases h
          · rename_i vs hvs
            simp only [Res.bind_eq_ok] at h
            obtain ⟨⟨v, vs'⟩, h1, h2⟩ := h
            refine ih v ps s₀ { s with dmem := upd s.dmem d (some vs') } r s' (hg.trans ⟨⟨rfl, rfl, fun e he => ?_, fun e => ?_⟩, [], by simp, .nil _⟩)
              (by simp only [Paired] at hp; exact hp v) h2
            · have : curData s = some d := by simp [curData, hca, hfr, hd]
              rw [this] at he
              exact upd_other _ _ (by simpa using he)
            · by_cases e1 : e = d
              · subst e1; simp [upd_same, hvs]
              · simp [upd_other _ _ e1]

theorem runOk_of_callOk {E : Env} {C : Op → St → Res (Ptr × St)} (hC : CallOk E C) : RunOk E (runProg C) :=
  fun p s r s' hp h => run_paired hC p [] s s r s' (Good.refl E s) (by simpa using hp) h

theorem push_top {E : Env} (hE : Proper E) {R : Prog → St → Res (Ptr × St)} (hR : RunOk E R) {ty : Nat} {s s' : St}
    (h : TRAVpush E R ty s = .ok s') : ∃ a, s.frames a = none ∧ OnTop E s s' (a, ty) ∧
      ∃ s₁ t, s₁.cur = some a ∧ (∀ b, InUse s₁ b ↔ InUse s b ∨ b = a) ∧
        s'.trace = s.trace ++ .init a ty :: t ∧ Steps (InUse s₁) (some a) [] t [] := by
  simp only [TRAVpush] at h
  split at h
  · cases h
  rename_i a ha
  have hfresh : s.frames a = none := hE.frame s a ha
  have use : ∀ fr b, upd s.frames a (some fr) b ≠ none ↔ InUse s b ∨ b = a := by
    intro fr b
    by_cases e : b = a
    · subst e; simp [upd_same]
    · rw [upd_other _ _ e]; simp [InUse, e]
  refine ⟨a, hfresh, ?_⟩
  split at h
  · cases h
  · rename_i i hi
    cases i with
    | nop =>
      simp [TRAVdataInit] at h
      subst h
      exact ⟨⟨none, hfresh, rfl, rfl, fun _ => rfl, fun d hd => by cases hd⟩,
        { s with frames := upd s.frames a (some { prev := s.cur, ty := ty, data := none }), cur := some a },
        [], rfl, use _, by simp, .nil _⟩
    | data vs f =>
      simp only [TRAVdataInit, upd_same] at h
      split at h
      · cases h
      rename_i d hd
      simp only [Res.bind_eq_ok] at h
      obtain ⟨⟨r, s1⟩, h1, h2⟩ := h
      simp at h2
      subst h2
      have hp := hE.inits vs f (List.mem_of_getElem? hi)
      have hk := hR f _ r s1 hp h1
      obtain ⟨ko, t, ht, st⟩ := hk
      refine ⟨OnTop.keep ?_ ko, _, t, ko.1, ?_, by simpa using ht, ?_⟩
      · refine ⟨some d, hfresh, rfl, by rw [upd_upd], ?_, fun d' hd' => ?_⟩
        · intro hd; cases hd
        cases hd'
        exact ⟨(by have := hE.data _ d hd; exact this), by simp [upd_same], fun e he => upd_other _ _ he, hE.match_ ty vs f hi⟩
      · intro b
        unfold InUse
        rw [ko.2.1]
        simp only [upd_upd]
        exact use _ b
      · rw [show InUse s1 = _ from funext fun b => by unfold InUse; rw [ko.2.1]]
        exact st

theorem push_good {E : Env} (hE : Proper E) {R : Prog → St → Res (Ptr × St)} (hR : RunOk E R) {ty : Nat} {s s' : St}
    (h : TRAVpush E R ty s = .ok s') : ∃ a, ∀ (s₀ : St) (ps : List (Addr × Nat)), Good E s₀ s ps →
    Good E s₀ s' ((a, ty) :: ps) := by
  obtain ⟨a, hfresh, htop, s₁, u, hc, hu, htr, su⟩ := push_top hE hR h
  refine ⟨a, fun s₀ ps hg => ?_⟩
  obtain ⟨ho, t, ht, st⟩ := hg
  have hno : ¬ InUse s a := by unfold InUse; simp [hfresh]
  refine ⟨⟨s, ho, htop⟩, t ++ .init a ty :: u, by simp [htr, ht], steps_append st
    (.init (fun h => hno (ho.live.1 _ h)) (fun x hx e => hno (e ▸ ho.live.2 x hx)) ?_)⟩
  refine steps_lift (ps := (a, ty) :: ps) (L' := InUse s₁) (fun a ha => ?_) (fun x hx => ?_) su
  · exact (hu a).mpr (Or.inl (ho.live.1 a ha))
  · rcases List.mem_cons.mp hx with rfl | hx
    · exact (hu _).mpr (Or.inr rfl)
    · exact (hu _).mpr (Or.inl (ho.live.2 x hx))

theorem pop_top {E : Env} {R : Prog → St → Res (Ptr × St)} (hE : Proper E) (hR : RunOk E R) {s₁ s s' : St}
    (h : TRAVpop E R s = .ok s') (x : Addr × Nat) (hg : OnTop E s₁ s x) :
    s'.cur = s₁.cur ∧ s'.frames = s₁.frames ∧ s'.dmem = s₁.dmem ∧
      ∃ t, s'.trace = s.trace ++ t ++ [.fini x.1 x.2] ∧ Steps (InUse s) s.cur [] t [] := by
  obtain ⟨data, hn, hc, hf, h0, hd⟩ := hg
  have hfx : s.frames x.1 = some { prev := s₁.cur, ty := x.2, data := data } := by rw [hf, upd_same]
  simp only [TRAVpop, hc, hfx] at h
  split at h
  · cases h
  · rename_i i hi
    simp only [Res.bind_eq_ok] at h
    obtain ⟨s2, h2, h3⟩ := h
    cases i with
    | nop =>
      simp [TRAVdataFree] at h2
      subst h2
      simp only [hc, hfx] at h3
      simp at h3
      subst h3
      have hdn : data = none := by
        cases data with
        | none => rfl
        | some d => exact absurd hi (hd d rfl).2.2.2
      refine ⟨rfl, ?_, h0 hdn, [], by simp, .nil _⟩
      simp only [hf, upd_upd, upd_none _ _ hn]
    | data f =>
      simp only [TRAVdataFree, Res.bind_eq_ok] at h2
      obtain ⟨⟨r, s3⟩, h4, h5⟩ := h2
      have hk := hR f _ r s3 (hE.finis f (List.mem_of_getElem? hi)) h4
      obtain ⟨⟨kc, kf, kd, kl⟩, t, ht, st⟩ := hk
      rw [kf] at h5
      simp only [hfx] at h5
      cases hdata : data with
      | none => simp [hdata] at h5
      | some d =>
        rw [hdata] at h5 hfx
        simp only at h5
        split at h5
        · cases h5
        · simp at h5
          subst h5
          simp only [kc, hc, hfx] at h3
          simp at h3
          subst h3
          obtain ⟨b1, b2, b3, b4⟩ := hd d hdata
          refine ⟨rfl, ?_, ?_, t, by simp [ht], hc ▸ st⟩
          · simp only [hf, upd_upd, upd_none _ _ hn]
          · funext e
            by_cases he : e = d
            · subst he; simp [upd_same, b1]
            · simp only [upd_other _ _ he]
              rw [kd e ?_, b3 e he]
              simp [curData, hc, hfx, he]

theorem pop_good {E : Env} {R : Prog → St → Res (Ptr × St)} (hE : Proper E) (hR : RunOk E R) {s s' : St}
    (h : TRAVpop E R s = .ok s') (s₀ : St) (ps : List (Addr × Nat)) (x : Addr × Nat) (hg : Good E s₀ s (x :: ps)) :
    Good E s₀ s' ps := by
  obtain ⟨ho, t, ht, st⟩ := hg
  have hl := ho.live
  have hcur := ho.cur
  obtain ⟨s₁, h1, htop⟩ := ho
  obtain ⟨hc, hf, hd, u, hu, su⟩ := pop_top hE hR h x htop
  refine ⟨h1.congr hc hf hd, t ++ (u ++ [.fini x.1 x.2]), by simp [hu, ht], steps_append st (steps_append ?_ (.fini (.nil _)))⟩
  exact steps_lift (as := []) (bs := []) (ps := x :: ps) hl.1 hl.2 (by rw [← hcur]; exact su)

theorem travDo_good {E : Env} {R : Prog → St → Res (Ptr × St)} (hE : Proper E) (hR : RunOk E R) {p r : Ptr} {s s' : St}
    (h : TRAVdo E R p s = .ok (r, s')) : Good E s s' [] := by
  simp only [TRAVdo] at h
  split at h
  · cases h
  · rename_i f hf
    split at h
    · cases h
    · rename_i fr hfr
      split at h
      · cases h
      · rename_i row hrow
        simp only [Res.bind_eq_ok] at h
        obtain ⟨n, hn, h⟩ := h
        split at h
        · cases h
        · rename_i hd hhd
          have := hR _ _ r s' (hE.handlers row (List.mem_of_getElem? hrow) hd (List.mem_of_getElem? hhd) n.1) h
          exact Good.trans (s := { s with trace := s.trace ++ [.visit f n.1] })
            (Good.visit (Good.refl E s) hf rfl rfl rfl rfl) this

theorem travOpt_good {E : Env} {R : Prog → St → Res (Ptr × St)} (hE : Proper E) (hR : RunOk E R) {p r : Ptr} {s s' : St}
    (h : TRAVopt E R p s = .ok (r, s')) : Good E s s' [] := by
  cases p with
  | none => simp [TRAVopt] at h; obtain ⟨_, rfl⟩ := h; exact Good.refl E s
  | some a => exact travDo_good hE hR h

theorem childLoop_good {E : Env} {R : Prog → St → Res (Ptr × St)} (hE : Proper E) (hR : RunOk E R) (p : Ptr) :
    ∀ (n i : Nat) (s s' : St), childLoop E R n p i s = .ok s' → Good E s s' [] := by
  intro n
  induction n with
  | zero => intro i s s' h; simp [childLoop] at h
  | succ n ih =>
    intro i s s' h
    simp only [childLoop, Res.bind_eq_ok] at h
    obtain ⟨nd, _, h⟩ := h
    split at h
    · simp only [Res.bind_eq_ok] at h
      obtain ⟨c, _, ⟨r, s1⟩, h1, m, _, h2⟩ := h
      split at h2
      · exact (Good.congr (travOpt_good hE hR h1) rfl rfl rfl rfl : Good E s { s1 with mem := m } []).trans (ih _ _ _ h2)
      · cases h2
    · simp at h; subst h; exact Good.refl E s

theorem callOk {E : Env} (hE : Proper E) : ∀ n, CallOk E (call E n) := by
  intro n
  induction n with
  | zero => intro o s r s' h; simp [call] at h
  | succ n ih =>
    have hR := runOk_of_callOk ih
    intro o s r s' h
    cases o with
    | travDo p => exact travDo_good hE hR h
    | travOpt p => exact travOpt_good hE hR h
    | travChildren p =>
      simp only [call, TRAVchildren, Res.bind_eq_ok] at h
      obtain ⟨s1, h1, h2⟩ := h
      simp at h2
      obtain ⟨_, rfl⟩ := h2
      exact childLoop_good hE hR p _ _ _ _ h1
    | travStart p ty =>
      simp only [call, TRAVstart, Res.bind_eq_ok] at h
      obtain ⟨s1, h1, ⟨r2, s2⟩, h2, s3, h3, h4⟩ := h
      simp at h4
      obtain ⟨_, rfl⟩ := h4
      obtain ⟨a, ha⟩ := push_good hE hR h1
      exact pop_good hE hR h3 s [] _ ((ha s [] (Good.refl E s)).trans (travOpt_good hE hR h2))
    | passStart p ty =>
      simp only [call, PASSstart] at h
      split at h
      · cases h
      · rename_i f hf
        exact hR _ _ r s' (hE.passes f (List.mem_of_getElem? hf) p) h
    | push ty =>
      simp only [call, Res.bind_eq_ok] at h
      obtain ⟨s1, h1, h2⟩ := h
      simp at h2
      obtain ⟨_, rfl⟩ := h2
      exact push_good hE hR h1
    | pop =>
      simp only [call, Res.bind_eq_ok] at h
      obtain ⟨s1, h1, h2⟩ := h
      simp at h2
      obtain ⟨_, rfl⟩ := h2
      exact pop_good hE hR h1

/-- `TRAVstart` in detail. -/
theorem travStart_good {E : Env} {R : Prog → St → Res (Ptr × St)} (hE : Proper E) (hR : RunOk E R) {p r : Ptr}
    {ty : Nat} {s s' : St} (h : TRAVstart E R p ty s = .ok (r, s')) :
    s'.cur = s.cur ∧ s'.frames = s.frames ∧ s'.dmem = s.dmem ∧
      ∃ a t, s.frames a = none ∧ s'.trace = s.trace ++ (.init a ty :: t ++ [.fini a ty]) ∧
        Steps (fun b => InUse s b ∨ b = a) (some a) [] t [] := by
  simp only [TRAVstart, Res.bind_eq_ok] at h
  obtain ⟨s1, h1, ⟨r2, s2⟩, h2, s3, h3, h4⟩ := h
  simp at h4
  obtain ⟨_, rfl⟩ := h4
  obtain ⟨a, hfresh, htop, sa, t1, hca, hua, ht1, st1⟩ := push_top hE hR h1
  obtain ⟨ho, t2, ht2, st2⟩ := travOpt_good hE hR h2
  have htop2 := htop.keep ho
  obtain ⟨hc, hf, hd, t3, ht3, st3⟩ := pop_top hE hR h3 _ htop2
  have hu : ∀ sx, OnTop E s sx (a, ty) → InUse sx = fun b => InUse s b ∨ b = a := by
    intro sx hx
    obtain ⟨data, _, _, hfx, _, _⟩ := hx
    funext b
    unfold InUse
    rw [hfx]
    by_cases e : b = a
    · subst e; simp [upd_same]
    · simp [upd_other _ _ e, e]
  have hcx : ∀ sx, OnTop E s sx (a, ty) → sx.cur = some (a) := by
    intro sx hx
    obtain ⟨_, _, hx, _⟩ := hx
    exact hx
  refine ⟨hc, hf, hd, a, t1 ++ t2 ++ t3, hfresh, by simp [ht3, ht2, ht1], ?_⟩
  rw [hu s1 htop, hcx s1 htop] at st2
  rw [hu s2 htop2, hcx s2 htop2] at st3
  rw [show InUse sa = _ from funext fun b => propext (hua b)] at st1
  exact steps_append (steps_append st1 st2) st3

theorem push_data {E : Env} (hE : Proper E) {R : Prog → St → Res (Ptr × St)} (hR : RunOk E R) {ty : Nat} {s s' : St}
    (h : TRAVpush E R ty s = .ok s') : ∃ a fr, s'.cur = some a ∧ s'.frames a = some fr ∧ fr.ty = ty ∧
      ∀ vs f, E.initTable[ty]? = some (.data vs f) → ∃ d, fr.data = some d ∧ (s'.dmem d).isSome = true := by
  simp only [TRAVpush] at h
  split at h
  · cases h
  · rename_i a ha
    split at h
    · cases h
    · rename_i i hi
      cases i with
      | nop =>
        simp [TRAVdataInit] at h
        subst h
        exact ⟨a, ⟨s.cur, ty, none⟩, rfl, by simp [upd_same], rfl, fun vs f e => by rw [hi] at e; cases e⟩
      | data vs f =>
        simp only [TRAVdataInit, upd_same] at h
        split at h
        · cases h
        · rename_i d hd
          simp only [Res.bind_eq_ok] at h
          obtain ⟨⟨r, s3⟩, h4, h5⟩ := h
          simp at h5
          subst h5
          obtain ⟨⟨kc, kf, kd, kl⟩, _⟩ := hR f _ r s3 (hE.inits vs f (List.mem_of_getElem? hi)) h4
          refine ⟨a, ⟨s.cur, ty, some d⟩, kc, by rw [kf]; simp [upd_same], rfl, fun vs' f' e => ⟨d, rfl, ?_⟩⟩
          rw [kl]
          simp [upd_same]

theorem pop_ok {E : Env} (hE : Proper E) {R : Prog → St → Res (Ptr × St)} (hR : RunOk E R) {s : St} {a : Addr} {fr : Frame}
    (hc : s.cur = some a) (hf : s.frames a = some fr) {i : DataFree} (hi : E.freeTable[fr.ty]? = some i)
    (hd : ∀ f, i = .data f → (∃ d, fr.data = some d ∧ (s.dmem d).isSome = true) ∧ (R f s).isOk = true) :
    ∃ s', TRAVpop E R s = .ok s' := by
  simp only [TRAVpop, hc, hf, hi]
  cases i with
  | nop => simp [TRAVdataFree, hc, hf]
  | data f =>
    obtain ⟨⟨d, e1, e2⟩, e3⟩ := hd f rfl
    cases hr : R f s with
    | ok y =>
      obtain ⟨⟨kc, kf, kd, kl⟩, _⟩ := hR f s y.1 y.2 (hE.finis f (List.mem_of_getElem? hi)) hr
      rw [← kl] at e2
      cases hx : y.2.dmem d with
      | none => simp [hx] at e2
      | some v => simp [TRAVdataFree, hr, kf, kc, hf, hc, e1, hx]
    | _ => simp [hr, Res.isOk] at e3

/-! ## Children -/

theorem nodeAt_ok {m : Mem} {p : Ptr} {x : Addr × NodeB} (h : nodeAt m p = .ok x) : p = some x.1 ∧ m x.1 = some (.node x.2) := by
  cases p with
  | none => simp [nodeAt] at h
  | some a =>
    simp only [nodeAt] at h
    split at h
    · rename_i b hb
      cases h
      exact ⟨rfl, hb⟩
    · cases h

theorem dataAt_ok {m : Mem} {p : Ptr} {x : Addr × DataB} (h : dataAt m p = .ok x) : p = some x.1 ∧ m x.1 = some (.data x.2) := by
  cases p with
  | none => simp [dataAt] at h
  | some a =>
    simp only [dataAt] at h
    split at h
    · rename_i b hb
      cases h
      exact ⟨rfl, hb⟩
    · cases h

theorem handles_of_travDo {E : Env} {R : Prog → St → Res (Ptr × St)} {c : Addr} {s : St} {r : Ptr} {s' : St}
    (h : TRAVdo E R (some c) s = .ok (r, s')) : Handles E R c s r s' := by
  simp only [TRAVdo] at h
  split at h
  · cases h
  · rename_i f hf
    split at h
    · cases h
    · rename_i fr hfr
      split at h
      · cases h
      · rename_i row hrow
        simp only [Res.bind_eq_ok] at h
        obtain ⟨n, hn, h⟩ := h
        obtain ⟨e, hb⟩ := nodeAt_ok hn
        cases e
        split at h
        · cases h
        · rename_i hd hhd
          exact ⟨f, fr, row, n.2, hd, hf, hfr, hrow, hb, hhd, h⟩

theorem set_self {α : Type} : ∀ (l : List α) (i : Nat) (x : α), l[i]? = some x → l.set i x = l
  | [], _, _, h => by simp at h
  | y :: l, 0, x, h => by simp at h; simp [h]
  | y :: l, i + 1, x, h => by simp at h; simp [set_self l i x h]

theorem rounds_of_childLoop {E : Env} {R : Prog → St → Res (Ptr × St)} (n : Addr) :
    ∀ (fuel i : Nat) (s s' : St), childLoop E R fuel (some n) i s = .ok s' → Rounds E R n i s s' := by
  intro fuel
  induction fuel with
  | zero => intro i s s' h; simp [childLoop] at h
  | succ fuel ih =>
    intro i s s' h
    simp only [childLoop, Res.bind_eq_ok] at h
    obtain ⟨nd, hnd, h⟩ := h
    obtain ⟨e, hn⟩ := nodeAt_ok hnd
    cases e
    have hcount : count s nd.1 = some nd.2.numChildren := by simp [count, hn]
    split at h
    · rename_i hi
      simp only [Res.bind_eq_ok] at h
      obtain ⟨c, hc, ⟨r, s1⟩, h1, m, hm, h2⟩ := h
      split at h2
      · have hrec := ih _ _ _ h2
        simp only [getChild, hnd, Res.bind_ok, Res.bind_eq_ok] at hc
        obtain ⟨d, hd, hc⟩ := hc
        obtain ⟨e1, hdm⟩ := dataAt_ok hd
        split at hc
        · cases hc
        · rename_i c' hc'
          cases hc
          have hslot : slot s nd.1 i = some c' := by simp [slot, hn, e1, hdm, hc']
          simp only [setChild, Res.bind_eq_ok] at hm
          obtain ⟨n2, hn2, hm⟩ := hm
          obtain ⟨e2, hn2m⟩ := nodeAt_ok hn2
          simp only [Option.some.injEq] at e2
          split at hm
          · rename_i hsame
            simp only [Res.bind_eq_ok] at hm
            obtain ⟨d2, hd2, hm⟩ := hm
            obtain ⟨e3, hd2m⟩ := dataAt_ok hd2
            split at hm
            · cases hm
              have hst : ({ s1 with mem := upd s1.mem d2.1 (some (.data { d2.2 with kids := d2.2.kids.set i r })) } : St) = store s1 nd.1 i r := by
                rw [← e2] at hn2m
                simp [store, hn2m, e3, hd2m]
                rfl
              rw [hst] at hrec
              cases c' with
              | some c =>
                exact .child hcount hi hslot (handles_of_travDo h1) hrec
              | none =>
                simp [TRAVopt] at h1
                obtain ⟨rfl, rfl⟩ := h1
                have : store s nd.1 i none = s := by
                  simp only [store, hn, e1, hdm]
                  rw [set_self _ _ _ hc']
                  have : (fun a => if a = d.1 then some (Blk.data d.2) else s.mem a) = s.mem := by
                    funext a
                    by_cases ha : a = d.1
                    · subst ha; simp [hdm]
                    · simp [ha]
                  rw [this]
                rw [this] at hrec
                exact .null hcount hi hslot hrec
            · cases hm
          · cases hm
      · cases h2
    · rename_i hi
      simp at h
      subst h
      exact .done hcount (by omega)

theorem sweep_of_rounds {E : Env} {R : Prog → St → Res (Ptr × St)} {n d : Addr} {b : NodeB} (hbd : b.children = some d)
    (Inv : St → Prop) : ∀ (cs done : List Ptr) (db : DataB) (s s' : St), Rounds E R n done.length s s' →
      s.mem n = some (.node b) → s.mem d = some (.data db) → db.kids = done ++ cs → b.numChildren = db.kids.length →
      Inv s → (∀ c, some c ∈ cs → ∀ s r s₁, Inv s → Handles E R c s r s₁ →
        s₁.mem n = s.mem n ∧ s₁.mem d = s.mem d ∧ ∀ i, Inv (store s₁ n i r)) →
      ∃ rs, Sweep E R n done.length cs rs s s' ∧ s'.mem n = some (.node b) ∧
        s'.mem d = some (.data { db with kids := done ++ rs }) := by
  intro cs
  induction cs with
  | nil =>
    intro done db s s' h hn hd hk hc _ _
    have hcount : count s n = some done.length := by simp [count, hn, hc, hk]
    refine ⟨[], ?_⟩
    have hdb : ({ db with kids := done ++ [] } : DataB) = db := by rw [← hk]
    cases h with
    | done _ _ => exact ⟨.nil, hn, by rw [hd, hdb]⟩
    | null h1 h2 _ _ => rw [hcount] at h1; cases h1; omega
    | child h1 h2 _ _ _ => rw [hcount] at h1; cases h1; omega
  | cons c cs ih =>
    intro done db s s' h hn hd hk hc hI H
    have hcount : count s n = some db.kids.length := by simp [count, hn, hc]
    have hlen : done.length < db.kids.length := by simp [hk]
    have hslot : slot s n done.length = some c := by simp [slot, hn, hbd, hd, hk]
    cases h with
    | done h1 h2 => rw [hcount] at h1; cases h1; omega
    | null h1 h2 h3 h4 =>
      rw [hslot] at h3
      cases h3
      obtain ⟨rs, g1, g2, g3⟩ := ih (done ++ [none]) db s s' (by simpa using h4) hn hd (by simp [hk]) hc hI
        (fun c hc => H c (List.mem_cons_of_mem _ hc))
      exact ⟨none :: rs, .null (by simpa using g1), g2, by simpa using g3⟩
    | child h1 h2 h3 h4 h5 =>
      rename_i k c' r s₁
      rw [hslot] at h3
      cases h3
      obtain ⟨e1, e2, hI'⟩ := H c' (by simp) _ _ _ hI h4
      rw [hn] at e1
      rw [hd] at e2
      have hnd : n ≠ d := by intro e; subst e; rw [hn] at hd; cases hd
      have hst : (store s₁ n done.length r).mem = fun a =>
          if a = d then some (.data { db with kids := db.kids.set done.length r }) else s₁.mem a := by
        simp [store, e1, hbd, e2]
      obtain ⟨rs, g1, g2, g3⟩ := ih (done ++ [r]) { db with kids := db.kids.set done.length r } _ s'
        (by simpa using h5) (by rw [hst]; simp [hnd, e1]) (by rw [hst]; simp) (by simp [hk]) (by simpa using hc)
        (hI' _)
        (fun c hc => H c (List.mem_cons_of_mem _ hc))
      exact ⟨r :: rs, .child h4 (by simpa using g1), g2, by simpa using g3⟩

end Verif.Trav
