import Verif.Spec.Targets
import Verif.Lemmas.Trav

/-!
# Lemmas about runs on tables with and without shortcuts
-/

namespace Verif.Targets
open Verif.Trav Verif.Spec.Targets

variable {A : Parse.Ast}

/-! ### Same states -/

theorem Same.refl (s : St) : Same s s := ⟨rfl, rfl, rfl, rfl⟩

theorem Same.symm {s t : St} (h : Same s t) : Same t s := ⟨h.1.symm, h.2.1.symm, h.2.2.1.symm, h.2.2.2.symm⟩

theorem Same.trans {s t u : St} (h : Same s t) (h' : Same t u) : Same s u :=
  ⟨h'.1.trans h.1, h'.2.1.trans h.2.1, h'.2.2.1.trans h.2.2.1, h'.2.2.2.trans h.2.2.2⟩

/-! ### Rows -/

/-- The node types `U` are gone through, and have only such below them. -/
def Quiet (A : Parse.Ast) (row : List (Addr → Prog)) (U : Nat → Prop) : Prop :=
  ∀ q, U q → ∃ n, A.nodes[q]? = some n ∧ row[q + 1]? = some (through A q) ∧
    ∀ c ∈ n.children, ∀ (q' : Nat) n', A.nodes[q']? = some n' → Allows A c n' → U q'

/-- Entries without and with shortcuts. -/
inductive Cut (A : Parse.Ast) (row : List (Addr → Prog)) (k : Nat) : (Addr → Prog) → (Addr → Prog) → Prop where
  | same (h : Addr → Prog) : Cut A row k h h
  | children (q : Nat) : Cut A row k (through A q) TRAVchildrenH
  | skip {U : Nat → Prop} (q : Nat) : k = q + 1 → U q → Quiet A row U → Cut A row k (through A q) TRAVnop

/-- Tables without and with shortcuts. -/
def Shortcut (A : Parse.Ast) (I G : List (List (Addr → Prog))) : Prop :=
  ∀ (j : Nat) row, I[j]? = some row → ∃ row', G[j]? = some row' ∧
    ∀ (k : Nat) h, row[k]? = some h → ∃ h', row'[k]? = some h' ∧ Cut A row k h h'

/-! ### Outcomes -/

/-- What the first outcome says, the second does: values are related, and the process ends alike. -/
def Agree {α β : Type} (R : α → β → Prop) : Res α → Res β → Prop
  | .ok a, y => ∃ b, y = .ok b ∧ R a b
  | .abort why, y => y = .abort why
  | _, _ => True

theorem Agree.bind {α β γ δ : Type} {R : α → β → Prop} {S : γ → δ → Prop} {x : Res α} {y : Res β} {f : α → Res γ} {g : β → Res δ}
    (h : Agree R x y) (hf : ∀ a b, R a b → Agree S (f a) (g b)) : Agree S (x >>= f) (y >>= g) := by
  cases x with
  | ok a =>
    obtain ⟨b, rfl, hR⟩ := h
    exact hf a b hR
  | abort why =>
    have : y = .abort why := h
    subst this
    exact rfl
  | ub why => exact trivial
  | diverge => exact trivial

theorem Agree.ok {α β : Type} {R : α → β → Prop} {a : α} {b : β} (h : R a b) : Agree R (.ok a) (.ok b) := ⟨b, rfl, h⟩

theorem Agree.same {α : Type} {x : Res α} : Agree (· = ·) x x := by
  cases x with
  | ok a => exact ⟨a, rfl, rfl⟩
  | abort why => exact rfl
  | ub why => exact trivial
  | diverge => exact trivial

/-- Results with the same pointer and the same state. -/
def Like {α : Type} (a b : α × St) : Prop := b.1 = a.1 ∧ Same a.2 b.2

/-! ### What is skipped does nothing -/

theorem through_run {C : Op → St → Res (Ptr × St)} {k : Nat} {a : Addr} {s : St} {β : Type}
    {R : Ptr × St → β → Prop} {y : Res β}
    (h : Fits A s.mem a k → Agree R (C (.travChildren (some a)) s) y) : Agree R (runProg C (through A k a) s) y := by
  rw [through, runProg]
  by_cases hf : Fits A s.mem a k
  · rw [if_pos hf, Res.bind_ok, runProg]
    have : (do let r ← C (.travChildren (some a)) s; runProg C (.ret r.1) r.2) = C (.travChildren (some a)) s := by
      cases C (.travChildren (some a)) s <;> rfl
    simp only at this ⊢
    rw [this]
    exact h hf
  · rw [if_neg hf]
    exact trivial

theorem upd_self {α : Type} (m : Addr → Option α) (a : Addr) (v : Option α) (h : m a = v) : upd m a v = m := by
  funext b
  simp only [upd]
  split
  · rename_i e; rw [e, h]
  · rfl

/-- There is a node at the address, or there is nothing to show. -/
theorem nodeAt_agree {α β : Type} {R : α → β → Prop} {m : Mem} {p : Ptr} {f : Addr × NodeB → Res α} {y : Res β}
    (h : ∀ a b, p = some a → m a = some (.node b) → Agree R (f (a, b)) y) : Agree R (nodeAt m p >>= f) y := by
  cases hn : nodeAt m p with
  | ok x => obtain ⟨h1, h2⟩ := nodeAt_ok hn; exact h _ _ h1 h2
  | abort why =>
    simp only [nodeAt] at hn
    split at hn
    · cases hn
    · split at hn <;> cases hn
  | ub why => exact trivial
  | diverge => exact trivial

theorem dataAt_agree {α β : Type} {R : α → β → Prop} {m : Mem} {p : Ptr} {f : Addr × DataB → Res α} {y : Res β}
    (h : ∀ a b, p = some a → m a = some (.data b) → Agree R (f (a, b)) y) : Agree R (dataAt m p >>= f) y := by
  cases hn : dataAt m p with
  | ok x => obtain ⟨h1, h2⟩ := dataAt_ok hn; exact h _ _ h1 h2
  | abort why =>
    simp only [dataAt] at hn
    split at hn
    · cases hn
    · split at hn <;> cases hn
  | ub why => exact trivial
  | diverge => exact trivial

theorem bind_assoc' {α β γ : Type} (x : Res α) (f : α → Res β) (g : β → Res γ) : (x >>= f) >>= g = x >>= fun a => f a >>= g := by
  cases x <;> rfl

theorem skip_run {E : Env} {row : List (Addr → Prog)} {U : Nat → Prop} (hq : Quiet A row U) {f : Addr} {fr : Frame}
    (hrow : E.vtable[fr.ty]? = some row) {m : Mem} {a : Addr} {q : Nat} (hfit : Fits A m a q) :
    U q → ∀ (N : Nat) (s : St), s.mem = m → s.cur = some f → s.frames f = some fr →
      Agree Like (call E N (.travChildren (some a)) s) (.ok (some a, s)) := by
  induction hfit with
  | @mk a q b n kind h1 h2 h3 h4 h5 ih =>
    intro hU N s hm hc hfr
    obtain ⟨n', g1, g2, g3⟩ := hq q hU
    rw [h2] at g1
    cases g1
    cases N with
    | zero => exact trivial
    | succ N =>
      have loop : ∀ (fuel i : Nat) (s : St), s.mem = m → s.cur = some f → s.frames f = some fr →
          Agree Same (childLoop E (runProg (call E N)) fuel (some a) i s) (.ok s) := by
        intro fuel
        induction fuel with
        | zero => intro i s _ _ _; exact trivial
        | succ fuel ihf =>
          intro i s hm hc hfr
          rw [childLoop]
          refine nodeAt_agree fun a' b' e2 e3 => ?_
          simp only [Option.some.injEq] at e2
          subst e2
          rw [hm, h1] at e3
          cases e3
          simp only
          by_cases hi : i < b.numChildren
          · rw [if_pos hi, getChild, bind_assoc']
            refine nodeAt_agree fun a' b' e2 e3 => ?_
            simp only [Option.some.injEq] at e2
            subst e2
            rw [hm, h1] at e3
            cases e3
            rw [bind_assoc']
            refine dataAt_agree fun e d e8 e9 => ?_
            rw [hm] at e9
            simp only at e8 ⊢
            cases hk : d.kids[i]? with
            | none => exact trivial
            | some c0 =>
              simp only [Res.bind_ok]
              refine Agree.bind (R := fun x _ => x.1 = c0 ∧ Same s x.2) (y := .ok ()) (g := fun _ => .ok s) ?_ ?_
              · cases c0 with
                | none => exact ⟨_, rfl, rfl, Same.refl s⟩
                | some p =>
                  have hkid : Kid m b i p := ⟨e, d, e8, e9, hi, hk⟩
                  obtain ⟨c1, n1, k1, k2, k3⟩ := h4 i p hkid
                  have hU' := g3 c1 (List.mem_of_getElem? k1) _ n1 k2 k3
                  obtain ⟨n2, _, k4, _⟩ := hq _ hU'
                  simp only [TRAVopt, TRAVdo, hc, hfr, hrow]
                  refine nodeAt_agree fun p' bp k6 k7 => ?_
                  simp only [Option.some.injEq] at k6
                  subst k6
                  rw [hm] at k7
                  have hty : bp.ty = kind i + 1 := by
                    cases h5 i p hkid with
                    | mk kd f1 f2 f3 _ _ => rw [k7] at f1; cases f1; exact f3
                  simp only [hty, k4]
                  refine through_run fun _ => ?_
                  have := ih i p hkid hU' N { s with cur := some f, trace := s.trace ++ [.visit f p] } (by exact hm) rfl (by exact hfr)
                  generalize call E N (.travChildren (some p)) { s with cur := some f, trace := s.trace ++ [.visit f p] } = x at this
                  cases x with
                  | ok x =>
                    obtain ⟨y, e, l1, l2⟩ := this
                    cases e
                    exact ⟨_, rfl, l1.symm, l2.1.symm, l2.2.1.symm, l2.2.2.1.symm, l2.2.2.2.symm.trans hc.symm⟩
                  | abort why => cases this
                  | ub why => exact trivial
                  | diverge => exact trivial
              · rintro ⟨c', s1⟩ _ ⟨l1, hs⟩
                simp only at l1 hs ⊢
                subst l1
                rw [setChild, bind_assoc']
                refine nodeAt_agree fun a' b' e2 e3 => ?_
                simp only [Option.some.injEq] at e2
                subst e2
                rw [hs.1, hm, h1] at e3
                cases e3
                simp only [if_true]
                rw [bind_assoc']
                refine dataAt_agree fun e' d' l5 l6 => ?_
                rw [e8] at l5
                cases l5
                rw [hs.1, hm, e9] at l6
                cases l6
                simp only
                by_cases hlen : i < d.kids.length
                · rw [if_pos hlen, Res.bind_ok, set_self _ _ _ hk, upd_self s1.mem e _ (by rw [hs.1, hm]; exact e9)]
                  by_cases hmax : i < INT_MAX
                  · rw [if_pos hmax]
                    have := ihf (i + 1) s1 (hs.1.trans hm) (hs.2.2.2.trans hc) (by rw [hs.2.1]; exact hfr)
                    generalize childLoop E (runProg (call E N)) fuel (some a) (i + 1) s1 = x at this
                    cases x with
                    | ok x =>
                      obtain ⟨y, e, l⟩ := this
                      cases e
                      exact ⟨_, rfl, Same.trans l (Same.symm hs)⟩
                    | abort why => cases this
                    | ub why => exact trivial
                    | diverge => exact trivial
                  · rw [if_neg hmax]
                    exact trivial
                · rw [if_neg hlen]
                  exact trivial
          · rw [if_neg hi]
            exact ⟨_, rfl, Same.refl s⟩
      simp only [call, TRAVchildren]
      exact Agree.bind (g := fun s => .ok (some a, s)) (loop N 0 s hm hc hfr) fun x y h => .ok ⟨rfl, h⟩

/-! ### Runs with and without shortcuts -/

/-- Change what has been observed. -/
abbrev seen (s : St) (tr : List Event) : St := { s with trace := tr }

theorem same_eq {s t : St} (h : Same s t) : t = seen s t.trace := by
  obtain ⟨h1, h2, h3, h4⟩ := h
  cases s
  cases t
  simp only at h1 h2 h3 h4
  subst h1 h2 h3 h4
  rfl

/-- What the one does, the other does. -/
def Sim {α : Type} (f g : St → Res (α × St)) : Prop := ∀ s tr, Agree Like (f s) (g (seen s tr))

/-- What the one does, the other does, without a value. -/
def SimS (f g : St → Res St) : Prop := ∀ s tr, Agree Same (f s) (g (seen s tr))

theorem Sim.at {α : Type} {f g : St → Res (α × St)} (h : Sim f g) {s t : St} (hs : Same s t) : Agree Like (f s) (g t) := by
  rw [same_eq hs]; exact h s _

theorem SimS.at {f g : St → Res St} (h : SimS f g) {s t : St} (hs : Same s t) : Agree Same (f s) (g t) := by
  rw [same_eq hs]; exact h s _

theorem sim_runProg {C C' : Op → St → Res (Ptr × St)} (h : ∀ o, Sim (C o) (C' o)) (p : Prog) : Sim (runProg C p) (runProg C' p) := by
  induction p with
  | ret p => intro s tr; rw [runProg, runProg]; exact .ok ⟨rfl, rfl, rfl, rfl, rfl⟩
  | abort why => intro s tr; rw [runProg, runProg]; exact rfl
  | call o k ih =>
    intro s tr
    rw [runProg, runProg]
    refine (h o s tr).bind fun a b hab => ?_
    rw [hab.1]
    exact (ih a.1).at hab.2
  | mem f k ih =>
    intro s tr
    rw [runProg, runProg]
    refine Agree.same.bind fun a b hab => ?_
    subst hab
    exact ih a.1 _ tr
  | data f k ih =>
    intro s tr
    rw [runProg, runProg]
    simp only
    cases ha : s.cur with
    | none => exact trivial
    | some a =>
      simp only
      cases hfr : s.frames a with
      | none => exact trivial
      | some fr =>
        simp only
        cases hd : fr.data with
        | none => exact trivial
        | some d =>
          simp only
          cases hvs : s.dmem d with
          | none => exact trivial
          | some vs =>
            refine Agree.same.bind fun a b hab => ?_
            subst hab
            exact ih a.1 _ tr

section
variable {E : Env} {I G : List (List (Addr → Prog))} {R R' : Prog → St → Res (Ptr × St)}

theorem sim_dataInit (hb : Blind E) (hR : ∀ p, Sim (R p) (R' p)) (i : DataInit) (a : Addr) :
    SimS (TRAVdataInit { E with vtable := I } R i a) (TRAVdataInit { E with vtable := G } R' i a) := by
  intro s tr
  cases i with
  | nop => exact .ok ⟨rfl, rfl, rfl, rfl⟩
  | data defaults init =>
    simp only [TRAVdataInit]
    rw [hb.data s (seen s tr) ⟨rfl, rfl, rfl, rfl⟩]
    cases hfr : s.frames a with
    | none => exact trivial
    | some fr =>
      simp only
      cases hd : E.newData s with
      | none => exact rfl
      | some d => exact (hR init _ tr).bind fun x y h => .ok h.2

theorem sim_dataFree (hR : ∀ p, Sim (R p) (R' p)) (i : DataFree) (a : Addr) : SimS (TRAVdataFree R i a) (TRAVdataFree R' i a) := by
  intro s tr
  cases i with
  | nop => exact .ok ⟨rfl, rfl, rfl, rfl⟩
  | data fini =>
    simp only [TRAVdataFree]
    refine (hR fini s tr).bind fun x y h => ?_
    obtain ⟨x1, x2⟩ := x
    obtain ⟨y1, y2⟩ := y
    obtain ⟨_, h⟩ := h
    simp only at h ⊢
    rw [same_eq h]
    simp only
    cases hfr : x2.frames a with
    | none => exact trivial
    | some fr =>
      simp only
      cases hd : fr.data with
      | none => exact trivial
      | some d =>
        simp only
        cases hvs : x2.dmem d with
        | none => exact trivial
        | some vs => exact .ok ⟨rfl, rfl, rfl, rfl⟩

theorem sim_push (hb : Blind E) (hR : ∀ p, Sim (R p) (R' p)) (ty : Nat) :
    SimS (TRAVpush { E with vtable := I } R ty) (TRAVpush { E with vtable := G } R' ty) := by
  intro s tr
  simp only [TRAVpush]
  rw [hb.frame s (seen s tr) ⟨rfl, rfl, rfl, rfl⟩]
  cases ha : E.newFrame s with
  | none => exact rfl
  | some a =>
    simp only
    cases hi : E.initTable[ty]? with
    | none => exact trivial
    | some i => exact sim_dataInit hb hR i a _ _

theorem sim_pop (hR : ∀ p, Sim (R p) (R' p)) : SimS (TRAVpop { E with vtable := I } R) (TRAVpop { E with vtable := G } R') := by
  intro s tr
  simp only [TRAVpop]
  cases ha : s.cur with
  | none => exact rfl
  | some a =>
    simp only
    cases hfr : s.frames a with
    | none => exact trivial
    | some fr =>
      simp only
      cases hi : E.freeTable[fr.ty]? with
      | none => exact trivial
      | some i =>
        refine (sim_dataFree hR i a s tr).bind fun u v h => ?_
        rw [same_eq h]
        simp only
        cases hu : u.cur with
        | none => exact .ok ⟨rfl, rfl, rfl, rfl⟩
        | some b =>
          simp only
          cases hf : u.frames b with
          | none => exact trivial
          | some fr' => exact .ok ⟨rfl, rfl, rfl, rfl⟩

theorem sim_opt (hd : ∀ p, Sim (TRAVdo { E with vtable := I } R p) (TRAVdo { E with vtable := G } R' p)) (p : Ptr) :
    Sim (TRAVopt { E with vtable := I } R p) (TRAVopt { E with vtable := G } R' p) := by
  intro s tr
  cases p with
  | none => exact .ok ⟨rfl, rfl, rfl, rfl, rfl⟩
  | some a => exact hd (some a) s tr

theorem sim_start (hb : Blind E) (hR : ∀ p, Sim (R p) (R' p))
    (hd : ∀ p, Sim (TRAVdo { E with vtable := I } R p) (TRAVdo { E with vtable := G } R' p)) (p : Ptr) (ty : Nat) :
    Sim (TRAVstart { E with vtable := I } R p ty) (TRAVstart { E with vtable := G } R' p ty) := by
  intro s tr
  simp only [TRAVstart]
  refine (sim_push hb hR ty s tr).bind fun u v h => (((sim_opt hd p).at h).bind fun x y hxy => ?_)
  refine ((sim_pop hR).at hxy.2).bind fun u v h => .ok ⟨hxy.1, h⟩

theorem sim_loop (hd : ∀ p, Sim (TRAVdo { E with vtable := I } R p) (TRAVdo { E with vtable := G } R' p)) (p : Ptr) (fuel : Nat) :
    ∀ i, SimS (childLoop { E with vtable := I } R fuel p i) (childLoop { E with vtable := G } R' fuel p i) := by
  induction fuel with
  | zero => intro i s tr; exact trivial
  | succ fuel ih =>
    intro i s tr
    rw [childLoop, childLoop]
    refine Agree.same.bind fun b b' e => ?_
    subst e
    by_cases hi : i < b.2.numChildren
    · rw [if_pos hi, if_pos hi]
      refine Agree.same.bind fun c c' e => ?_
      subst e
      refine (sim_opt hd c.1 s tr).bind fun x y hxy => ?_
      rw [hxy.1, hxy.2.1]
      refine Agree.same.bind fun m m' e => ?_
      subst e
      by_cases hi' : i < INT_MAX
      · rw [if_pos hi', if_pos hi']
        exact (ih (i + 1)).at ⟨rfl, hxy.2.2.1, hxy.2.2.2.1, hxy.2.2.2.2⟩
      · rw [if_neg hi']
        exact trivial
    · rw [if_neg hi, if_neg hi]
      exact .ok ⟨rfl, rfl, rfl, rfl⟩

end

theorem sim_do {E : Env} {I G : List (List (Addr → Prog))} (hc : Shortcut A I G) {n : Nat}
    (hC : ∀ o, Sim (call { E with vtable := I } n o) (call { E with vtable := G } n o)) (p : Ptr) :
    Sim (TRAVdo { E with vtable := I } (runProg (call { E with vtable := I } n)) p)
      (TRAVdo { E with vtable := G } (runProg (call { E with vtable := G } n)) p) := by
  intro s tr
  simp only [TRAVdo]
  cases hf : s.cur with
  | none => exact trivial
  | some f =>
    simp only
    cases hfr : s.frames f with
    | none => exact trivial
    | some fr =>
      simp only
      cases hrow : I[fr.ty]? with
      | none => exact trivial
      | some row =>
        obtain ⟨row', g1, g2⟩ := hc _ _ hrow
        simp only [g1]
        refine Agree.same.bind fun x y e => ?_
        subst e
        obtain ⟨a, b⟩ := x
        simp only
        cases hhd : row[b.ty]? with
        | none => exact trivial
        | some hd =>
          obtain ⟨hd', g3, g4⟩ := g2 _ _ hhd
          simp only [g3]
          cases g4 with
          | same => exact sim_runProg hC _ _ _
          | children q =>
            refine through_run fun _ => ?_
            rw [TRAVchildrenH, runProg]
            have := hC (.travChildren (some a)) { s with cur := some f, trace := s.trace ++ [.visit f a] } (tr ++ [.visit f a])
            generalize call { E with vtable := I } n (.travChildren (some a)) _ = x at this
            generalize call { E with vtable := G } n (.travChildren (some a)) _ = y at this
            cases x with
            | ok x =>
              obtain ⟨y, rfl, h⟩ := this
              exact ⟨y, rfl, h⟩
            | abort why =>
              have : y = .abort why := this
              subst this
              exact rfl
            | ub why => exact trivial
            | diverge => exact trivial
          | skip q e hU hq =>
            refine through_run fun hfit => ?_
            have := skip_run hq (E := { E with vtable := I }) (f := f) hrow hfit hU n _ rfl rfl (by exact hfr)
            generalize call { E with vtable := I } n (.travChildren (some a)) _ = x at this
            cases x with
            | ok x =>
              obtain ⟨y, e, l1, l2⟩ := this
              cases e
              exact ⟨_, rfl, l1, l2.1, l2.2.1, l2.2.2.1, l2.2.2.2⟩
            | abort why => cases this
            | ub why => exact trivial
            | diverge => exact trivial

/-- Runs without shortcuts are runs with shortcuts. -/
theorem sim_call {E : Env} (hb : Blind E) {I G : List (List (Addr → Prog))} (hc : Shortcut A I G) (n : Nat) :
    ∀ o, Sim (call { E with vtable := I } n o) (call { E with vtable := G } n o) := by
  induction n with
  | zero => intro o s tr; exact trivial
  | succ n ih =>
    intro o s tr
    have hR := sim_runProg ih
    have hd := sim_do hc ih
    simp only [call]
    cases o with
    | travDo p => exact hd p s tr
    | travOpt p => exact sim_opt hd p s tr
    | travChildren p => exact (sim_loop hd p n 0 s tr).bind fun u v h => .ok ⟨rfl, h⟩
    | travStart p ty => exact sim_start hb hR hd p ty s tr
    | passStart p ty =>
      simp only [PASSstart]
      cases hf : E.passes[ty]? with
      | none => exact trivial
      | some f => exact hR (f p) s tr
    | push ty => exact (sim_push hb hR ty s tr).bind fun u v h => .ok ⟨rfl, h⟩
    | pop => exact (sim_pop hR s tr).bind fun u v h => .ok ⟨rfl, h⟩

end Verif.Targets
