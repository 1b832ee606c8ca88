import Verif.Lemmas.TargetsRun
import Verif.Lemmas.TravFuel

/-!
# Lemmas about runs on tables with shortcuts, from the run without

What a run with shortcuts does, a run without does as well, given enough steps, unless it meets a tree that the description does not allow.
-/

namespace Verif.Targets
open Verif.Trav Verif.Spec.Targets Res

variable {A : Parse.Ast}

/-! ### Outcomes -/

/-- The second outcome is accounted for by the first. -/
def Rel {α β : Type} (R : α → β → Prop) : Res α → Res β → Prop
  | _, .diverge => True
  | .ub _, _ => True
  | .ok a, .ok b => R a b
  | .abort w, .abort w' => w' = w
  | _, _ => False

/-- With enough steps, the outcome is accounted for. -/
def Ends {α β : Type} (R : α → β → Prop) (F : Nat → Res α) (y : Res β) : Prop := ∃ n, Rel R (F n) y

/-- More steps change nothing. -/
def Mono {α : Type} (F : Nat → Res α) : Prop := ∀ a b, a ≤ b → Le (F a) (F b)

section
variable {α β γ δ : Type} {R : α → β → Prop} {S : γ → δ → Prop}

/-- The outcome is accounted for with this many steps. -/
theorem Ends.of {F : Nat → Res α} {y : Res β} (n : Nat) {x : Res α} (e : F n = x) (h : Rel R x y) : Ends R F y := ⟨n, e ▸ h⟩

theorem Mono.const (x : Res α) : Mono fun _ => x := fun _ _ _ => Le.refl x

theorem Mono.bind {F : Nat → Res α} {f : Nat → α → Res γ} (h : Mono F) (hf : ∀ a, Mono fun n => f n a) : Mono fun n => F n >>= f n :=
  fun _ _ hab => Le.bind (h _ _ hab) fun a => hf a _ _ hab

theorem Rel.le {x x' : Res α} {y : Res β} (h : Rel R x y) (hy : y ≠ .diverge) (hl : Le x x') : Rel R x' y := by
  rcases hl with rfl | rfl
  · cases y <;> first | exact absurd rfl hy | exact h.elim
  · exact h

theorem Rel.div {x : Res α} : Rel R x (.diverge : Res β) := by cases x <;> exact trivial

theorem Rel.ub {w : String} {y : Res β} : Rel R (.ub w : Res α) y := by cases y <;> exact trivial

theorem Rel.same {x : Res α} : Rel (· = ·) x x := by cases x <;> first | exact rfl | exact trivial

theorem Ends.up {F : Nat → Res α} (hm : Mono F) {y : Res β} (h : Ends R F y) (k : Nat) : ∃ n, k ≤ n ∧ Rel R (F n) y := by
  obtain ⟨n, hn⟩ := h
  refine ⟨max k n, Nat.le_max_left _ _, ?_⟩
  by_cases hy : y = .diverge
  · subst hy; exact Rel.div
  · exact hn.le hy (hm _ _ (Nat.le_max_right _ _))

theorem Ends.const {x : Res α} {y : Res β} (h : Rel R x y) : Ends R (fun _ => x) y := ⟨0, h⟩

theorem Ends.bind {F : Nat → Res α} {f : Nat → α → Res γ} {y : Res β} {g : β → Res δ} (hm : Mono F) (h : Ends R F y)
    (hm' : ∀ a, Mono fun n => f n a) (hf : ∀ a b, R a b → Ends S (fun n => f n a) (g b)) : Ends S (fun n => F n >>= f n) (y >>= g) := by
  obtain ⟨n, hn⟩ := h
  cases y with
  | diverge => exact ⟨0, Rel.div⟩
  | ok b =>
    cases hx : F n with
    | ok a =>
      rw [hx] at hn
      obtain ⟨k, hnk, hk⟩ := (hf a b hn).up (hm' a) n
      refine ⟨k, ?_⟩
      simp only
      rw [(hm n k hnk).ok hx]
      exact hk
    | ub w => exact ⟨n, by simp only [hx]; exact Rel.ub⟩
    | abort w => rw [hx] at hn; exact hn.elim
    | diverge => rw [hx] at hn; exact hn.elim
  | ub w =>
    cases hx : F n with
    | ub w => exact ⟨n, by simp only [hx]; exact Rel.ub⟩
    | ok a => rw [hx] at hn; exact hn.elim
    | abort w => rw [hx] at hn; exact hn.elim
    | diverge => rw [hx] at hn; exact hn.elim
  | abort w =>
    cases hx : F n with
    | ub w => exact ⟨n, by simp only [hx]; exact Rel.ub⟩
    | ok a => rw [hx] at hn; exact hn.elim
    | abort w' => rw [hx] at hn; exact ⟨n, by simp only [hx]; exact hn⟩
    | diverge => rw [hx] at hn; exact hn.elim

end

/-! ### More steps -/

section
variable {E : Env}

theorem mono_call (o : Op) (s : St) : Mono fun n => call E n o s := fun _ _ h => call_le h o s

theorem mono_run (p : Prog) (s : St) : Mono fun n => runProg (call E n) p s := fun _ _ h => runProg_le (call_le h) p s

theorem mono_do (p : Ptr) (s : St) : Mono fun n => TRAVdo E (runProg (call E n)) p s := fun _ _ h => do_le (runProg_le (call_le h)) p s

theorem mono_opt (p : Ptr) (s : St) : Mono fun n => TRAVopt E (runProg (call E n)) p s := fun _ _ h => opt_le (runProg_le (call_le h)) p s

theorem mono_push (ty : Nat) (s : St) : Mono fun n => TRAVpush E (runProg (call E n)) ty s :=
  fun _ _ h => push_le (runProg_le (call_le h)) ty s

theorem mono_pop (s : St) : Mono fun n => TRAVpop E (runProg (call E n)) s := fun _ _ h => pop_le (runProg_le (call_le h)) s

theorem mono_free (i : DataFree) (a : Addr) (s : St) : Mono fun n => TRAVdataFree (runProg (call E n)) i a s :=
  fun _ _ h => dataFree_le (runProg_le (call_le h)) i a s

theorem mono_loop (k : Nat) (p : Ptr) (i : Nat) (s : St) : Mono fun n => childLoop E (runProg (call E n)) k p i s :=
  fun _ _ h => loop_le (runProg_le (call_le h)) p (Nat.le_refl _) i s

end

/-! ### What is skipped ends -/

theorem through_ends {E : Env} {k : Nat} {a : Addr} {s : St} {β : Type} {R : Ptr × St → β → Prop} {y : Res β}
    (h : Fits A s.mem a k → Ends R (fun n => call E n (.travChildren (some a)) s) y) :
    Ends R (fun n => runProg (call E n) (through A k a) s) y := by
  by_cases hf : Fits A s.mem a k
  · obtain ⟨n, hn⟩ := h hf
    refine .of n rfl ?_
    rw [through, runProg, if_pos hf, Res.bind_ok, runProg]
    have : (do let r ← call E n (.travChildren (some a)) s; runProg (call E n) (.ret r.1) r.2) = call E n (.travChildren (some a)) s := by
      cases call E n (.travChildren (some a)) s <;> rfl
    simp only at this ⊢
    rw [this]
    exact hn
  · refine .of 0 rfl ?_
    rw [through, runProg, if_neg hf]
    exact Rel.ub

/-- A call that goes through children, given enough rounds. -/
theorem children_ends {E : Env} {p : Ptr} {s : St} {β : Type} {R : Ptr × St → β → Prop} {S : St → β → Prop} {y : Res β} {k : Nat}
    (h : Ends S (fun n => childLoop E (runProg (call E n)) k p 0 s) y) (hS : ∀ t b, S t b → R (p, t) b) :
    Ends R (fun n => call E n (.travChildren p) s) y := by
  obtain ⟨n, hkn, hn⟩ := h.up (mono_loop k p 0 s) k
  refine ⟨n + 1, ?_⟩
  by_cases hy : y = .diverge
  · subst hy; exact Rel.div
  · have := hn.le hy (loop_le (fun q t => Le.refl _) p hkn 0 s : Le _ (childLoop E (runProg (call E n)) n p 0 s))
    simp only [call, TRAVchildren]
    generalize childLoop E (runProg (call E n)) n p 0 s = x at this
    cases x with
    | ok x => cases y <;> first | exact absurd rfl hy | exact hS _ _ this | exact this.elim
    | ub w => exact Rel.ub
    | abort w => cases y <;> first | exact absurd rfl hy | exact this.elim | exact this
    | diverge => cases y <;> first | exact absurd rfl hy | exact this.elim

theorem skip_ends {E : Env} {row : List (Addr → Prog)} {U : Nat → Prop} (hq : Quiet A row U) {f : Addr} {fr : Frame}
    (hrow : E.vtable[fr.ty]? = some row) {m : Mem} {a : Addr} {q : Nat} (hfit : Fits A m a q) :
    U q → ∀ (s : St), s.mem = m → s.cur = some f → s.frames f = some fr →
      Ends (fun x y => x.1 = some a ∧ Same y x.2) (fun n => call E n (.travChildren (some a)) s) (.ok s) := by
  induction hfit with
  | @mk a q b n kind h1 h2 h3 h4 h5 ih =>
    intro hU s hm hc hfr
    obtain ⟨n', g1, g2, g3⟩ := hq q hU
    rw [h2] at g1
    cases g1
    have loop : ∀ (j i : Nat) (s : St), b.numChildren - i ≤ j → s.mem = m → s.cur = some f → s.frames f = some fr →
        Ends (fun x y => Same y x) (fun n => childLoop E (runProg (call E n)) (j + 1) (some a) i s) (.ok s) := by
      intro j
      induction j with
      | zero =>
        intro i s hj hm _ _
        refine .of 0 rfl ?_
        rw [childLoop, hm]
        simp only [nodeAt, h1, Res.bind_ok]
        rw [if_neg (by omega)]
        exact Same.refl s
      | succ j ihj =>
        intro i s hj hm hc hfr
        have en : nodeAt s.mem (some a) = .ok (a, b) := by simp only [nodeAt, hm, h1]
        by_cases hi : i < b.numChildren
        · cases ed : dataAt m b.children with
          | ub w =>
            refine .of 0 rfl ?_
            rw [childLoop, en, Res.bind_ok, if_pos hi, getChild, en, Res.bind_ok, hm]
            simp only [ed]
            exact Rel.ub
          | abort w =>
            simp only [dataAt] at ed
            split at ed
            · cases ed
            · split at ed <;> cases ed
          | diverge =>
            simp only [dataAt] at ed
            split at ed
            · cases ed
            · split at ed <;> cases ed
          | ok x =>
            obtain ⟨e, d⟩ := x
            obtain ⟨e8, e9⟩ := dataAt_ok ed
            simp only at e8 e9
            cases hk : d.kids[i]? with
            | none =>
              refine .of 0 rfl ?_
              rw [childLoop, en, Res.bind_ok, if_pos hi, getChild, en, Res.bind_ok, hm]
              simp only [ed, Res.bind_ok, hk]
              exact Rel.ub
            | some c0 =>
              have hg : getChild s.mem (some a) i = .ok (c0, b.children) := by
                rw [getChild, en, Res.bind_ok, hm]
                simp only [ed, Res.bind_ok, hk]
              have hd' : dataAt m b.children = .ok (e, d) := ed
              have step : Ends (fun x _ => x.1 = c0 ∧ Same s x.2) (fun n => TRAVopt E (runProg (call E n)) c0 s) (.ok ()) := by
                cases c0 with
                | none => exact ⟨0, rfl, Same.refl s⟩
                | some p =>
                  have hkid : Kid m b i p := ⟨e, d, e8, e9, hi, hk⟩
                  obtain ⟨c1, n1, k1, k2, k3⟩ := h4 i p hkid
                  have hU' := g3 c1 (List.mem_of_getElem? k1) _ n1 k2 k3
                  obtain ⟨n2, _, k4, _⟩ := hq _ hU'
                  obtain ⟨bp, hbp, hty⟩ : ∃ bp, m p = some (.node bp) ∧ bp.ty = kind i + 1 := by
                    cases h5 i p hkid with
                    | mk kd f1 f2 f3 _ _ => exact ⟨_, f1, f3⟩
                  have hn : nodeAt s.mem (some p) = .ok (p, bp) := by simp only [nodeAt, hm, hbp]
                  simp only [TRAVopt, TRAVdo, hc, hfr, hrow, hn, Res.bind_ok, hty, k4]
                  refine through_ends fun _ => ?_
                  obtain ⟨n, hn⟩ := ih i p hkid hU' { s with cur := some f, trace := s.trace ++ [.visit f p] } (by exact hm) rfl (by exact hfr)
                  refine ⟨n, ?_⟩
                  simp only at hn ⊢
                  generalize call E n (.travChildren (some p)) { s with cur := some f, trace := s.trace ++ [.visit f p] } = x at hn
                  cases x with
                  | ok x => exact ⟨hn.1, hn.2.1, hn.2.2.1, hn.2.2.2.1, hn.2.2.2.2.trans hc.symm⟩
                  | ub w => exact Rel.ub
                  | abort w => exact hn.elim
                  | diverge => exact hn.elim
              have := Ends.bind (S := fun x y => Same y x) (g := fun _ => Res.ok s)
                (f := fun n r => do
                  let m ← setChild r.2.mem (some a) i b.children r.1
                  if i < INT_MAX then childLoop E (runProg (call E n)) (j + 1) (some a) (i + 1) { r.2 with mem := m } else .ub "overflow of int")
                (mono_opt c0 s) step
                (fun x => Mono.bind (Mono.const _) fun m => by
                  split
                  · exact mono_loop _ _ _ _
                  · exact Mono.const _)
                (by
                  rintro ⟨c', s1⟩ _ ⟨l1, hs⟩
                  simp only at l1 hs ⊢
                  subst l1
                  have en' : nodeAt s1.mem (some a) = .ok (a, b) := by rw [hs.1]; exact en
                  by_cases hlen : i < d.kids.length
                  · have hset : setChild s1.mem (some a) i b.children c' = .ok s1.mem := by
                      rw [setChild, en', Res.bind_ok]
                      simp only [if_true]
                      rw [hs.1, hm, hd', Res.bind_ok, if_pos hlen, set_self _ _ _ hk, upd_self m e _ e9]
                    rw [hset]
                    simp only [Res.bind_ok]
                    by_cases hmax : i < INT_MAX
                    · simp only [if_pos hmax]
                      obtain ⟨n, hn⟩ := ihj (i + 1) s1 (by omega) (hs.1.trans hm) (hs.2.2.2.trans hc) (by rw [hs.2.1]; exact hfr)
                      refine ⟨n, ?_⟩
                      simp only at hn ⊢
                      generalize childLoop E (runProg (call E n)) (j + 1) (some a) (i + 1) _ = x at hn
                      cases x with
                      | ok x => exact Same.trans hs hn
                      | ub w => exact Rel.ub
                      | abort w => exact hn.elim
                      | diverge => exact hn.elim
                    · simp only [if_neg hmax]
                      exact ⟨0, Rel.ub⟩
                  · refine ⟨0, ?_⟩
                    have hset : setChild s1.mem (some a) i b.children c' = .ub "index out of bounds" := by
                      rw [setChild, en', Res.bind_ok]
                      simp only [if_true]
                      rw [hs.1, hm, hd', Res.bind_ok, if_neg hlen]
                    rw [hset]
                    exact Rel.ub)
              obtain ⟨n, hn⟩ := this
              refine .of n rfl ?_
              rw [childLoop, en, Res.bind_ok, if_pos hi, hg, Res.bind_ok]
              exact hn
        · refine .of 0 rfl ?_
          rw [childLoop, en, Res.bind_ok, if_neg hi]
          exact Same.refl s
    exact children_ends (loop b.numChildren 0 s (by omega) hm hc hfr) fun t b h => ⟨rfl, h⟩

/-! ### Runs -/

section
variable {E : Env} {I G : List (List (Addr → Prog))}

/-- What the second does is accounted for by the first. -/
def Back {α : Type} (F : Nat → St → Res (α × St)) (g : St → Res (α × St)) : Prop :=
  ∀ s tr, Ends Like (fun n => F n s) (g (seen s tr))

/-- What the second does is accounted for by the first, without a value. -/
def BackS (F : Nat → St → Res St) (g : St → Res St) : Prop := ∀ s tr, Ends Same (fun n => F n s) (g (seen s tr))

theorem Back.at {α : Type} {F : Nat → St → Res (α × St)} {g : St → Res (α × St)} (h : Back F g) {s t : St} (hs : Same s t) :
    Ends Like (fun n => F n s) (g t) := by
  rw [same_eq hs]; exact h s _

theorem BackS.at {F : Nat → St → Res St} {g : St → Res St} (h : BackS F g) {s t : St} (hs : Same s t) :
    Ends Same (fun n => F n s) (g t) := by
  rw [same_eq hs]; exact h s _

theorem back_runProg {C : Op → St → Res (Ptr × St)} (h : ∀ o, Back (fun n => call E n o) (C o)) (p : Prog) :
    Back (fun n => runProg (call E n) p) (runProg C p) := by
  induction p with
  | ret p => intro s tr; exact ⟨0, rfl, rfl, rfl, rfl, rfl⟩
  | abort why => intro s tr; exact ⟨0, rfl⟩
  | call o k ih =>
    intro s tr
    simp only [runProg]
    refine Ends.bind (mono_call o s) (h o s tr) (fun a => mono_run _ _) fun a b hab => ?_
    rw [hab.1]
    exact (ih a.1).at hab.2
  | mem f k ih =>
    intro s tr
    simp only [runProg]
    refine Ends.bind (Mono.const _) (Ends.const Rel.same) (fun a => mono_run _ _) fun a b hab => ?_
    subst hab
    exact ih a.1 _ tr
  | data f k ih =>
    intro s tr
    simp only [runProg]
    cases ha : s.cur with
    | none => exact ⟨0, Rel.ub⟩
    | some a =>
      simp only
      cases hfr : s.frames a with
      | none => exact ⟨0, Rel.ub⟩
      | some fr =>
        simp only
        cases hd : fr.data with
        | none => exact ⟨0, Rel.ub⟩
        | some d =>
          simp only
          cases hvs : s.dmem d with
          | none => exact ⟨0, Rel.ub⟩
          | some vs =>
            simp only
            refine Ends.bind (Mono.const _) (Ends.const Rel.same) (fun a => mono_run _ _) fun a b hab => ?_
            subst hab
            exact ih a.1 _ tr

variable {C : Op → St → Res (Ptr × St)}

theorem back_dataInit (hb : Blind E) (hR : ∀ p, Back (fun n => runProg (call { E with vtable := I } n) p) (runProg C p)) (i : DataInit) (a : Addr) :
    BackS (fun n => TRAVdataInit { E with vtable := I } (runProg (call { E with vtable := I } n)) i a) (TRAVdataInit { E with vtable := G } (runProg C) i a) := by
  intro s tr
  cases i with
  | nop => exact ⟨0, rfl, rfl, rfl, rfl⟩
  | data defaults init =>
    simp only [TRAVdataInit]
    rw [hb.data s (seen s tr) ⟨rfl, rfl, rfl, rfl⟩]
    cases hfr : s.frames a with
    | none => exact ⟨0, Rel.ub⟩
    | some fr =>
      simp only
      cases hd : E.newData s with
      | none => exact ⟨0, rfl⟩
      | some d => exact Ends.bind (mono_run _ _) (hR init _ tr) (fun a => Mono.const _) fun x y h => Ends.const h.2

theorem back_dataFree (hR : ∀ p, Back (fun n => runProg (call { E with vtable := I } n) p) (runProg C p)) (i : DataFree) (a : Addr) :
    BackS (fun n => TRAVdataFree (runProg (call { E with vtable := I } n)) i a) (TRAVdataFree (runProg C) i a) := by
  intro s tr
  cases i with
  | nop => exact ⟨0, rfl, rfl, rfl, rfl⟩
  | data fini =>
    simp only [TRAVdataFree]
    refine Ends.bind (mono_run _ _) (hR fini s tr) (fun a => Mono.const _) fun x y h => Ends.const ?_
    obtain ⟨x1, x2⟩ := x
    obtain ⟨y1, y2⟩ := y
    obtain ⟨_, h⟩ := h
    simp only at h ⊢
    rw [same_eq h]
    simp only
    cases hfr : x2.frames a with
    | none => exact Rel.ub
    | some fr =>
      simp only
      cases hd : fr.data with
      | none => exact Rel.ub
      | some d =>
        simp only
        cases hvs : x2.dmem d with
        | none => exact Rel.ub
        | some vs => exact ⟨rfl, rfl, rfl, rfl⟩

theorem back_push (hb : Blind E) (hR : ∀ p, Back (fun n => runProg (call { E with vtable := I } n) p) (runProg C p)) (ty : Nat) :
    BackS (fun n => TRAVpush { E with vtable := I } (runProg (call { E with vtable := I } n)) ty) (TRAVpush { E with vtable := G } (runProg C) ty) := by
  intro s tr
  simp only [TRAVpush]
  rw [hb.frame s (seen s tr) ⟨rfl, rfl, rfl, rfl⟩]
  cases ha : E.newFrame s with
  | none => exact ⟨0, rfl⟩
  | some a =>
    simp only
    cases hi : E.initTable[ty]? with
    | none => exact ⟨0, Rel.ub⟩
    | some i => exact back_dataInit hb hR i a _ _

theorem back_pop (hR : ∀ p, Back (fun n => runProg (call { E with vtable := I } n) p) (runProg C p)) :
    BackS (fun n => TRAVpop { E with vtable := I } (runProg (call { E with vtable := I } n))) (TRAVpop { E with vtable := G } (runProg C)) := by
  intro s tr
  simp only [TRAVpop]
  cases ha : s.cur with
  | none => exact ⟨0, rfl⟩
  | some a =>
    simp only
    cases hfr : s.frames a with
    | none => exact ⟨0, Rel.ub⟩
    | some fr =>
      simp only
      cases hi : E.freeTable[fr.ty]? with
      | none => exact ⟨0, Rel.ub⟩
      | some i =>
        refine Ends.bind (mono_free _ _ _) (back_dataFree hR i a s tr) (fun a => Mono.const _) fun u v h => Ends.const ?_
        rw [same_eq h]
        simp only
        cases hu : u.cur with
        | none => exact ⟨rfl, rfl, rfl, rfl⟩
        | some b =>
          simp only
          cases hf : u.frames b with
          | none => exact Rel.ub
          | some fr' => exact ⟨rfl, rfl, rfl, rfl⟩

theorem back_opt (hd : ∀ p, Back (fun n => TRAVdo { E with vtable := I } (runProg (call { E with vtable := I } n)) p) (TRAVdo { E with vtable := G } (runProg C) p)) (p : Ptr) :
    Back (fun n => TRAVopt { E with vtable := I } (runProg (call { E with vtable := I } n)) p) (TRAVopt { E with vtable := G } (runProg C) p) := by
  intro s tr
  cases p with
  | none => exact ⟨0, rfl, rfl, rfl, rfl, rfl⟩
  | some a => exact hd (some a) s tr

theorem back_start (hb : Blind E) (hR : ∀ p, Back (fun n => runProg (call { E with vtable := I } n) p) (runProg C p))
    (hd : ∀ p, Back (fun n => TRAVdo { E with vtable := I } (runProg (call { E with vtable := I } n)) p) (TRAVdo { E with vtable := G } (runProg C) p)) (p : Ptr) (ty : Nat) :
    Back (fun n => TRAVstart { E with vtable := I } (runProg (call { E with vtable := I } n)) p ty) (TRAVstart { E with vtable := G } (runProg C) p ty) := by
  intro s tr
  simp only [TRAVstart]
  refine Ends.bind (mono_push _ _) (back_push hb hR ty s tr)
    (fun a => Mono.bind (mono_opt _ _) fun b => Mono.bind (mono_pop _) fun c => Mono.const _) fun u v h => ?_
  refine Ends.bind (mono_opt _ _) ((back_opt hd p).at h) (fun b => Mono.bind (mono_pop _) fun c => Mono.const _) fun x y hxy => ?_
  exact Ends.bind (mono_pop _) ((back_pop hR).at hxy.2) (fun c => Mono.const _) fun u v h => Ends.const ⟨hxy.1, h⟩

theorem back_loop (hd : ∀ p, Back (fun n => TRAVdo { E with vtable := I } (runProg (call { E with vtable := I } n)) p) (TRAVdo { E with vtable := G } (runProg C) p)) (p : Ptr)
    (k : Nat) : ∀ i, BackS (fun n => childLoop { E with vtable := I } (runProg (call { E with vtable := I } n)) k p i) (childLoop { E with vtable := G } (runProg C) k p i) := by
  induction k with
  | zero => intro i s tr; exact ⟨0, Rel.div⟩
  | succ k ih =>
    intro i s tr
    simp only [childLoop]
    have mono : ∀ (r : Ptr × St) c, Mono fun n => (do
        let m ← setChild r.2.mem p i c r.1
        if i < INT_MAX then childLoop { E with vtable := I } (runProg (call { E with vtable := I } n)) k p (i + 1) { r.2 with mem := m } else .ub "overflow of int") :=
      fun r c => Mono.bind (Mono.const _) fun m => by
        split
        · exact mono_loop _ _ _ _
        · exact Mono.const _
    refine Ends.bind (Mono.const _) (Ends.const Rel.same) (fun a => ?_) fun b b' e => ?_
    · split
      · exact Mono.bind (Mono.const _) fun c => Mono.bind (mono_opt _ _) fun r => mono r _
      · exact Mono.const _
    subst e
    by_cases hi : i < b.2.numChildren
    · simp only [if_pos hi]
      refine Ends.bind (Mono.const _) (Ends.const Rel.same) (fun a => Mono.bind (mono_opt _ _) fun r => mono r _) fun c c' e => ?_
      subst e
      refine Ends.bind (mono_opt _ _) (back_opt hd c.1 s tr) (fun r => mono r _) fun x y hxy => ?_
      rw [hxy.1, hxy.2.1]
      refine Ends.bind (Mono.const _) (Ends.const Rel.same) (fun m => ?_) fun m m' e => ?_
      · split
        · exact mono_loop _ _ _ _
        · exact Mono.const _
      subst e
      by_cases hi' : i < INT_MAX
      · simp only [if_pos hi']
        exact (ih (i + 1)).at ⟨rfl, hxy.2.2.1, hxy.2.2.2.1, hxy.2.2.2.2⟩
      · simp only [if_neg hi']
        exact ⟨0, Rel.ub⟩
    · simp only [if_neg hi]
      exact ⟨0, rfl, rfl, rfl, rfl⟩

end

theorem back_do {E : Env} {I G : List (List (Addr → Prog))} (hc : Shortcut A I G) {C : Op → St → Res (Ptr × St)}
    (hC : ∀ o, Back (fun n => call { E with vtable := I } n o) (C o)) (p : Ptr) :
    Back (fun n => TRAVdo { E with vtable := I } (runProg (call { E with vtable := I } n)) p)
      (TRAVdo { E with vtable := G } (runProg C) p) := by
  intro s tr
  simp only [TRAVdo]
  cases hf : s.cur with
  | none => exact ⟨0, Rel.ub⟩
  | some f =>
    simp only
    cases hfr : s.frames f with
    | none => exact ⟨0, Rel.ub⟩
    | some fr =>
      simp only
      cases hrow : I[fr.ty]? with
      | none => exact ⟨0, Rel.ub⟩
      | some row =>
        obtain ⟨row', g1, g2⟩ := hc _ _ hrow
        simp only [g1]
        refine Ends.bind (Mono.const _) (Ends.const Rel.same) (fun x => ?_) fun x y e => ?_
        · split
          · exact Mono.const _
          · exact mono_run _ _
        subst e
        obtain ⟨a, b⟩ := x
        simp only
        cases hhd : row[b.ty]? with
        | none => exact ⟨0, Rel.ub⟩
        | some hd =>
          obtain ⟨hd', g3, g4⟩ := g2 _ _ hhd
          simp only [g3]
          cases g4 with
          | same => exact back_runProg hC _ _ _
          | children q =>
            refine through_ends fun _ => ?_
            rw [TRAVchildrenH, runProg]
            obtain ⟨n, hn⟩ := hC (.travChildren (some a)) { s with cur := some f, trace := s.trace ++ [.visit f a] } (tr ++ [.visit f a])
            refine ⟨n, ?_⟩
            simp only at hn ⊢
            generalize call { E with vtable := I } n (.travChildren (some a)) _ = x at hn
            generalize C (.travChildren (some a)) _ = y at hn
            cases y with
            | ok y => exact hn
            | abort why => cases x <;> exact hn
            | ub why => cases x <;> exact hn
            | diverge => exact Rel.div
          | skip q e hU hq =>
            refine through_ends fun hfit => ?_
            obtain ⟨n, hn⟩ := skip_ends hq (E := { E with vtable := I }) (f := f) hrow hfit hU _ rfl rfl (by exact hfr)
            refine ⟨n, ?_⟩
            simp only at hn ⊢
            generalize call { E with vtable := I } n (.travChildren (some a)) _ = x at hn
            rw [TRAVnop, runProg]
            cases x with
            | ok x => exact ⟨hn.1.symm, hn.2.1.symm, hn.2.2.1.symm, hn.2.2.2.1.symm, hn.2.2.2.2.symm⟩
            | abort why => exact hn.elim
            | ub why => exact Rel.ub
            | diverge => exact hn.elim

/-- Runs with shortcuts are runs without shortcuts, unless a tree is not allowed. -/
theorem back_call {E : Env} (hb : Blind E) {I G : List (List (Addr → Prog))} (hc : Shortcut A I G) (m : Nat) :
    ∀ o, Back (fun n => call { E with vtable := I } n o) (call { E with vtable := G } m o) := by
  induction m with
  | zero => intro o s tr; exact ⟨0, Rel.div⟩
  | succ m ih =>
    intro o s tr
    have hR := back_runProg ih
    have hd := back_do hc ih
    -- one more step
    have one : ∀ {R : Ptr × St → Ptr × St → Prop} {F : Nat → Res (Ptr × St)} {y : Res (Ptr × St)},
        (∀ n, F n = call { E with vtable := I } (n + 1) o s) → Ends R F y → Ends R (fun n => call { E with vtable := I } n o s) y :=
      fun e ⟨n, hn⟩ => ⟨n + 1, by simp only; rw [← e]; exact hn⟩
    cases o with
    | travDo p => exact one (fun n => rfl) (hd p s tr)
    | travOpt p => exact one (fun n => rfl) (back_opt hd p s tr)
    | travChildren p =>
      have := back_loop hd p m 0 s tr
      simp only [call, TRAVchildren]
      generalize childLoop { E with vtable := G } (runProg (call { E with vtable := G } m)) m p 0 (seen s tr) = y at this
      cases y with
      | ok y =>
        refine children_ends (S := fun x z => z = (p, y) ∧ Same x y) (y := .ok (p, y)) (k := m) ?_ fun t b h => by rw [h.1]; exact ⟨rfl, h.2⟩
        obtain ⟨n, hn⟩ := this
        refine ⟨n, ?_⟩
        simp only at hn ⊢
        generalize childLoop _ _ m p 0 s = x at hn
        cases x <;> first | exact ⟨rfl, hn⟩ | exact hn
      | abort w =>
        refine children_ends (S := fun _ _ => False) (y := .abort w) (k := m) ?_ fun t b h => h.elim
        obtain ⟨n, hn⟩ := this
        refine ⟨n, ?_⟩
        simp only at hn ⊢
        generalize childLoop _ _ m p 0 s = x at hn
        cases x <;> exact hn
      | ub w =>
        refine children_ends (S := fun _ _ => False) (y := .ub w) (k := m) ?_ fun t b h => h.elim
        obtain ⟨n, hn⟩ := this
        refine ⟨n, ?_⟩
        simp only at hn ⊢
        generalize childLoop _ _ m p 0 s = x at hn
        cases x <;> exact hn
      | diverge => exact ⟨0, Rel.div⟩
    | travStart p ty => exact one (fun n => rfl) (back_start hb hR hd p ty s tr)
    | passStart p ty =>
      simp only [call, PASSstart]
      cases hf : E.passes[ty]? with
      | none => exact ⟨1, by simp only [call, PASSstart, hf]; exact Rel.ub⟩
      | some f => exact one (fun n => by simp only [call, PASSstart, hf]) (hR (f p) s tr)
    | push ty =>
      exact one (fun n => rfl) (Ends.bind (mono_push _ _) (back_push hb hR ty s tr) (fun a => Mono.const _) fun u v h => Ends.const ⟨rfl, h⟩)
    | pop => exact one (fun n => rfl) (Ends.bind (mono_pop _) (back_pop hR s tr) (fun a => Mono.const _) fun u v h => Ends.const ⟨rfl, h⟩)

end Verif.Targets
