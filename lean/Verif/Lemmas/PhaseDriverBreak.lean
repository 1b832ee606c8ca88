import Verif.Lemmas.PhaseDriverErr
import Verif.Lemmas.Str

/-! Helper lemmas about the phase driver model: breakpoints and termination. -/

namespace Verif.PD
open Verif.Str Verif.Spec.Str Verif.Spec.PD

variable {ι W : Type}

/-! ### Paths -/

theorem dotted_cons2 (c c2 : CStr) (cs : List CStr) : dotted (c :: c2 :: cs) = c ++ 46 :: dotted (c2 :: cs) := rfl

theorem dotted_ascii (cs : List CStr) (h : ∀ c ∈ cs, Component c) : Ascii (dotted cs) := by
  induction cs with
  | nil => intro x hx; simp [dotted] at hx
  | cons c cs ih =>
    have hc := (h c (by simp)).2.2
    cases cs with
    | nil => exact hc
    | cons c2 cs =>
      rw [dotted_cons2]
      intro x hx
      rcases List.mem_append.mp hx with hx | hx
      · exact hc x hx
      · rcases List.mem_cons.mp hx with rfl | hx
        · decide
        · exact ih (fun c hc => h c (by simp [hc])) x hx

theorem dotted_ne_nil (c : CStr) (cs : List CStr) (h : c ≠ []) : dotted (c :: cs) ≠ [] := by
  cases cs with
  | nil => exact h
  | cons c2 cs => rw [dotted_cons2]; simp

theorem lowerB_dot (x : UInt8) (h : lowerB x = 46) : x = 46 := by
  unfold lowerB at h
  split at h
  · rename_i hx
    have h1 : x.toNat + 32 = 46 ∨ x.toNat + 32 = 46 + 256 := by
      have := congrArg UInt8.toNat h
      rw [UInt8.toNat_add] at this
      have hlt := x.toNat_lt
      simp at this
      omega
    have h2 : 65 ≤ x.toNat := hx.1
    have h3 : x.toNat ≤ 90 := hx.2
    omega
  · exact h

theorem lowerB_46 : lowerB 46 = 46 := by decide

/-- The result of `Checkbreakpoint` from what is left behind the name. -/
def afterName (r : Option CStr) : Option CStr :=
  match r with
  | some (46 :: x :: rest) => some (x :: rest)
  | _ => none

theorem afterName_ne {x : UInt8} {xs : CStr} (h : x ≠ 46) : afterName (some (x :: xs)) = none := by
  unfold afterName
  split
  · rename_i heq
    simp only [Option.some.injEq, List.cons.injEq] at heq
    exact absurd heq.1 h
  · rfl

theorem stripName_spec (name : CStr) : ∀ (c tail : CStr), Ascii name → Ascii c → Ascii tail →
    (46 : UInt8) ∉ name → (46 : UInt8) ∉ c → (tail = [] ∨ ∃ t, tail = 46 :: t) →
    ∃ r, stripName name (c ++ tail) = .ok r ∧
      afterName r = if SameName c name then afterName (some tail) else none := by
  induction name with
  | nil =>
    intro c tail _ _ _ _ hc ht
    refine ⟨_, rfl, ?_⟩
    cases c with
    | nil => rw [if_pos (by rfl)]; rfl
    | cons x c =>
      rw [if_neg (by simp [SameName])]
      exact afterName_ne fun h => hc (by simp [h])
  | cons n ns ih =>
    intro c tail hn hc ht hnd hcd htl
    have hn1 := hn n (by simp)
    cases c with
    | nil =>
      rw [if_neg (by simp [SameName])]
      rcases htl with rfl | ⟨t, rfl⟩
      · exact ⟨none, rfl, rfl⟩
      · refine ⟨none, ?_, rfl⟩
        simp only [List.nil_append, stripName, ctolower_ascii n hn1, ctolower_ascii 46 (by decide), Res.bind_ok]
        rw [if_neg]
        intro h
        rw [lowerB_46] at h
        have := lowerB_dot n h
        exact hnd (by simp [this])
    | cons x c =>
      have hx := hc x (by simp)
      simp only [List.cons_append, stripName, ctolower_ascii n hn1, ctolower_ascii x hx, Res.bind_ok]
      by_cases h : lowerB n = lowerB x
      · obtain ⟨r, h1, h2⟩ := ih c tail (fun z hz => hn z (by simp [hz])) (fun z hz => hc z (by simp [hz])) ht
          (fun hz => hnd (by simp [hz])) (fun hz => hcd (by simp [hz])) htl
        refine ⟨r, ?_, ?_⟩
        · rw [if_pos h]; exact h1
        · rw [h2]
          have : SameName (x :: c) (n :: ns) ↔ SameName c ns := by simp [SameName, h]
          by_cases hs : SameName c ns
          · rw [if_pos hs, if_pos (this.mpr hs)]
          · rw [if_neg hs, if_neg (mt this.mp hs)]
      · refine ⟨none, ?_, ?_⟩
        · rw [if_neg h]
        · rw [if_neg]; rfl
          intro hs
          simp only [SameName, List.map_cons, List.cons.injEq] at hs
          exact h hs.1.symm

theorem checkbreakpoint_eq (b name : CStr) : checkbreakpoint b name = (do let r ← stripName name b; .ok (afterName r)) := rfl

/-- The components used inside a phase. -/
def narrowed (name : CStr) : List CStr → List CStr
  | c :: c2 :: cs => if SameName c name then c2 :: cs else c :: c2 :: cs
  | cs => cs

theorem narrowed_ok (name : CStr) (cs : List CStr) (h : cs ≠ [] ∧ ∀ c ∈ cs, Component c) :
    narrowed name cs ≠ [] ∧ ∀ c ∈ narrowed name cs, Component c := by
  match cs with
  | [] => exact absurd rfl h.1
  | [c] => exact h
  | c :: c2 :: cs =>
    simp only [narrowed]
    split
    · exact ⟨by simp, fun x hx => h.2 x (List.mem_cons_of_mem _ hx)⟩
    · exact h

/-- What `StartPhase` makes of a well-formed breakpoint. -/
theorem checkbreakpoint_spec (name : CStr) (hname : Component name) (cs : List CStr)
    (h : cs ≠ [] ∧ ∀ c ∈ cs, Component c) :
    ∃ r, checkbreakpoint (dotted cs) name = .ok r ∧
      ((r = none ∧ narrowed name cs = cs) ∨ r = some (dotted (narrowed name cs))) := by
  match cs with
  | [] => exact absurd rfl h.1
  | [c] =>
    have hc := h.2 c (by simp)
    obtain ⟨r, h1, h2⟩ := stripName_spec name c [] hname.2.2 hc.2.2 (by intro x hx; simp at hx) hname.2.1 hc.2.1
      (.inl rfl)
    refine ⟨none, ?_, .inl ⟨rfl, rfl⟩⟩
    rw [checkbreakpoint_eq]
    rw [List.append_nil] at h1
    show (stripName name c >>= _) = _
    rw [h1, Res.bind_ok, h2]
    split <;> rfl
  | c :: c2 :: cs =>
    have hc := h.2 c (by simp)
    have hc2 := h.2 c2 (by simp)
    have hta := dotted_ascii (c2 :: cs) (fun x hx => h.2 x (List.mem_cons_of_mem _ hx))
    obtain ⟨r, h1, h2⟩ := stripName_spec name c (46 :: dotted (c2 :: cs)) hname.2.2 hc.2.2
      (by intro x hx; rcases List.mem_cons.mp hx with rfl | hx; decide; exact hta x hx) hname.2.1 hc.2.1
      (.inr ⟨_, rfl⟩)
    obtain ⟨y, ys, hy⟩ := List.exists_cons_of_ne_nil (dotted_ne_nil c2 cs hc2.1)
    by_cases hs : SameName c name
    · refine ⟨some (dotted (c2 :: cs)), ?_, .inr ?_⟩
      · rw [checkbreakpoint_eq, dotted_cons2, h1, Res.bind_ok, h2, if_pos hs, hy]; rfl
      · simp only [narrowed]; rw [if_pos hs]
    · refine ⟨none, ?_, .inl ⟨rfl, ?_⟩⟩
      · rw [checkbreakpoint_eq, dotted_cons2, h1, Res.bind_ok, h2, if_neg hs]
      · simp only [narrowed]; rw [if_neg hs]

theorem hits_narrowed (name : CStr) (cs : List CStr) (p : List CStr) (hp : p ≠ []) :
    hits cs (name :: p) ↔ hits (narrowed name cs) p := by
  obtain ⟨a, as, rfl⟩ := List.exists_cons_of_ne_nil hp
  match cs with
  | [] => simp [narrowed, hits]
  | [c] => simp [narrowed, hits]
  | c :: c2 :: cs =>
    simp only [narrowed, hits]
    by_cases hs : SameName c name
    · rw [if_pos hs]; simp [hs]
    · rw [if_neg hs]; simp [hs]

theorem sameName_dot {a b : CStr} (h : SameName a b) (hb : (46 : UInt8) ∉ b) : (46 : UInt8) ∉ a := by
  intro ha
  have h1 : (46 : UInt8) ∈ a.map lowerB := List.mem_map.mpr ⟨46, ha, lowerB_46⟩
  rw [h] at h1
  obtain ⟨x, hx, hx2⟩ := List.mem_map.mp h1
  rw [lowerB_dot x hx2] at hx
  exact hb hx

theorem hits_here (name : CStr) (hname : Component name) (cs : List CStr) (h : cs ≠ []) :
    SameName (dotted cs) name ↔ hits cs [name] := by
  match cs with
  | [] => exact absurd rfl h
  | [c] => simp [dotted, hits]
  | c :: c2 :: cs =>
    simp only [hits, iff_false]
    intro hs
    have := sameName_dot hs hname.2.1
    rw [dotted_cons2] at this
    exact this (by simp)

theorem paths_eq (acts : Acts ι) : ∀ above, paths above acts = (paths [] acts).map (above ++ ·) := by
  induction acts with
  | nil => intro above; rfl
  | leaf name lab next ih => intro above; simp only [paths, List.map_cons, List.nil_append]; rw [ih]
  | phase name gate cycle body next ihb ihn =>
    intro above
    simp only [paths, List.map_cons, List.nil_append, List.map_append]
    rw [ihb (above ++ [name]), ihb [name], ihn above]
    simp [List.map_map, Function.comp_def]

theorem paths_length (acts : Acts ι) : ∀ above, (paths above acts).length = (pre acts).length := by
  induction acts with
  | nil => intro above; rfl
  | leaf name lab next ih => intro above; simp [paths, pre, ih]
  | phase name gate cycle body next ihb ihn => intro above; simp [paths, pre, ihb, ihn]

theorem paths_ne_nil (acts : Acts ι) : ∀ p ∈ paths [] acts, p ≠ [] := by
  induction acts with
  | nil => intro p hp; simp [paths] at hp
  | leaf name lab next ih =>
    intro p hp
    simp only [paths, List.nil_append, List.mem_cons] at hp
    rcases hp with rfl | hp
    · simp
    · exact ih p hp
  | phase name gate cycle body next ihb ihn =>
    intro p hp
    simp only [paths, List.nil_append, List.mem_cons, List.mem_append] at hp
    rcases hp with rfl | hp | hp
    · simp
    · rw [paths_eq] at hp
      obtain ⟨q, _, rfl⟩ := List.mem_map.mp hp
      simp
    · exact ihn p hp

/-! ### Stopping -/

/-- The actions leave the breakpoint alone. -/
def KeepsBreak (S : Sem ι W) : Prop :=
  ∀ lab w id c, c ∈ (S.leaf lab w id).calls → (∀ b, c ≠ .setBreakpoint b) ∧ ∀ n, c ≠ .setBreakpointId n

/-- Execution stops behind the actions selected by `Stop` and at no others. -/
structure Stopper (Stop : Nat → Prop) (bp : Option CStr) (k : Nat) (r : R ι W) : Prop where
  stops : ∀ a i b, r.ev = a ++ .done i :: b → Stop i → b = [] ∧ r.out = .brk
  only : r.out = .brk → ∃ a i, r.ev = a ++ [.done i] ∧ Stop i
  noub : r.out ≠ .ub
  keeps : r.out = .run → r.d.breakpoint = bp ∧ r.d.breakpointId = k

theorem stopper_bind {Stop : Nat → Prop} {bp bp' : Option CStr} {k : Nat} {r : R ι W} {f : Drv W → R ι W}
    (h1 : Stopper Stop bp k r)
    (h2 : r.out = .run → r.d.breakpoint = bp → r.d.breakpointId = k → Stopper Stop bp' k (f r.d)) :
    Stopper Stop bp' k (r.bind f) := by
  by_cases hr : r.out = .run
  · have h3 := h2 hr (h1.keeps hr).1 (h1.keeps hr).2
    rw [R.bind_run _ hr]
    refine ⟨?_, ?_, h3.noub, h3.keeps⟩
    · intro a i b he hs
      rcases append_split he with ⟨b', e1, e2⟩ | ⟨a', e1, _⟩
      · have := (h1.stops a i b' e1 hs).2
        rw [hr] at this; cases this
      · exact h3.stops a' i b e1 hs
    · intro ho
      obtain ⟨a, i, e1, hs⟩ := h3.only ho
      exact ⟨r.ev ++ a, i, by simp only [e1, List.append_assoc], hs⟩
  · rw [R.bind_stop _ hr]
    exact ⟨h1.stops, h1.only, h1.noub, fun h => absurd h hr⟩

theorem stopper_quiet {Stop : Nat → Prop} {bp : Option CStr} {k : Nat} {r : R ι W} (h : ∀ i, .done i ∉ r.ev)
    (hb : r.out ≠ .brk) (hu : r.out ≠ .ub) (hk : r.out = .run → r.d.breakpoint = bp ∧ r.d.breakpointId = k) :
    Stopper Stop bp k r :=
  ⟨fun a i b he _ => absurd (by rw [he]; simp) (h i), fun hx => absurd hx hb, hu, hk⟩

theorem begin_stopper (S : Sem ι W) (Stop : Nat → Prop) (d : Drv W) :
    Stopper Stop d.breakpoint d.breakpointId (begin S d) := by
  have hb := begin_run S d
  refine stopper_quiet ?_ ?_ ?_ ?_
  · intro i hi
    rcases hb.2 with h | h <;> rw [h] at hi <;> simp at hi
  · simp only [begin]; split
    · dsimp only; split <;> simp
    · simp
  · simp only [begin]; split
    · dsimp only; split <;> simp
    · simp
  · intro _; rw [hb.1]; exact ⟨rfl, rfl⟩

theorem applyCalls_break (cs : List Call) (h : ∀ c ∈ cs, (∀ b, c ≠ .setBreakpoint b) ∧ ∀ n, c ≠ .setBreakpointId n) :
    ∀ d : Drv W, (cs.foldl applyCall d).breakpoint = d.breakpoint ∧
      (cs.foldl applyCall d).breakpointId = d.breakpointId := by
  induction cs with
  | nil => intro d; exact ⟨rfl, rfl⟩
  | cons c cs ih =>
    intro d
    have hc := h c (by simp)
    obtain ⟨a, b⟩ := ih (fun x hx => h x (by simp [hx])) (applyCall d c)
    rw [List.foldl_cons, a, b]
    cases c with
    | setBreakpoint x => exact absurd rfl (hc.1 x)
    | setBreakpointId x => exact absurd rfl (hc.2 x)
    | _ => exact ⟨rfl, rfl⟩

theorem runLeaf_stopper (S : Sem ι W) (hS : KeepsBreak S) (Stop : Nat → Prop) (lab : ι) (d : Drv W) :
    Stopper Stop d.breakpoint d.breakpointId (runLeaf S lab d) := by
  refine stopper_quiet ?_ ?_ ?_ ?_
  · intro i hi; simp [runLeaf] at hi
  · simp only [runLeaf]; split <;> simp
  · simp only [runLeaf]; split <;> simp
  · intro _
    simp only [runLeaf]
    exact applyCalls_break _ (fun c hc => hS lab d.world d.actionId c hc) _

theorem finish_stopper (Stop : Nat → Prop) (bp : Option (List CStr))
    (hbp : ∀ cs, bp = some cs → cs ≠ [] ∧ ∀ c ∈ cs, Component c) (name : CStr) (hname : Component name) (id : Nat)
    (d : Drv W) (hd : d.breakpoint = bp.map dotted) (hS : Stop id ↔ AsksStop bp d.breakpointId id [name]) :
    Stopper Stop d.breakpoint d.breakpointId (finish name id d : R ι W) := by
  have hev : ∀ (o : Out) a i b, ([.done id] : List (Event ι)) = a ++ .done i :: b → i = id ∧ a = [] ∧ b = [] := by
    intro _ a i b h
    cases a with
    | nil => simp at h; exact ⟨h.1.symm, rfl, h.2⟩
    | cons x a => simp at h
  have stop : Stop id → Stopper Stop d.breakpoint d.breakpointId ({ out := .brk, d, ev := [.done id] } : R ι W) := by
    intro hs
    refine ⟨?_, fun _ => ⟨[], id, rfl, hs⟩, by simp, by simp⟩
    intro a i b h _
    exact ⟨(hev .brk a i b h).2.2, rfl⟩
  have go : ¬ Stop id → Stopper Stop d.breakpoint d.breakpointId ({ out := .run, d, ev := [.done id] } : R ι W) := by
    intro hs
    refine ⟨?_, by simp, by simp, fun _ => ⟨rfl, rfl⟩⟩
    intro a i b h hi
    rw [(hev .run a i b h).1] at hi
    exact absurd hi hs
  simp only [finish]
  split
  · exact stopper_quiet (by simp) (by simp) (by simp) (by simp)
  · have hcmp : ∃ x, breakHere d.breakpoint name = Res.ok x ∧ (x = true ↔ ∃ cs, bp = some cs ∧ hits cs [name]) := by
      cases hb : bp with
      | none =>
        rw [hb] at hd
        rw [hd]
        exact ⟨false, rfl, by simp⟩
      | some cs =>
        rw [hb] at hd
        rw [hd]
        obtain ⟨hne, hcomp⟩ := hbp cs hb
        refine ⟨decide (SameName (dotted cs) name), ?_, ?_⟩
        · exact eqciLoop_ascii _ _ (dotted_ascii cs hcomp) hname.2.2
        · rw [decide_eq_true_iff, hits_here name hname cs hne]
          simp
    obtain ⟨x, hx1, hx2⟩ := hcmp
    rw [hx1]
    cases x with
    | true => exact stop (hS.mpr (.inr (hx2.mp rfl)))
    | false =>
      have hno : ¬ ∃ cs, bp = some cs ∧ hits cs [name] := fun h => by have := hx2.mpr h; cases this
      dsimp only
      split
      · rename_i hk
        exact stop (hS.mpr (.inl ⟨hk.1, hk.2.symm⟩))
      · rename_i hk
        refine go fun h => ?_
        rcases hS.mp h with h | h
        · exact hk ⟨h.1, h.2.symm⟩
        · exact hno h

theorem finish_stopper' (Stop : Nat → Prop) (bp : Option (List CStr))
    (hbp : ∀ cs, bp = some cs → cs ≠ [] ∧ ∀ c ∈ cs, Component c) (name : CStr) (hname : Component name) (id : Nat)
    (d : Drv W) (b : Option CStr) (k : Nat) (h1 : d.breakpoint = b) (h2 : d.breakpointId = k) (hd : b = bp.map dotted)
    (hS : Stop id ↔ AsksStop bp k id [name]) : Stopper Stop b k (finish name id d : R ι W) := by
  subst h1; subst h2
  exact finish_stopper Stop bp hbp name hname id d hd hS

theorem loop_stopper (Stop : Nat → Prop) (bp : Option CStr) (k : Nat) (cycle : Bool) (id : Nat) (body : Drv W → R ι W)
    (hbody : ∀ d : Drv W, d.actionId = id → d.breakpoint = bp → d.breakpointId = k → Stopper Stop bp k (body d))
    (fuel : Nat) : ∀ d : Drv W, d.breakpoint = bp → d.breakpointId = k →
      Stopper Stop bp k (loop cycle id body fuel d) := by
  induction fuel with
  | zero => intro d _ _; exact stopper_quiet (by simp [loop]) (by simp [loop]) (by simp [loop]) (by simp [loop])
  | succ n ih =>
    intro d h1 h2
    simp only [loop]
    refine stopper_bind (bp := bp) ?_ fun _ h3 h4 => ?_
    · have hd : ((startRound id d).bind body : R ι W) = ((startRound id d).bind body : R ι W) := rfl
      have : Stopper Stop bp k (startRound id d : R ι W) :=
        stopper_quiet (by simp [startRound]) (by simp [startRound]) (by simp [startRound]) fun _ => ⟨h1, h2⟩
      exact stopper_bind this fun _ h3 h4 => hbody _ rfl h3 h4
    · split
      · exact ih _ h3 h4
      · exact stopper_quiet (by simp) (by simp) (by simp) fun _ => ⟨h3, h4⟩

theorem openPhase_stopper (Stop : Nat → Prop) (bp : Option (List CStr))
    (hbp : ∀ cs, bp = some cs → cs ≠ [] ∧ ∀ c ∈ cs, Component c) (k fuel : Nat) (name : CStr) (hname : Component name)
    (cycle : Bool) (run : Drv W → R ι W) (d : Drv W) (hd : d.breakpoint = bp.map dotted) (hk : d.breakpointId = k)
    (hrun : ∀ d' : Drv W, d'.actionId = d.actionId → d'.breakpoint = (bp.map (narrowed name)).map dotted →
      d'.breakpointId = k → Stopper Stop ((bp.map (narrowed name)).map dotted) k (run d')) :
    Stopper Stop d.breakpoint k (openPhase fuel name cycle run d) := by
  have hnarrow : ∃ new, narrow name d.breakpoint = .ok new ∧
      ((new = none ∧ bp.map (narrowed name) = bp) ∨
        (new = (bp.map (narrowed name)).map dotted ∧ ∃ x, new = some x)) := by
    cases hb : bp with
    | none => rw [hb] at hd; rw [hd]; exact ⟨none, rfl, .inl ⟨rfl, rfl⟩⟩
    | some cs =>
      rw [hb] at hd; rw [hd]
      obtain ⟨r, h1, h2⟩ := checkbreakpoint_spec name hname cs (hbp cs hb)
      refine ⟨r, h1, ?_⟩
      rcases h2 with ⟨h2, h3⟩ | h2
      · exact .inl ⟨h2, by simp [h3]⟩
      · exact .inr ⟨by simp [h2], _, h2⟩
  obtain ⟨new, hn1, hn2⟩ := hnarrow
  unfold openPhase
  rw [hn1]
  dsimp only
  have hin : (inside new d).breakpoint = (bp.map (narrowed name)).map dotted ∧ (inside new d).breakpointId = k ∧
      (inside new d).actionId = d.actionId := by
    rcases hn2 with ⟨rfl, h⟩ | ⟨h, x, hx⟩
    · exact ⟨by rw [h]; exact hd, hk, rfl⟩
    · refine ⟨?_, ?_, ?_⟩ <;> rw [hx]
      · rw [← h, hx]; rfl
      · exact hk
      · rfl
  refine stopper_bind (bp := (bp.map (narrowed name)).map dotted)
    (loop_stopper Stop _ k cycle d.actionId run hrun fuel _ hin.1 hin.2.1) fun _ h3 h4 => ?_
  refine stopper_quiet (by rw [leave_ev]; simp) ?_ ?_ ?_
  · unfold leave; split <;> simp
  · unfold leave; split <;> simp
  · unfold leave
    split
    · intro h; cases h
    · intro _
      dsimp only
      rcases hn2 with ⟨rfl, h⟩ | ⟨h, x, hx⟩
      · exact ⟨by rw [h3, h, hd], h4⟩
      · subst hx; exact ⟨rfl, h4⟩

theorem startPhase_stopper (S : Sem ι W) (Stop : Nat → Prop) (bp : Option (List CStr))
    (hbp : ∀ cs, bp = some cs → cs ≠ [] ∧ ∀ c ∈ cs, Component c) (k fuel : Nat) (name : CStr) (hname : Component name)
    (gate : Option ι) (cycle : Bool) (acts : Acts ι) (run : Drv W → R ι W) (d : Drv W)
    (hd : d.breakpoint = bp.map dotted) (hk : d.breakpointId = k)
    (hrun : ∀ d' : Drv W, d'.actionId = d.actionId → d'.breakpoint = (bp.map (narrowed name)).map dotted →
      d'.breakpointId = k → Stopper Stop ((bp.map (narrowed name)).map dotted) k (run d')) :
    Stopper Stop d.breakpoint k (startPhase S fuel name gate cycle acts run d) := by
  obtain ⟨w, hg1, hg2⟩ := gateOpen_spec S gate d
  have hg : ∀ i, .done i ∉ (gateOpen S gate d).2.2 := by
    intro i hi
    rw [hg2] at hi
    cases gate <;> simp at hi
  simp only [startPhase]
  split
  · refine stopper_bind (bp := d.breakpoint) (stopper_quiet hg (by simp) (by simp) fun _ => ?_) fun _ h3 h4 => ?_
    · dsimp only; rw [hg1]; exact ⟨rfl, hk⟩
    · dsimp only at h3 h4 ⊢
      have hid : (gateOpen S gate d).1.actionId = d.actionId := by rw [hg1]
      rw [← h3]
      exact openPhase_stopper Stop bp hbp k fuel name hname cycle run _ (by rw [h3, hd]) h4 (by rw [hid]; exact hrun)
  · refine stopper_quiet hg (by simp) (by simp) fun _ => ?_
    dsimp only; rw [hg1]; exact ⟨rfl, hk⟩

theorem dispatchPhase_stopper (S : Sem ι W) (Stop : Nat → Prop) (bp : Option (List CStr))
    (hbp : ∀ cs, bp = some cs → cs ≠ [] ∧ ∀ c ∈ cs, Component c) (k fuel : Nat) (name : CStr) (hname : Component name)
    (gate : Option ι) (cycle : Bool) (acts : Acts ι) (run : Drv W → R ι W) (d : Drv W)
    (hd : d.breakpoint = bp.map dotted) (hk : d.breakpointId = k)
    (hstop : Stop (d.actionId + 1) ↔ AsksStop bp k (d.actionId + 1) [name])
    (hrun : ∀ d' : Drv W, d'.actionId = d.actionId + 1 → d'.breakpoint = (bp.map (narrowed name)).map dotted →
      d'.breakpointId = k → Stopper Stop ((bp.map (narrowed name)).map dotted) k (run d')) :
    Stopper Stop d.breakpoint k (dispatchPhase S fuel name gate cycle acts run d) := by
  unfold dispatchPhase
  have hb := begin_run S d
  refine stopper_bind (bp := d.breakpoint) (hk ▸ begin_stopper S Stop d) fun _ h1 h2 => ?_
  have hid : (begin S d).d.actionId = d.actionId + 1 := by rw [hb.1]
  refine stopper_bind (bp := d.breakpoint) ?_ fun _ h3 h4 => ?_
  · refine stopper_bind (bp := d.breakpoint) ?_ fun _ h3 h4 => ?_
    · have := startPhase_stopper S Stop bp hbp k fuel name hname gate cycle acts run
        { (begin S d).d with phaseError := false } (by rw [show _ = d.breakpoint from h1, hd]) h2
        (by rw [show Drv.actionId _ = _ from hid]; exact hrun)
      rwa [show _ = d.breakpoint from h1] at this
    · exact stopper_quiet (by simp [mergeError]) (by simp [mergeError]) (by simp [mergeError]) fun _ => ⟨h3, h4⟩
  · exact finish_stopper' Stop bp hbp name hname _ _ _ _ h3 h4 hd (by rw [hid]; exact hstop)

theorem dispatchLeaf_stopper (S : Sem ι W) (hS : KeepsBreak S) (Stop : Nat → Prop) (bp : Option (List CStr))
    (hbp : ∀ cs, bp = some cs → cs ≠ [] ∧ ∀ c ∈ cs, Component c) (k : Nat) (name : CStr) (hname : Component name)
    (lab : ι) (d : Drv W) (hd : d.breakpoint = bp.map dotted) (hk : d.breakpointId = k)
    (hstop : Stop (d.actionId + 1) ↔ AsksStop bp k (d.actionId + 1) [name]) :
    Stopper Stop d.breakpoint k (dispatchLeaf S name lab d) := by
  unfold dispatchLeaf
  have hb := begin_run S d
  refine stopper_bind (bp := d.breakpoint) (hk ▸ begin_stopper S Stop d) fun _ h1 h2 => ?_
  have hid : (begin S d).d.actionId = d.actionId + 1 := by rw [hb.1]
  refine stopper_bind (bp := d.breakpoint) ?_ fun _ h3 h4 => ?_
  · have := runLeaf_stopper S hS Stop lab (begin S d).d
    rwa [h1, h2] at this
  · exact finish_stopper' Stop bp hbp name hname _ _ _ _ h3 h4 hd (by rw [hid]; exact hstop)

theorem asksStop_narrowed (name : CStr) (bp : Option (List CStr)) (k i : Nat) (p : List CStr) (hp : p ≠ []) :
    AsksStop bp k i (name :: p) ↔ AsksStop (bp.map (narrowed name)) k i p := by
  unfold AsksStop
  cases bp with
  | none => simp
  | some cs => simp [hits_narrowed name cs p hp]

theorem runActs_stopper (S : Sem ι W) (hS : KeepsBreak S) (fuel : Nat) (Stop : Nat → Prop) (k : Nat) (acts : Acts ι) :
    ∀ (bp : Option (List CStr)) (d : Drv W), (∀ cs, bp = some cs → cs ≠ [] ∧ ∀ c ∈ cs, Component c) →
      (∀ x ∈ pre acts, Component x.name) → d.breakpoint = bp.map dotted → d.breakpointId = k →
      (∀ j p, (paths [] acts)[j]? = some p → (Stop (d.actionId + 1 + j) ↔ AsksStop bp k (d.actionId + 1 + j) p)) →
      Stopper Stop d.breakpoint k (runActs S fuel acts d) := by
  induction acts with
  | nil =>
    intro bp d _ _ _ hk _
    exact stopper_quiet (by simp [runActs]) (by simp [runActs]) (by simp [runActs]) fun _ => ⟨rfl, hk⟩
  | leaf name lab next ih =>
    intro bp d hbp hn hd hk hstop
    simp only [runActs]
    have hname : Component name := hn (.leaf name lab) (by simp [pre])
    refine stopper_bind (dispatchLeaf_stopper S hS Stop bp hbp k name hname lab d hd hk (hstop 0 [name] rfl))
      fun hr h1 h2 => ?_
    have hid := (dispatchLeaf_num S name lab d []).2 hr
    rw [← h1]
    refine ih bp _ hbp (fun x hx => hn x (by simp [pre, hx])) (by rw [h1, hd]) h2 ?_
    intro j p hj
    rw [hid]
    have := hstop (j + 1) p (by simpa [paths] using hj)
    rwa [show d.actionId + 1 + (j + 1) = d.actionId + 1 + 1 + j from by omega] at this
  | phase name gate cycle body next ihb ihn =>
    intro bp d hbp hn hd hk hstop
    simp only [runActs]
    have hname : Component name := hn (.phase name gate cycle) (by simp [pre])
    have hbp' : ∀ cs, bp.map (narrowed name) = some cs → cs ≠ [] ∧ ∀ c ∈ cs, Component c := by
      intro cs hcs
      cases hb : bp with
      | none => rw [hb] at hcs; cases hcs
      | some cs0 =>
        rw [hb] at hcs
        simp only [Option.map_some, Option.some.injEq] at hcs
        rw [← hcs]
        exact narrowed_ok name cs0 (hbp cs0 hb)
    refine stopper_bind (bp := d.breakpoint) ?_ fun hr h1 h2 => ?_
    · refine dispatchPhase_stopper S Stop bp hbp k fuel name hname gate cycle body _ d hd hk (hstop 0 [name] rfl) ?_
      intro d' hid hd' hk'
      rw [← hd']
      refine ihb (bp.map (narrowed name)) d' hbp' (fun x hx => hn x (by simp [pre, hx])) hd' hk' ?_
      intro j p hj
      have hlt : j < (paths [] body).length := by
        rcases Nat.lt_or_ge j (paths [] body).length with h | h
        · exact h
        · rw [List.getElem?_eq_none h] at hj; cases hj
      have hp : p ≠ [] := paths_ne_nil body p (List.mem_of_getElem? hj)
      have := hstop (j + 1) (name :: p) (by
        simp only [paths, List.nil_append, List.getElem?_cons_succ]
        rw [List.getElem?_append_left (by rw [paths_length, ← paths_length body []]; exact hlt), paths_eq]
        rw [List.getElem?_map, hj]; rfl)
      rw [hid, show d.actionId + 1 + 1 + j = d.actionId + 1 + (j + 1) from by omega, this]
      exact asksStop_narrowed name bp k _ p hp
    · have hid := (dispatchPhase_num S fuel name gate cycle body (runActs S fuel body) [] d (by
        intro d' hd'; have := runActs_num S fuel body d'; rwa [hd'] at this)).2 hr
      rw [← h1]
      refine ihn bp _ hbp (fun x hx => hn x (by simp [pre, hx])) (by rw [h1, hd]) h2 ?_
      intro j p hj
      rw [hid]
      have := hstop (1 + (pre body).length + j) p (by
        rw [show 1 + (pre body).length + j = ((pre body).length + j) + 1 from by omega]
        simp only [paths, List.nil_append, List.getElem?_cons_succ]
        rw [List.getElem?_append_right (by rw [paths_length]; omega), paths_length]
        rw [show (pre body).length + j - (pre body).length = j from by omega]
        exact hj)
      rwa [show d.actionId + 1 + (1 + (pre body).length + j) = d.actionId + 1 + (pre body).length + 1 + j from by
        omega] at this

/-! ### Termination -/

/-- The actions leave the maximum number of rounds alone. -/
def KeepsCycles (S : Sem ι W) : Prop := ∀ lab w id n, Call.setCycles n ∉ (S.leaf lab w id).calls

theorem maxAfterCalls_keep (cs : List Call) (h : ∀ n, Call.setCycles n ∉ cs) : ∀ m, maxAfterCalls m cs = m := by
  induction cs with
  | nil => intro m; rfl
  | cons c cs ih =>
    intro m
    have hc : ∀ n, Call.setCycles n ∉ cs := fun n hn => h n (by simp [hn])
    cases c with
    | setCycles n => exact absurd (by simp) (h n)
    | _ => exact ih hc m

theorem maxAfter_keep (ev : List (Event ι)) (h : ∀ e ∈ ev, ∀ n, ¬ Calls e (.setCycles n)) : ∀ m, maxAfter m ev = m := by
  induction ev with
  | nil => intro m; rfl
  | cons e ev ih =>
    intro m
    have hev := ih (fun e' he' => h e' (by simp [he']))
    have he := h e (by simp)
    cases e with
    | leaf id lab cs =>
      simp only [maxAfter]
      rw [maxAfterCalls_keep cs he, hev]
    | _ => exact hev m

theorem keepsCycles_all {S : Sem ι W} (h : KeepsCycles S) : AllEv S (fun e => ∀ n, ¬ Calls e (.setCycles n)) :=
  ⟨fun _ _ h => h, fun id lab w n => h lab w id n, fun _ _ _ _ h => h, fun _ _ h => h, fun _ _ h => h⟩

theorem runActs_keepsMax (S : Sem ι W) (h : KeepsCycles S) (fuel : Nat) (acts : Acts ι) (d : Drv W)
    (hr : (runActs S fuel acts d).out = .run) : (runActs S fuel acts d).d.maxCycles = d.maxCycles := by
  have := (runActs_complete S fuel False acts d (fun h => h.elim) hr).2.1
  rw [this]
  exact maxAfter_keep _ (runActs_all (keepsCycles_all h) fuel acts d) _

theorem runActs_flat_iter (S : Sem ι W) (fuel : Nat) (acts : Acts ι) (hf : Flat acts) (d : Drv W)
    (hr : (runActs S fuel acts d).out = .run) : (runActs S fuel acts d).d.cycleIter = d.cycleIter :=
  (runActs_complete S fuel True acts d (fun _ => .inr hf) hr).2.2.1 trivial

theorem flat_flatCycles (acts : Acts ι) (h : Flat acts) : FlatCycles acts := by
  induction acts with
  | nil => trivial
  | leaf name lab next ih => exact ih h
  | phase => exact h.elim

theorem bind_not_fuel {r : R ι W} {f : Drv W → R ι W} (h1 : r.out ≠ .fuel)
    (h2 : r.out = .run → (f r.d).out ≠ .fuel) : (r.bind f).out ≠ .fuel := by
  by_cases hr : r.out = .run
  · rw [R.bind_run _ hr]; exact h2 hr
  · rw [R.bind_stop _ hr]; exact h1

theorem loop_not_fuel (M : Nat) (cycle : Bool) (id : Nat) (body : Drv W → R ι W)
    (hbody : ∀ d : Drv W, d.maxCycles = M → (body d).out ≠ .fuel)
    (hkeep : cycle = true → ∀ d : Drv W, (body d).out = .run → (body d).d.maxCycles = d.maxCycles ∧
      (body d).d.cycleIter = d.cycleIter)
    (fuel : Nat) : ∀ d : Drv W, d.maxCycles = M → 1 ≤ fuel → (cycle = true → M ≤ fuel + d.cycleIter) →
      (loop cycle id body fuel d).out ≠ .fuel := by
  induction fuel with
  | zero => intro d _ h; omega
  | succ n ih =>
    intro d hM _ hf
    simp only [loop]
    refine bind_not_fuel (bind_not_fuel (by simp [startRound]) fun _ => hbody _ hM) fun hr => ?_
    obtain ⟨h1, h2⟩ := R.bind_out_run hr
    rw [R.bind_run _ h1]
    dsimp only
    split
    · rename_i ha
      have hc : cycle = true := by
        unfold again at ha; cases cycle <;> simp_all
      obtain ⟨k1, k2⟩ := hkeep hc _ h2
      have hlt : (body (startRound id d : R ι W).d).d.cycleIter + 1 < (body (startRound id d : R ι W).d).d.maxCycles := by
        unfold again countRound at ha
        simp only [Bool.and_eq_true, decide_eq_true_eq] at ha
        exact ha.1.2
      have e1 : (startRound id d : R ι W).d.maxCycles = M := hM
      have e2 : (startRound id d : R ι W).d.cycleIter = d.cycleIter := rfl
      have := hf hc
      refine ih _ (k1.trans e1) (by omega) ?_
      intro _
      show M ≤ n + (_ + 1)
      omega
    · simp

theorem dispatchPhase_not_fuel (S : Sem ι W) (M fuel : Nat) (hfuel : 1 ≤ fuel ∧ M ≤ fuel) (name : CStr)
    (gate : Option ι) (cycle : Bool) (acts : Acts ι) (run : Drv W → R ι W)
    (hbody : ∀ d : Drv W, d.maxCycles = M → (run d).out ≠ .fuel)
    (hkeep : cycle = true → ∀ d : Drv W, (run d).out = .run → (run d).d.maxCycles = d.maxCycles ∧
      (run d).d.cycleIter = d.cycleIter) (d : Drv W) (hd : d.maxCycles = M) :
    (dispatchPhase S fuel name gate cycle acts run d).out ≠ .fuel := by
  unfold dispatchPhase
  have hb := begin_run S d
  refine bind_not_fuel ?_ fun _ => ?_
  · simp only [begin]; split
    · dsimp only; split <;> simp
    · simp
  refine bind_not_fuel (bind_not_fuel ?_ fun _ => by simp [mergeError]) fun _ => ?_
  · obtain ⟨w, hg1, hg2⟩ := gateOpen_spec S gate { (begin S d).d with phaseError := false }
    simp only [startPhase]
    split
    · refine bind_not_fuel (by simp) fun _ => ?_
      dsimp only
      unfold openPhase
      split
      · rename_i new _
        refine bind_not_fuel ?_ fun _ => ?_
        · have hin : (inside new (gateOpen S gate { (begin S d).d with phaseError := false }).1).maxCycles = M := by
            rw [hg1, hb.1]
            cases new <;> exact hd
          exact loop_not_fuel M cycle _ run hbody hkeep fuel _ hin hfuel.1 (fun _ => by omega)
        · unfold leave; split <;> simp
      · simp
    · simp
  · rcases (finish_cases (ι := ι) name (begin S d).d.actionId _).2 with h | h
    · rw [h.2.1]; simp
    · exact h.2.2.1

theorem runActs_not_fuel (S : Sem ι W) (h : KeepsCycles S) (M fuel : Nat) (hfuel : 1 ≤ fuel ∧ M ≤ fuel) (acts : Acts ι) :
    FlatCycles acts → ∀ d : Drv W, d.maxCycles = M → (runActs S fuel acts d).out ≠ .fuel := by
  induction acts with
  | nil => intro _ d _; simp [runActs]
  | leaf name lab next ih =>
    intro hf d hM
    simp only [runActs]
    refine bind_not_fuel ?_ fun hr => ih hf _ ?_
    · unfold dispatchLeaf
      refine bind_not_fuel ?_ fun _ => bind_not_fuel ?_ fun _ => ?_
      · simp only [begin]; split
        · dsimp only; split <;> simp
        · simp
      · simp only [runLeaf]; split <;> simp
      · rcases (finish_cases (ι := ι) name (begin S d).d.actionId _).2 with h | h
        · rw [h.2.1]; simp
        · exact h.2.2.1
    · obtain ⟨_, calls, _, _, ⟨l, hl, hc, hd⟩, _⟩ := dispatchLeaf_run S name lab d hr
      rw [hd, (applyCalls_eff calls _).2.1, maxAfterCalls_keep calls]
      · exact hM
      · intro n; rw [← hc, ← hl]; exact h lab _ _ n
  | phase name gate cycle body next ihb ihn =>
    intro hf d hM
    simp only [runActs]
    have hfb : FlatCycles body := by
      have := hf.1
      cases cycle
      · simpa using this
      · exact flat_flatCycles body (by simpa using this)
    refine bind_not_fuel ?_ fun hr => ihn hf.2 _ ?_
    · refine dispatchPhase_not_fuel S M fuel hfuel name gate cycle body _ (ihb hfb) ?_ d hM
      intro hc d' hr
      have : Flat body := by have := hf.1; rw [hc] at this; simpa using this
      exact ⟨runActs_keepsMax S h fuel body d' hr, runActs_flat_iter S fuel body this d' hr⟩
    · have e : runActs S fuel (.phase name gate cycle body .nil) d =
          (dispatchPhase S fuel name gate cycle body (runActs S fuel body) d).bind (runActs S fuel .nil) := rfl
      have hr2 : (runActs S fuel (.phase name gate cycle body .nil) d).out = .run := by
        rw [e, R.bind_run _ hr]; rfl
      have := runActs_keepsMax S h fuel (.phase name gate cycle body .nil) d hr2
      rw [e, R.bind_run _ hr] at this
      exact this.trans hM

/-- With a constant maximum, a cycle runs at most that many rounds (and at least one). -/
theorem roundsOK_length {max k : Nat} {rs : List (List (Event ι))} (h : RoundsOK max k rs)
    (hk : ∀ r ∈ rs, ∀ m, maxAfter m r = m) : 1 ≤ rs.length ∧ (rs.length = 1 ∨ k + rs.length ≤ max) := by
  induction h with
  | last _ => exact ⟨Nat.le_refl _, .inl rfl⟩
  | @more max k r rs _ h2 _ ih =>
    have hm := hk r (by simp) max
    rw [hm] at h2 ih
    have := (ih (fun r hr => hk r (by simp [hr]))).2
    refine ⟨by simp, .inr ?_⟩
    rw [List.length_cons]
    omega

/-! ### Auxiliary facts for the property theorems -/

theorem dispatch_eq_runActs (S : Sem ι W) (fuel : Nat) (name : CStr) (gate : Option ι) (cycle : Bool) (body : Acts ι)
    (d : Drv W) : runActs S fuel (.phase name gate cycle body .nil) d =
      dispatchPhase S fuel name gate cycle body (runActs S fuel body) d := by
  show (dispatchPhase S fuel name gate cycle body (runActs S fuel body) d).bind (runActs S fuel .nil) = _
  by_cases hr : (dispatchPhase S fuel name gate cycle body (runActs S fuel body) d).out = .run
  · rw [R.bind_run _ hr]; simp only [runActs, List.append_nil]
    rw [← hr]
  · rw [R.bind_stop _ hr]

theorem bind_fuel (r : R ι W) (f : Drv W → R ι W) (hr : r.out = .fuel) : (r.bind f).out = .fuel := by
  rw [R.bind_stop f (by rw [hr]; simp), hr]

theorem loop_fuel_of_body (cycle : Bool) (id : Nat) (body : Drv W → R ι W) (n : Nat) (d : Drv W)
    (h : (body { d with fixedPoint := true, actionId := id }).out = .fuel) :
    (loop cycle id body (n + 1) d).out = .fuel := by
  simp only [loop]
  refine bind_fuel _ _ ?_
  rw [R.bind_run _ rfl]
  exact h

/-- A phase without gate does not end if its loop does not. -/
theorem dispatchPhase_fuel (S : Sem ι W) (fuel : Nat) (name : CStr) (cycle : Bool) (acts : Acts ι)
    (run : Drv W → R ι W) (d : Drv W) (ht : d.treeCheck = false) (hb : d.breakpoint = none)
    (hl : (loop cycle (d.actionId + 1) run fuel { d with actionId := d.actionId + 1, phaseError := false }).out = .fuel) :
    (dispatchPhase S fuel name none cycle acts run d).out = .fuel := by
  have e : begin S d = { out := .run, d := { d with actionId := d.actionId + 1 }, ev := [] } := by
    simp [begin, ht]
  unfold dispatchPhase
  rw [e, R.bind_run _ rfl]
  dsimp only
  refine bind_fuel _ _ (bind_fuel _ _ ?_)
  simp only [startPhase, gateOpen, if_true]
  rw [R.bind_run _ rfl]
  dsimp only
  simp only [openPhase, hb, narrow]
  exact bind_fuel _ _ (by simpa [inside, hb] using hl)

/-- `hits` accepts the exact path. -/
theorem hits_self (p q : List CStr) (hp : p ≠ []) (h : SamePath p q) : hits p q := by
  induction p generalizing q with
  | nil => exact absurd rfl hp
  | cons c cs ih =>
    cases q with
    | nil => simp [SamePath] at h
    | cons a as =>
      simp only [SamePath, List.map_cons, List.cons.injEq] at h
      cases cs with
      | nil =>
        cases as with
        | nil => exact h.1
        | cons _ _ => simp at h
      | cons c2 cs =>
        cases as with
        | nil => simp at h
        | cons a2 as => exact .inl ⟨h.1, ih _ (by simp) h.2⟩

theorem hits_sublist (cs p : List CStr) (h : hits cs p) :
    ∃ q, q.Sublist p ∧ SamePath cs q ∧ cs.getLast? ≠ none ∧ q.getLast? = p.getLast? := by
  fun_induction hits cs p with
  | case1 => exact h.elim
  | case2 => exact h.elim
  | case3 c a =>
    refine ⟨[a], List.Sublist.refl _, ?_, by simp, rfl⟩
    exact congrArg (fun x => [x]) h
  | case4 => exact h.elim
  | case5 c x a as ih =>
    obtain ⟨q, h1, h2, h3, h4⟩ := ih h
    exact ⟨q, h1.cons x, h2, h3, by rw [h4]; simp [List.getLast?_cons_cons]⟩
  | case6 c c2 cs x a as ih1 ih2 =>
    rcases h with ⟨hs, h⟩ | ⟨hs, h⟩
    · obtain ⟨q, h1, h2, h3, h4⟩ := ih1 h
      refine ⟨x :: q, h1.cons_cons x, ?_, by simp, ?_⟩
      · simp only [SamePath, List.map_cons] at h2 ⊢
        rw [← h2]
        exact congrArg (· :: _) hs
      · cases q with
        | nil => simp [SamePath] at h2
        | cons b q => rw [List.getLast?_cons_cons, List.getLast?_cons_cons]; exact h4
    · obtain ⟨q, h1, h2, h3, h4⟩ := ih2 h
      exact ⟨q, h1.cons x, h2, h3, by rw [h4]; simp [List.getLast?_cons_cons]⟩

end Verif.PD
