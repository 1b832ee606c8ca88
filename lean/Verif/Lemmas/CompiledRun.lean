import Verif.Model.Compiled

/-!
# The driver on tables is the driver on trees
-/

namespace Verif.Compiled
open Verif.Str Verif.PD

variable {W : Type}

/-- The table holds these actions. -/
inductive Loads (C : Image) : List Nat → Acts Lab → Prop where
  | nil {rest : List Nat} : Loads C (C.null :: rest) .nil
  | leaf {i : Nat} {rest : List Nat} {name : CStr} {c : Code} {lab : Lab} {a : Acts Lab} : i ≠ C.null → C.actions[i]? = some ⟨name, c⟩ →
      labOf C c = some lab → Loads C rest a → Loads C (i :: rest) (.leaf name lab a)
  | phase {i : Nat} {rest : List Nat} {name : CStr} {gate : Option CStr} {table : List Nat} {cycle : Bool} {b a : Acts Lab} :
      i ≠ C.null → C.actions[i]? = some ⟨name, .phase gate table cycle⟩ → Loads C table b → Loads C rest a →
      Loads C (i :: rest) (.phase name (gate.map .gate) cycle b a)

/-- How deep the recursion is. -/
def depth : Acts Lab → Nat
  | .nil => 1
  | .leaf _ _ a => depth a + 1
  | .phase _ _ _ b a => max (depth b) (depth a) + 1

theorem not_phase {C : Image} {c : Code} {lab : Lab} (h : labOf C c = some lab) : ∀ g t y, c ≠ .phase g t y := by
  rintro g t y rfl
  cases h

theorem skip_eq {C : Image} {t : List Nat} {a : Acts Lab} (h : Loads C t a) : ∀ (fuel : Nat), depth a ≤ fuel → ∀ n,
    skipTable C fuel t n = .ok (PD.skip a n) := by
  induction h with
  | nil =>
    intro fuel hf n
    cases fuel with
    | zero => simp [depth] at hf
    | succ fuel => simp [skipTable, PD.skip]
  | @leaf i rest name c lab a h1 h2 h3 _ ih =>
    intro fuel hf n
    cases fuel with
    | zero => simp [depth] at hf
    | succ fuel =>
      have hf : depth a ≤ fuel := by simpa [depth] using hf
      have hi : (i == C.null) = false := by simpa using h1
      have hc := not_phase h3
      cases c with
      | phase g t y => exact absurd rfl (hc g t y)
      | traversal k => simp only [skipTable, hi, h2]; exact ih fuel hf (n + 1)
      | pass k => simp only [skipTable, hi, h2]; exact ih fuel hf (n + 1)
  | @phase i rest name gate table cycle b a h1 h2 _ _ ihb iha =>
    intro fuel hf n
    cases fuel with
    | zero => simp [depth] at hf
    | succ fuel =>
      have hf : max (depth b) (depth a) ≤ fuel := by simpa [depth] using hf
      have hi : (i == C.null) = false := by simpa using h1
      simp only [skipTable, hi, h2, ihb fuel (by omega), Res.bind_ok]
      exact iha fuel (by omega) _

/-- A phase whose table is read. -/
theorem dispatch_phase {S : Sem Lab W} {rounds : Nat} {C : Image} {skip : List Nat → Nat → Res Nat} {run : List Nat → Drv W → R Lab W}
    {name : CStr} {gate : Option CStr} {table : List Nat} {cycle : Bool} {b : Acts Lab} (hs : ∀ n, skip table n = .ok (PD.skip b n))
    (hr : run table = runActs S rounds b) (d : Drv W) :
    dispatch S rounds C skip run ⟨name, .phase gate table cycle⟩ d =
      dispatchPhase S rounds name (gate.map .gate) cycle b (runActs S rounds b) d := by
  simp only [dispatch, dispatchPhase]
  congr 1
  funext d1
  congr 2
  simp only [startTable, startPhase, hr, hs, skipped]
  cases h : (gateOpen S (gate.map .gate) { d1 with phaseError := false }).2.1 <;> simp

theorem dispatch_leaf {S : Sem Lab W} {rounds : Nat} {C : Image} {skip : List Nat → Nat → Res Nat} {run : List Nat → Drv W → R Lab W}
    {name : CStr} {c : Code} {lab : Lab} (h : labOf C c = some lab) (d : Drv W) :
    dispatch S rounds C skip run ⟨name, c⟩ d = dispatchLeaf S name lab d := by
  cases c with
  | phase g t y => cases h
  | traversal k => simp only [dispatch, h]
  | pass k => simp only [dispatch, h]

theorem run_eq (S : Sem Lab W) (rounds : Nat) {C : Image} {t : List Nat} {a : Acts Lab} (h : Loads C t a) : ∀ (fuel : Nat),
    depth a ≤ fuel → runTable S rounds C fuel t = runActs S rounds a := by
  induction h with
  | nil =>
    intro fuel hf
    funext d
    cases fuel with
    | zero => simp [depth] at hf
    | succ fuel => simp [runTable, runActs]
  | @leaf i rest name c lab a h1 h2 h3 _ ih =>
    intro fuel hf
    funext d
    cases fuel with
    | zero => simp [depth] at hf
    | succ fuel =>
      have hf : depth a ≤ fuel := by simpa [depth] using hf
      have hi : (i == C.null) = false := by simpa using h1
      simp only [runTable, hi, h2, runActs, dispatch_leaf h3, ih fuel hf]
  | @phase i rest name gate table cycle b a h1 h2 hb _ ihb iha =>
    intro fuel hf
    funext d
    cases fuel with
    | zero => simp [depth] at hf
    | succ fuel =>
      have hf : max (depth b) (depth a) ≤ fuel := by simpa [depth] using hf
      have hi : (i == C.null) = false := by simpa using h1
      simp only [runTable, hi, h2, runActs, iha fuel (by omega)]
      rw [dispatch_phase (skip_eq hb fuel (by omega)) (ihb fuel (by omega))]

/-- The whole run. -/
theorem ccnrun_eq (S : Sem Lab W) (rounds : Nat) {C : Image} {name : CStr} {gate : Option CStr} {table : List Nat} {cycle : Bool}
    (hr : C.actions[C.root]? = some ⟨name, .phase gate table cycle⟩) {b : Acts Lab} (h : Loads C table b) {fuel : Nat}
    (hf : depth b ≤ fuel) (d : Drv W) : CCNrun S rounds C fuel d = PD.CCNrun S rounds name (gate.map .gate) cycle b d := by
  simp only [CCNrun, hr, PD.CCNrun]
  exact dispatch_phase (skip_eq h fuel hf) (run_eq S rounds h fuel hf) _

end Verif.Compiled
