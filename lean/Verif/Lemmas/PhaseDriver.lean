import Verif.Spec.PhaseDriver

/-! Helper lemmas about the phase driver model: sequencing and numbering. -/

namespace Verif.PD
open Verif.Str Verif.Spec.PD

variable {ι W : Type}

theorem R.bind_elim {P : R ι W → Prop} (r : R ι W) (f : Drv W → R ι W) (h1 : r.out ≠ .run → P r)
    (h2 : r.out = .run → P { f r.d with ev := r.ev ++ (f r.d).ev }) : P (r.bind f) := by
  unfold R.bind
  cases h : r.out with
  | run => exact h2 h
  | _ => exact h1 (by rw [h]; simp)

theorem R.bind_run {r : R ι W} (f : Drv W → R ι W) (h : r.out = .run) :
    r.bind f = { f r.d with ev := r.ev ++ (f r.d).ev } := by
  unfold R.bind; rw [h]

theorem R.bind_stop {r : R ι W} (f : Drv W → R ι W) (h : r.out ≠ .run) : r.bind f = r := by
  unfold R.bind
  cases h' : r.out with
  | run => exact absurd h' h
  | _ => rfl

theorem R.bind_out_run {r : R ι W} {f : Drv W → R ι W} (h : (r.bind f).out = .run) :
    r.out = .run ∧ (f r.d).out = .run := by
  by_cases hr : r.out = .run
  · rw [R.bind_run f hr] at h; exact ⟨hr, h⟩
  · rw [R.bind_stop f hr] at h; exact absurd h hr

/-! ### Numbering -/

theorem skip_eq (acts : Acts ι) : ∀ n, skip acts n = n + (pre acts).length := by
  induction acts with
  | nil => intro n; simp [skip, pre]
  | leaf name lab next ih => intro n; simp only [skip, pre, ih, List.length_cons]; omega
  | phase name gate cycle body next ihb ihn =>
    intro n; simp only [skip, pre, ihb, ihn, List.length_cons, List.length_append]; omega

@[simp] theorem applyCall_actionId (d : Drv W) (c : Call) : (applyCall d c).actionId = d.actionId := by
  cases c <;> rfl

theorem applyCalls_actionId (cs : List Call) : ∀ d : Drv W, (cs.foldl applyCall d).actionId = d.actionId := by
  induction cs with
  | nil => intro d; rfl
  | cons c cs ih => intro d; rw [List.foldl_cons, ih]; simp

theorem numbered_left {n : Nat} {a b : List (Node ι)} {e : Event ι} (h : Numbered n a e) :
    Numbered n (a ++ b) e := by
  obtain ⟨h1, x, h2, h3⟩ := h
  refine ⟨h1, x, ?_, h3⟩
  have hlt : eid e - n - 1 < a.length := by
    apply Classical.byContradiction
    intro hc
    rw [List.getElem?_eq_none (by omega)] at h2
    cases h2
  rw [List.getElem?_append_left hlt]; exact h2

theorem numbered_right {n : Nat} {a b : List (Node ι)} {e : Event ι} (h : Numbered (n + a.length) b e) :
    Numbered n (a ++ b) e := by
  obtain ⟨h1, x, h2, h3⟩ := h
  refine ⟨by omega, x, ?_, h3⟩
  rw [List.getElem?_append_right (by omega)]
  rw [← h2]; congr 1; omega

theorem numbered_head {n : Nat} {x : Node ι} {b : List (Node ι)} {e : Event ι} (h : eid e = n + 1)
    (hx : Belongs e x) : Numbered n (x :: b) e := by
  refine ⟨by omega, x, ?_, hx⟩
  rw [h]; simp

theorem numbered_tail {n : Nat} {x : Node ι} {b : List (Node ι)} {e : Event ι} (h : Numbered (n + 1) b e) :
    Numbered n (x :: b) e := numbered_right (a := [x]) h

/-- What the numbering lemmas say about a piece of execution. -/
def NumOK (n : Nat) (occ : List (Node ι)) (m : Nat) (r : R ι W) : Prop :=
  (∀ e ∈ r.ev, Numbered n occ e) ∧ (r.out = .run → r.d.actionId = m)

theorem numOK_bind {n m m' : Nat} {occ : List (Node ι)} {r : R ι W} {f : Drv W → R ι W} (h1 : NumOK n occ m r)
    (h2 : r.out = .run → r.d.actionId = m → NumOK n occ m' (f r.d)) : NumOK n occ m' (r.bind f) := by
  apply R.bind_elim
  · intro h; exact ⟨h1.1, fun h' => absurd h' h⟩
  · intro h
    obtain ⟨a, b⟩ := h2 h (h1.2 h)
    refine ⟨?_, b⟩
    intro e he
    simp only [List.mem_append] at he
    rcases he with he | he
    · exact h1.1 e he
    · exact a e he

theorem begin_num (S : Sem ι W) (d : Drv W) (x : Node ι) (occ : List (Node ι)) :
    NumOK d.actionId (x :: occ) (d.actionId + 1) (begin S d) := by
  simp only [begin]
  split
  · refine ⟨?_, fun _ => rfl⟩
    intro e he
    simp only [List.mem_singleton] at he
    subst he
    exact numbered_head rfl trivial
  · exact ⟨by simp, fun _ => rfl⟩

theorem finish_cases (name : CStr) (id : Nat) (d : Drv W) :
    (finish name id d : R ι W).d = d ∧
    (((finish name id d : R ι W).ev = [] ∧ (finish name id d : R ι W).out = .abort ∧ d.actionError = true) ∨
      ((finish name id d : R ι W).ev = [.done id] ∧ (finish name id d : R ι W).out ≠ .abort ∧
        (finish name id d : R ι W).out ≠ .fuel ∧ d.actionError = false)) := by
  simp only [finish]
  split
  · rename_i h; exact ⟨rfl, .inl ⟨rfl, rfl, h⟩⟩
  · rename_i h
    have h : d.actionError = false := by simpa using h
    split
    · exact ⟨rfl, .inr ⟨rfl, by simp, by simp, h⟩⟩
    · split <;> exact ⟨rfl, .inr ⟨rfl, by simp, by simp, h⟩⟩
    · exact ⟨rfl, .inr ⟨rfl, by simp, by simp, h⟩⟩

theorem finish_num (name : CStr) (n : Nat) (d : Drv W) (x : Node ι) (occ : List (Node ι)) :
    NumOK n (x :: occ) d.actionId (finish name (n + 1) d) := by
  obtain ⟨h1, h2⟩ := finish_cases (ι := ι) name (n + 1) d
  refine ⟨?_, fun _ => by rw [h1]⟩
  intro e he
  rcases h2 with h2 | h2
  · rw [h2.1] at he; simp at he
  · rw [h2.1] at he
    simp only [List.mem_singleton] at he
    subst he
    exact numbered_head rfl (by cases x <;> trivial)

theorem dispatchLeaf_num (S : Sem ι W) (name : CStr) (lab : ι) (d : Drv W) (occ : List (Node ι)) :
    NumOK d.actionId (.leaf name lab :: occ) (d.actionId + 1) (dispatchLeaf S name lab d) := by
  unfold dispatchLeaf
  refine numOK_bind (begin_num S d _ occ) fun _ hid => ?_
  rw [hid]
  refine numOK_bind (m := d.actionId + 1) ?_ fun _ hid2 => ?_
  · refine ⟨?_, fun _ => ?_⟩
    · intro e he
      simp only [runLeaf, List.mem_singleton] at he
      subst he
      exact numbered_head hid rfl
    · simp only [runLeaf, applyCalls_actionId]; exact hid
  · have := finish_num name d.actionId (runLeaf S lab (begin S d).d).d (Node.leaf name lab) occ
    rwa [hid2] at this

theorem loop_num (cycle : Bool) (id : Nat) (body : Drv W → R ι W) (n : Nat) (occ : List (Node ι)) (m : Nat)
    (hround : Numbered n occ (.round id)) (hbody : ∀ d : Drv W, d.actionId = id → NumOK n occ m (body d))
    (fuel : Nat) : ∀ d, NumOK n occ m (loop cycle id body fuel d) := by
  induction fuel with
  | zero => intro d; exact ⟨by simp [loop], by simp [loop]⟩
  | succ k ih =>
    intro d
    simp only [loop]
    refine numOK_bind (m := m) ?_ fun _ hid => ?_
    · refine numOK_bind (m := id) ?_ fun _ hid => hbody _ hid
      refine ⟨?_, fun _ => rfl⟩
      intro e he
      simp only [startRound, List.mem_singleton] at he
      subst he; exact hround
    · split
      · exact ih _
      · exact ⟨by simp, fun _ => hid⟩

theorem gateOpen_spec (S : Sem ι W) (gate : Option ι) (d : Drv W) :
    ∃ w, (gateOpen S gate d).1 = { d with world := w } ∧
      (gateOpen S gate d).2.2 = match gate with
        | none => []
        | some g => [.gate d.actionId g (gateOpen S gate d).2.1] := by
  cases gate with
  | none => exact ⟨d.world, rfl, rfl⟩
  | some g => exact ⟨(S.gate g d.world).1, rfl, rfl⟩

theorem startPhase_num (S : Sem ι W) (fuel : Nat) (name : CStr) (gate : Option ι) (cycle : Bool) (acts : Acts ι)
    (run : Drv W → R ι W) (n : Nat) (rest : List (Node ι))
    (hrun : ∀ d : Drv W, d.actionId = n + 1 → NumOK (n + 1) (pre acts) (n + 1 + (pre acts).length) (run d))
    (d : Drv W) (hd : d.actionId = n + 1) :
    NumOK n (.phase name gate cycle :: (pre acts ++ rest)) (n + 1 + (pre acts).length)
      (startPhase S fuel name gate cycle acts run d) := by
  obtain ⟨w, hg1, hg2⟩ := gateOpen_spec S gate d
  have hgev : ∀ e ∈ (gateOpen S gate d).2.2, Numbered n (.phase name gate cycle :: (pre acts ++ rest)) e := by
    intro e he
    rw [hg2] at he
    cases gate with
    | none => simp at he
    | some g =>
      simp only [List.mem_singleton] at he
      subst he
      exact numbered_head hd rfl
  simp only [startPhase]
  split
  · refine numOK_bind (m := n + 1) ⟨hgev, fun _ => by simp only [hg1]; exact hd⟩ fun _ hid => ?_
    dsimp only at hid ⊢
    unfold openPhase
    split
    · refine numOK_bind (m := n + 1 + (pre acts).length) ?_ fun _ hid2 => ?_
      · apply loop_num
        · exact numbered_head (by simp [eid, hid]) trivial
        · intro d' hd'
          obtain ⟨a, b⟩ := hrun d' (by rw [hd', hid])
          exact ⟨fun e he => numbered_tail (numbered_left (a e he)), b⟩
      · unfold leave
        split
        · exact ⟨by simp, by simp⟩
        · refine ⟨by simp, fun _ => ?_⟩
          dsimp only
          split <;> exact hid2
    · exact ⟨by simp, by simp⟩
  · refine ⟨hgev, fun _ => ?_⟩
    simp only [skip_eq, hd]

theorem dispatchPhase_num (S : Sem ι W) (fuel : Nat) (name : CStr) (gate : Option ι) (cycle : Bool) (acts : Acts ι)
    (run : Drv W → R ι W) (rest : List (Node ι)) (d : Drv W)
    (hrun : ∀ d' : Drv W, d'.actionId = d.actionId + 1 →
      NumOK (d.actionId + 1) (pre acts) (d.actionId + 1 + (pre acts).length) (run d')) :
    NumOK d.actionId (.phase name gate cycle :: (pre acts ++ rest)) (d.actionId + 1 + (pre acts).length)
      (dispatchPhase S fuel name gate cycle acts run d) := by
  unfold dispatchPhase
  refine numOK_bind (begin_num S d _ _) fun _ hid => ?_
  refine numOK_bind (m := d.actionId + 1 + (pre acts).length) ?_ fun _ hid2 => ?_
  · refine numOK_bind (startPhase_num S fuel name gate cycle acts run d.actionId rest hrun _ hid) fun _ h => ?_
    exact ⟨by simp [mergeError], fun _ => h⟩
  · generalize (begin S d).d = d1 at *
    rw [← hid2, hid]
    exact finish_num name d.actionId _ (Node.phase name gate cycle) (pre acts ++ rest)

theorem runActs_num (S : Sem ι W) (fuel : Nat) (acts : Acts ι) : ∀ d : Drv W,
    NumOK d.actionId (pre acts) (d.actionId + (pre acts).length) (runActs S fuel acts d) := by
  induction acts with
  | nil => intro d; exact ⟨by simp [runActs], fun _ => rfl⟩
  | leaf name lab next ih =>
    intro d
    simp only [runActs, pre]
    refine numOK_bind (dispatchLeaf_num S name lab d (pre next)) fun _ hid => ?_
    obtain ⟨a, b⟩ := ih (dispatchLeaf S name lab d).d
    rw [hid] at a b
    refine ⟨fun e he => numbered_tail (a e he), fun h => ?_⟩
    rw [b h, List.length_cons]; omega
  | phase name gate cycle body next ihb ihn =>
    intro d
    simp only [runActs, pre]
    refine numOK_bind (dispatchPhase_num S fuel name gate cycle body _ (pre next) d ?_) fun _ hid => ?_
    · intro d' hd'
      have := ihb d'
      rwa [hd'] at this
    · obtain ⟨a, b⟩ := ihn (dispatchPhase S fuel name gate cycle body (runActs S fuel body) d).d
      rw [hid] at a b
      refine ⟨fun e he => numbered_tail (numbered_right ?_), fun h => ?_⟩
      · have := a e he
        rwa [show d.actionId + 1 + (pre body).length = d.actionId + 1 + (pre body).length from rfl] at this
      · rw [b h, List.length_cons, List.length_append]; omega

/-! ### `ShowTree` -/

theorem showActs_eq (acts : Acts ι) : ∀ id, (showActs acts id).1 = id + (pre acts).length ∧
    (1 < id → (showActs acts id).2 = (((pre acts).map Node.name).zipIdx id).map (fun p => (p.2, p.1))) := by
  induction acts with
  | nil => intro id; simp [showActs, pre]
  | leaf name lab next ih =>
    intro id
    obtain ⟨a, b⟩ := ih (id + 1)
    refine ⟨?_, fun h => ?_⟩
    · simp only [showActs, pre, a, List.length_cons]; omega
    · simp only [showActs, pre, if_pos h, b (by omega)]
      simp [List.zipIdx_cons, Node.name]
  | phase name gate cycle body next ihb ihn =>
    intro id
    obtain ⟨a, b⟩ := ihb (id + 1)
    obtain ⟨a', b'⟩ := ihn (showActs body (id + 1)).1
    refine ⟨?_, fun h => ?_⟩
    · simp only [showActs, pre, List.length_cons, List.length_append]; rw [a', a]; omega
    · have h2 := b' (by rw [a]; omega)
      rw [a] at h2
      simp only [showActs, pre, if_pos h, b (by omega), a, h2]
      simp [List.zipIdx_cons, Node.name, List.zipIdx_append]

end Verif.PD
