import Verif.Lemmas.Compiled
import Verif.Props.PhaseDriver

/-!
# The program of a description, and runs that are guarded by the check
-/

namespace Verif.Compiled
open Verif.Str Verif.Ids Verif.PD Verif.Spec.Compiled
open Verif.Semantic (idOf Right)
open Verif.Spec.Str (lowerB upperB SameName)
open Verif.Spec.Unpack (Refers)
open Verif.Spec.Life (Tree Item occ size)
open Verif.Unpack (find_phase find_traversal find_pass)

section
variable {A : Parse.Ast} {tab : List (Ste Decl)}

/-- Two descriptions of the same thing. -/
theorem same_trav (h : Right A tab) {n : Parse.Name} {t u : Parse.Traversal} (ht : t ∈ A.traversals) (hu : u ∈ A.traversals)
    (h1 : Refers n t.name (some t.uid)) (h2 : Refers n u.name (some u.uid)) : t = u := by
  obtain ⟨i, hi⟩ := List.getElem?_of_mem ht
  obtain ⟨j, hj⟩ := List.getElem?_of_mem hu
  have e := (find_traversal h n i).2 ⟨t, hi, h1⟩
  rw [(find_traversal h n j).2 ⟨u, hj, h2⟩] at e
  cases e
  rw [hi] at hj
  cases hj
  rfl

theorem same_pass (h : Right A tab) {n : Parse.Name} {t u : Parse.Pass} (ht : t ∈ A.passes) (hu : u ∈ A.passes)
    (h1 : Refers n t.name t.uid) (h2 : Refers n u.name u.uid) : t = u := by
  obtain ⟨i, hi⟩ := List.getElem?_of_mem ht
  obtain ⟨j, hj⟩ := List.getElem?_of_mem hu
  have e := (find_pass h n i).2 ⟨t, hi, h1⟩
  rw [(find_pass h n j).2 ⟨u, hj, h2⟩] at e
  cases e
  rw [hi] at hj
  cases hj
  rfl

theorem same_phase (h : Right A tab) {n : Parse.Name} {t u : Parse.Phase} (ht : t ∈ A.phases) (hu : u ∈ A.phases)
    (h1 : Refers n t.name t.uid) (h2 : Refers n u.name u.uid) : t = u := by
  obtain ⟨i, hi⟩ := List.getElem?_of_mem ht
  obtain ⟨j, hj⟩ := List.getElem?_of_mem hu
  have e := (find_phase h n i).2 ⟨t, hi, h1⟩
  rw [(find_phase h n j).2 ⟨u, hj, h2⟩] at e
  cases e
  rw [hi] at hj
  cases hj
  rfl

theorem program_unique (h : Right A tab) {ns : List Parse.Name} {a b : Acts Lab} (ha : Program A ns a) (hb : Program A ns b) : a = b := by
  induction ha generalizing b with
  | nil => cases hb; rfl
  | traversal h1 h2 _ ih =>
    cases hb with
    | traversal g1 g2 g3 => cases same_trav h h1 g1 h2 g2; rw [ih g3]
    | pass g1 g2 g3 => exact (trav_pass h h1 g1 h2 g2).elim
    | phase g1 g2 _ _ => exact (phase_trav h g1 h1 g2 h2).elim
  | pass h1 h2 _ ih =>
    cases hb with
    | traversal g1 g2 g3 => exact (trav_pass h g1 h1 g2 h2).elim
    | pass g1 g2 g3 => cases same_pass h h1 g1 h2 g2; rw [ih g3]
    | phase g1 g2 _ _ => exact (phase_pass h g1 h1 g2 h2).elim
  | phase h1 h2 _ _ ih1 ih2 =>
    cases hb with
    | traversal g1 g2 g3 => exact (phase_trav h h1 g1 h2 g2).elim
    | pass g1 g2 g3 => exact (phase_pass h h1 g1 h2 g2).elim
    | phase g1 g2 g3 g4 => cases same_phase h h1 g1 h2 g2; rw [ih1 g3, ih2 g4]

/-- The occurrences of a compiler and those of a program. -/
inductive Tied (A : Parse.Ast) : Tree → Acts Lab → Prop where
  | nil : Tied A .nil .nil
  | leaf {n : Id} {u : Option Id} {name : CStr} {l : Lab} {T : Tree} {a : Acts Lab} : Does A (.leaf n u) l → Tied A T a →
      Tied A (.leaf n u T) (.leaf name l a)
  | phase {q : Nat} {n : Id} {u : Option Id} {B : Tree} {name : CStr} {g : Option Lab} {c : Bool} {T : Tree} {b a : Acts Lab} :
      (∀ l, g = some l → Gates A (.phase q n u B) l) → Tied A B b → Tied A T a → Tied A (.phase q n u B T) (.phase name g c b a)

theorem program_of {ns : List Parse.Name} {T : Tree} (h : Spec.Unpack.Acts A ns T) : ∃ a, Program A ns a ∧ Tied A T a := by
  induction h with
  | nil => exact ⟨.nil, .nil, .nil⟩
  | traversal h1 h2 _ ih =>
    obtain ⟨a, h3, h4⟩ := ih
    exact ⟨_, .traversal h1 h2 h3, .leaf (Or.inr ⟨_, h1, rfl, rfl⟩) h4⟩
  | pass h1 h2 _ ih =>
    obtain ⟨a, h3, h4⟩ := ih
    exact ⟨_, .pass h1 h2 h3, .leaf (Or.inl ⟨_, h1, rfl, rfl⟩) h4⟩
  | @phase n rest q p B T h1 h2 _ _ ih1 ih2 =>
    obtain ⟨b, h3, h4⟩ := ih1
    obtain ⟨a, h5, h6⟩ := ih2
    refine ⟨_, .phase (List.mem_of_getElem? h1) h2 h3 h5, .phase (fun l hl => ?_) h4 h6⟩
    obtain ⟨g, hg, rfl⟩ := Option.map_eq_some_iff.1 hl
    exact ⟨q, p, g, B, h1, hg, rfl, rfl⟩

/-- What an occurrence of the program has to do with one of the compiler. -/
def TiedItem (A : Parse.Ast) (y : Item) : Spec.PD.Node Lab → Prop
  | .leaf _ l => Does A y l
  | .phase _ g _ => (∃ q n u b, y = .phase q n u b) ∧ ∀ l, g = some l → Gates A y l

theorem tied_occ {T : Tree} {a : Acts Lab} (h : Tied A T a) : (Spec.PD.pre a).length = (occ T).length ∧
    ∀ (i : Nat) z, (Spec.PD.pre a)[i]? = some z → ∃ y, (occ T)[i]? = some y ∧ TiedItem A y z := by
  induction h with
  | nil => exact ⟨rfl, fun i z hz => by simp [Spec.PD.pre] at hz⟩
  | leaf hd _ ih =>
    refine ⟨by simp [Spec.PD.pre, occ, ih.1], fun i z hz => ?_⟩
    cases i with
    | zero => cases hz; exact ⟨_, rfl, hd⟩
    | succ i =>
      obtain ⟨y, h1, h2⟩ := ih.2 i z (by simpa [Spec.PD.pre] using hz)
      exact ⟨y, by simpa [occ] using h1, h2⟩
  | @phase q n u B name g c T b a hg _ _ ih1 ih2 =>
    refine ⟨by simp [Spec.PD.pre, occ, ih1.1, ih2.1], fun i z hz => ?_⟩
    cases i with
    | zero => cases hz; exact ⟨_, rfl, ⟨⟨_, _, _, _, rfl⟩, hg⟩⟩
    | succ i =>
      simp only [Spec.PD.pre, List.getElem?_cons_succ] at hz
      simp only [occ, List.getElem?_cons_succ]
      by_cases hi : i < (Spec.PD.pre b).length
      · rw [List.getElem?_append_left hi] at hz
        obtain ⟨y, h1, h2⟩ := ih1.2 i z hz
        exact ⟨y, by rw [List.getElem?_append_left (by rw [← ih1.1]; exact hi)]; exact h1, h2⟩
      · rw [List.getElem?_append_right (by omega)] at hz
        obtain ⟨y, h1, h2⟩ := ih2.2 _ z hz
        exact ⟨y, by rw [List.getElem?_append_right (by rw [← ih1.1]; omega), ← ih1.1]; exact h1, h2⟩

end

/-! ### Runs that are guarded by the check -/

section
variable {ι W : Type}

/-- The check is not turned off. -/
def Keeps (f : Drv W → R ι W) : Prop := ∀ d, d.treeCheck = true → (f d).out = .run → (f d).d.treeCheck = true

/-- The same as long as the check is on. -/
def Same (f g : Drv W → R ι W) : Prop := ∀ d, d.treeCheck = true → f d = g d

theorem bind_run {r : R ι W} {f : Drv W → R ι W} (h : (r.bind f).out = .run) :
    r.out = .run ∧ (f r.d).out = .run ∧ (r.bind f).d = (f r.d).d := by
  unfold R.bind at h ⊢
  cases hr : r.out <;> simp only [hr] at h ⊢
  · exact ⟨trivial, h, trivial⟩
  all_goals cases h

theorem bind_keeps {f g : Drv W → R ι W} (hf : Keeps f) (hg : Keeps g) : Keeps fun d => (f d).bind g := by
  intro d hd hr
  obtain ⟨h1, h2, h3⟩ := bind_run hr
  simp only [h3]
  exact hg _ (hf d hd h1) h2

theorem bind_same {f f' g g' : Drv W → R ι W} (h1 : Same f f') (hf : Keeps f) (h2 : Same g g') :
    Same (fun d => (f d).bind g) fun d => (f' d).bind g' := by
  intro d hd
  simp only [← h1 d hd]
  unfold R.bind
  cases h : (f d).out <;> simp only []
  rw [h2 _ (hf d hd h)]

/-- User code that never turns the check off, and another one that is the same for trees that pass the check. -/
structure Agrees (S S' : Sem ι W) : Prop where
  check : S.check = S'.check
  gate : S.gate = S'.gate
  leaf : ∀ lab w n, S.check w n = false → S.leaf lab w n = S'.leaf lab w n
  on : ∀ lab w n, S.check w n = false → Call.setTreeCheck false ∉ (S.leaf lab w n).calls

variable {S S' : Sem ι W}

theorem calls_on : ∀ (cs : List Call) (d : Drv W), Call.setTreeCheck false ∉ cs → d.treeCheck = true →
    (cs.foldl applyCall d).treeCheck = true
  | [], _, _, h => h
  | c :: cs, d, hc, h => by
    rw [List.foldl_cons]
    refine calls_on cs _ (fun hm => hc (List.mem_cons_of_mem _ hm)) ?_
    cases c with
    | setTreeCheck on =>
      cases on with
      | true => rfl
      | false => exact absurd List.mem_cons_self hc
    | _ => exact h

theorem finish_keeps (name : CStr) (i : Nat) : Keeps (finish (ι := ι) (W := W) name i) := by
  intro d hd hr
  simp only [finish] at hr ⊢
  repeat' split
  all_goals first | exact hd | simp_all

/-- What a normal start tells. -/
theorem begin_run {d : Drv W} (hd : d.treeCheck = true) (hr : (begin S d).out = .run) :
    (begin S d).d.treeCheck = true ∧ S.check (begin S d).d.world (begin S d).d.actionId = false := by
  simp only [begin, hd, ite_true] at hr ⊢
  refine ⟨trivial, ?_⟩
  split at hr
  · cases hr
  · rename_i h; simpa using h

theorem leaf_same (h : Agrees S S') (name : CStr) (lab : ι) : Same (dispatchLeaf S name lab) (dispatchLeaf S' name lab) ∧
    Keeps (dispatchLeaf S name lab) := by
  have hb : begin S = begin S' := by funext d; simp only [begin, h.check]
  constructor
  · intro d hd
    simp only [dispatchLeaf, ← hb]
    unfold R.bind
    cases hr : (begin S d).out <;> simp only []
    obtain ⟨_, hc⟩ := begin_run hd hr
    simp only [runLeaf, h.leaf _ _ _ hc]
  · intro d hd hr
    simp only [dispatchLeaf] at hr ⊢
    obtain ⟨h1, h2, h3⟩ := bind_run hr
    obtain ⟨g1, g2⟩ := begin_run hd h1
    rw [h3]
    obtain ⟨h4, h5, h6⟩ := bind_run h2
    rw [h6]
    exact finish_keeps _ _ _ (calls_on _ _ (h.on _ _ _ g2) g1) h5

theorem loop_same {body body' : Drv W → R ι W} (h1 : Same body body') (h2 : Keeps body) (cycle : Bool) (id n : Nat) :
    Same (loop cycle id body n) (loop cycle id body' n) ∧ Keeps (loop cycle id body n) := by
  have hs : Keeps (startRound (ι := ι) (W := W) id) := fun d hd _ => hd
  induction n with
  | zero => exact ⟨fun d _ => rfl, fun d _ hr => by cases hr⟩
  | succ n ih =>
    constructor
    · intro d hd
      simp only [loop]
      refine bind_same (f := fun d => (startRound id d).bind body) (f' := fun d => (startRound id d).bind body')
        (bind_same (fun _ _ => rfl) hs h1) (bind_keeps hs h2) (fun d hd => ?_) d hd
      cases again cycle (countRound d) with
      | true => exact ih.1 _ hd
      | false => rfl
    · intro d hd hr
      simp only [loop] at hr ⊢
      refine bind_keeps (f := fun d => (startRound id d).bind body) (bind_keeps hs h2) (fun d hd hr => ?_) d hd hr
      cases ha : again cycle (countRound d) with
      | true => rw [ha] at hr; exact ih.2 _ hd hr
      | false => exact hd

theorem open_same {run run' : Drv W → R ι W} (h1 : Same run run') (h2 : Keeps run) (fuel : Nat) (name : CStr) (cycle : Bool) :
    Same (openPhase fuel name cycle run) (openPhase fuel name cycle run') ∧ Keeps (openPhase fuel name cycle run) := by
  have hi : ∀ (new : Option CStr) (d : Drv W), (inside new d).treeCheck = d.treeCheck := by intro new d; cases new <;> rfl
  have hl : ∀ new old, Keeps (leave (ι := ι) (W := W) new old) := by
    intro new old d hd hr
    simp only [leave] at hr ⊢
    split
    · exact hd
    · cases new <;> exact hd
  constructor
  · intro d hd
    simp only [openPhase]
    split
    · rename_i new _
      rw [(loop_same h1 h2 cycle d.actionId fuel).1 _ (by rw [hi]; exact hd)]
    · rfl
  · intro d hd hr
    simp only [openPhase] at hr ⊢
    split at hr
    · rename_i new hn
      obtain ⟨g1, g2, g3⟩ := bind_run hr
      rw [g3]
      exact hl _ _ _ ((loop_same h1 h2 cycle d.actionId fuel).2 _ (by rw [hi]; exact hd) g1) g2
    · cases hr

theorem start_same (h : Agrees S S') {run run' : Drv W → R ι W} (h1 : Same run run') (h2 : Keeps run) (fuel : Nat) (name : CStr)
    (gate : Option ι) (cycle : Bool) (acts : Acts ι) :
    Same (startPhase S fuel name gate cycle acts run) (startPhase S' fuel name gate cycle acts run') ∧
      Keeps (startPhase S fuel name gate cycle acts run) := by
  have hg : ∀ d : Drv W, gateOpen S gate d = gateOpen S' gate d := by intro d; cases gate <;> simp only [gateOpen, h.gate]
  have hk : ∀ d : Drv W, (gateOpen S gate d).1.treeCheck = d.treeCheck := by intro d; cases gate <;> rfl
  constructor
  · intro d hd
    simp only [startPhase, ← hg]
    split
    · simp only [R.bind]
      rw [(open_same h1 h2 fuel name cycle).1 _ (by rw [hk]; exact hd)]
    · rfl
  · intro d hd hr
    simp only [startPhase] at hr ⊢
    split at hr
    · rename_i ho
      rw [if_pos ho]
      obtain ⟨g1, g2, g3⟩ := bind_run hr
      rw [g3]
      exact (open_same h1 h2 fuel name cycle).2 _ (by rw [hk]; exact hd) g2
    · rename_i ho
      rw [if_neg ho]
      simp only []
      rw [hk]
      exact hd

theorem phase_same (h : Agrees S S') {run run' : Drv W → R ι W} (h1 : Same run run') (h2 : Keeps run) (fuel : Nat) (name : CStr)
    (gate : Option ι) (cycle : Bool) (acts : Acts ι) :
    Same (dispatchPhase S fuel name gate cycle acts run) (dispatchPhase S' fuel name gate cycle acts run') ∧
      Keeps (dispatchPhase S fuel name gate cycle acts run) := by
  have hb : begin S = begin S' := by funext d; simp only [begin, h.check]
  have hs := start_same h h1 h2 fuel name gate cycle acts
  have hm : ∀ b, Keeps (mergeError (ι := ι) (W := W) b) := fun b d hd _ => hd
  constructor
  · intro d hd
    simp only [dispatchPhase, ← hb]
    unfold R.bind
    cases hr : (begin S d).out <;> simp only []
    obtain ⟨g1, _⟩ := begin_run hd hr
    rw [hs.1 _ (by exact g1)]
  · intro d hd hr
    simp only [dispatchPhase] at hr ⊢
    obtain ⟨g1, g2, g3⟩ := bind_run hr
    rw [g3]
    obtain ⟨k1, _⟩ := begin_run hd g1
    obtain ⟨g4, g5, g6⟩ := bind_run g2
    rw [g6]
    obtain ⟨g7, g8, g9⟩ := bind_run g4
    refine finish_keeps _ _ _ ?_ g5
    rw [g9]
    exact hm _ _ (hs.2 _ (by exact k1) g7) g8

theorem acts_same (h : Agrees S S') (fuel : Nat) : ∀ a : Acts ι, Same (runActs S fuel a) (runActs S' fuel a) ∧ Keeps (runActs S fuel a)
  | .nil => ⟨fun _ _ => rfl, fun _ hd _ => hd⟩
  | .leaf name lab a => by
    obtain ⟨h1, h2⟩ := leaf_same h name lab
    obtain ⟨h3, h4⟩ := acts_same h fuel a
    constructor
    · intro d hd; exact bind_same h1 h2 h3 d hd
    · intro d hd hr; exact bind_keeps h2 h4 d hd hr
  | .phase name gate cycle b a => by
    obtain ⟨g1, g2⟩ := acts_same h fuel b
    obtain ⟨h1, h2⟩ := phase_same h g1 g2 fuel name gate cycle b
    obtain ⟨h3, h4⟩ := acts_same h fuel a
    constructor
    · intro d hd; exact bind_same h1 h2 h3 d hd
    · intro d hd hr; exact bind_keeps h2 h4 d hd hr

theorem run_same (h : Agrees S S') (fuel : Nat) (name : CStr) (gate : Option ι) (cycle : Bool) (b : Acts ι) {d : Drv W}
    (hd : d.treeCheck = true) : PD.CCNrun S fuel name gate cycle b d = PD.CCNrun S' fuel name gate cycle b d :=
  (phase_same h (acts_same h fuel b).1 (acts_same h fuel b).2 fuel name gate cycle b).1 _ hd

end

end Verif.Compiled
