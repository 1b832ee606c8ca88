import Verif.Spec.Unwrap
import Verif.Lemmas.Sets

/-!
# Lemmas about set-expression resolution
-/

namespace Verif.Unwrap
open Verif.Str Verif.Ids Verif.Sets Verif.Grammar Verif.Spec.Str Verif.Spec.Ids Verif.Spec.Sets Verif.Spec.Unwrap

/-- Meaning of an operator. -/
def opSem : Op → (CStr → Prop) → (CStr → Prop) → CStr → Prop
  | .union, A, B, n => A n ∨ B n
  | .inter, A, B, n => A n ∧ B n
  | .diff, A, B, n => A n ∧ ¬ B n

/-- Meaning of an expression if `D k` is the meaning of nodeset `k` and names stand for positions. -/
def sem (D : Nat → CStr → Prop) (idx : Id → Nat) : Expr → CStr → Prop
  | .lit names, n => ∃ i ∈ names, SameName i.orig n
  | .ref i, n => D (idx i) n
  | .op o l r, n => opSem o (sem D idx l) (sem D idx r) n

/-- The pointer holds the literal of the set `S`, in the blocks `F`. -/
def Done (st : St) (p : Option Nat) (S : CStr → Prop) (F : Nat → Prop) : Prop :=
  match p with
  | none => (∀ n, ¬ S n) ∧ ∀ x, ¬ F x
  | some a => (∃ t, st.cells a = some (.lit t) ∧ Valid st.sets t ∧ ∀ n, Has t n ↔ S n) ∧ ∀ x, F x ↔ x = a

/-- The expression is stored at the address, in the blocks `F`. -/
def Laid (st : St) : Expr → Nat → (Nat → Prop) → Prop
  | .lit names, a, F => Done st (some a) (fun n => ∃ i ∈ names, SameName i.orig n) F
  | .ref i, a, F => st.cells a = some (.ref i) ∧ ∀ x, F x ↔ x = a
  | .op o l r, a, F => ∃ la ra FL FR, st.cells a = some (.op o (some la) (some ra)) ∧ Laid st l la FL ∧
      Laid st r ra FR ∧ (∀ x, FL x → ¬ FR x) ∧ ¬ FL a ∧ ¬ FR a ∧ ∀ x, F x ↔ x = a ∨ FL x ∨ FR x

theorem Done.congr {st p S S' F} (h : Done st p S F) (hS : ∀ n, S n ↔ S' n) : Done st p S' F := by
  cases p with
  | none => exact ⟨fun n hn => h.1 n ((hS n).2 hn), h.2⟩
  | some a =>
    obtain ⟨⟨t, h1, h2, h3⟩, h4⟩ := h
    exact ⟨⟨t, h1, h2, fun n => (h3 n).trans (hS n)⟩, h4⟩

theorem Done.move {st st' p S F} (h : Done st p S F) (hs : st.sets ≤ st'.sets)
    (hc : ∀ x, F x → st'.cells x = st.cells x) : Done st' p S F := by
  cases p with
  | none => exact h
  | some a =>
    obtain ⟨⟨t, h1, h2, h3⟩, h4⟩ := h
    exact ⟨⟨t, by rw [hc a ((h4 a).2 rfl)]; exact h1, h2.mono hs, h3⟩, h4⟩

theorem Laid.move {st st' e a F} (h : Laid st e a F) (hs : st.sets ≤ st'.sets)
    (hc : ∀ x, F x → st'.cells x = st.cells x) : Laid st' e a F := by
  induction e generalizing a F with
  | lit names => exact Done.move h hs hc
  | ref i => exact ⟨by rw [hc a ((h.2 a).2 rfl)]; exact h.1, h.2⟩
  | op o l r ihl ihr =>
    obtain ⟨la, ra, FL, FR, h1, h2, h3, h4, h5, h6, h7⟩ := h
    exact ⟨la, ra, FL, FR, by rw [hc a ((h7 a).2 (Or.inl rfl))]; exact h1,
      ihl h2 (fun x hx => hc x ((h7 x).2 (Or.inr (Or.inl hx)))),
      ihr h3 (fun x hx => hc x ((h7 x).2 (Or.inr (Or.inr hx)))), h4, h5, h6, h7⟩

theorem Done.litAt {st p S F} (h : Done st p S F) : ∃ t, litAt st p = .ok t ∧ Valid st.sets t ∧ ∀ n, Has t n ↔ S n := by
  cases p with
  | none => exact ⟨.null, rfl, Valid.null _, fun n => ⟨fun hh => absurd hh (has_null n), fun hh => absurd hh (h.1 n)⟩⟩
  | some a =>
    obtain ⟨⟨t, h1, h2, h3⟩, h4⟩ := h
    exact ⟨t, by simp [Unwrap.litAt, h1], h2, h3⟩

theorem newLit_spec (t : Tree) (st : St) (S : CStr → Prop) (hv : Valid st.sets t) (hS : ∀ n, Has t n ↔ S n) :
    ∃ F, Done (newLit t st).2 (newLit t st).1 S F ∧ (∀ x, F x → st.next ≤ x ∧ x < (newLit t st).2.next) ∧
      (∀ x, x < st.next → (newLit t st).2.cells x = st.cells x) ∧ st.next ≤ (newLit t st).2.next ∧
      (newLit t st).2.sets = st.sets ∧ (newLit t st).2.nodesets = st.nodesets := by
  cases t with
  | null =>
    refine ⟨fun _ => False, ⟨fun n hn => has_null n ((hS n).2 hn), fun _ => id⟩, fun _ h => h.elim, fun _ _ => rfl,
      Nat.le_refl _, rfl, rfl⟩
  | node a ia i l r =>
    refine ⟨fun x => x = st.next, ⟨⟨.node a ia i l r, ?_, hv, hS⟩, fun x => Iff.rfl⟩, ?_, ?_, ?_, rfl, rfl⟩
    · simp [newLit, Tree.isNull, alloc]
    · intro x hx
      simp [newLit, Tree.isNull, alloc, hx]
    · intro x hx
      have : x ≠ st.next := by omega
      simp [newLit, Tree.isNull, alloc, this]
    · simp [newLit, Tree.isNull, alloc]

theorem freeCell_spec {a : Nat} {st : St} {c} (h : st.cells a = some c) :
    freeCell a st = .ok { st with cells := fun x => if x = a then none else st.cells x } := by
  simp [freeCell, h]

theorem freeOpt_spec {st p S F} (h : Done st p S F) :
    ∃ st', freeOpt p st = .ok st' ∧ (∀ x, ¬ F x → st'.cells x = st.cells x) ∧ st'.next = st.next ∧
      st'.sets = st.sets ∧ st'.nodesets = st.nodesets := by
  cases p with
  | none => exact ⟨st, rfl, fun _ _ => rfl, rfl, rfl, rfl⟩
  | some a =>
    obtain ⟨⟨t, h1, h2, h3⟩, h4⟩ := h
    refine ⟨_, freeCell_spec h1, ?_, rfl, rfl, rfl⟩
    intro x hx
    have : x ≠ a := fun e => hx ((h4 x).2 e)
    simp [this]

theorem setOp_spec (o : Op) (h : Nat) (l r : Tree) (A B : CStr → Prop) (vl : Valid h l) (vr : Valid h r)
    (hl : ∀ n, Has l n ↔ A n) (hr : ∀ n, Has r n ↔ B n) :
    ∃ t h', setOp o h l r = .ok (t, h') ∧ Valid h' t ∧ h ≤ h' ∧ ∀ n, Has t n ↔ opSem o A B n := by
  cases o with
  | union =>
    obtain ⟨x, e, ok⟩ := union_spec h l r vl vr
    exact ⟨x.new, x.heap, by simp [setOp, e], ok.valid, ok.le, fun n => by rw [ok.mem, hl, hr]; rfl⟩
  | inter =>
    obtain ⟨x, e, ok⟩ := intersect_spec h l r vl vr
    exact ⟨x.new, x.heap, by simp [setOp, e], ok.valid, ok.le, fun n => by rw [ok.mem, hl, hr]; rfl⟩
  | diff =>
    obtain ⟨x, e, ok⟩ := difference_spec h l r vl vr
    exact ⟨x.new, x.heap, by simp [setOp, e], ok.valid, ok.le, fun n => by rw [ok.mem, hl, hr]; rfl⟩

theorem combine_spec {st : St} {a o l r A B F1 F2} (hc : st.cells a = some (.op o l r)) (ha : a < st.next)
    (hl : Done st l A F1) (hr : Done st r B F2) (h12 : ∀ x, F1 x → ¬ F2 x) (h1 : ¬ F1 a) (h2 : ¬ F2 a)
    (b1 : ∀ x, F1 x → x < st.next) (b2 : ∀ x, F2 x → x < st.next) :
    ∃ p st' F', combine a st = .ok (p, st') ∧ Done st' p (opSem o A B) F' ∧
      (∀ x, x ≠ a → ¬ F1 x → ¬ F2 x → x < st.next → st'.cells x = st.cells x) ∧ st.next ≤ st'.next ∧
      st.sets ≤ st'.sets ∧ st'.nodesets = st.nodesets ∧ ∀ x, F' x → st.next ≤ x ∧ x < st'.next := by
  obtain ⟨tl, el, vl, ml⟩ := hl.litAt
  obtain ⟨tr, er, vr, mr⟩ := hr.litAt
  obtain ⟨t, h', es, vt, hle, mt⟩ := setOp_spec o st.sets tl tr A B vl vr ml mr
  obtain ⟨F', d0, f0, c0, n0, s0, k0⟩ := newLit_spec t { st with sets := h' } _ vt mt
  simp only at f0 c0 n0 s0 k0
  have hl' := hl.move (st' := (newLit t { st with sets := h' }).2) (by rw [s0]; exact hle) (fun x hx => c0 x (b1 x hx))
  obtain ⟨st1, e1, c1, n1, s1, k1⟩ := freeOpt_spec hl'
  have hr' := hr.move (st' := st1) (by rw [s1, s0]; exact hle)
    (fun x hx => by rw [c1 x (fun hx' => h12 x hx' hx), c0 x (b2 x hx)])
  obtain ⟨st2, e2, c2, n2, s2, k2⟩ := freeOpt_spec hr'
  have ca : st2.cells a = some (.op o l r) := by rw [c2 a h2, c1 a h1, c0 a ha]; exact hc
  have e3 := freeCell_spec ca
  refine ⟨(newLit t { st with sets := h' }).1, { st2 with cells := fun x => if x = a then none else st2.cells x }, F',
    ?_, ?_, ?_, ?_, ?_, ?_, ?_⟩
  · simp only [combine, hc, el, er, es, Res.bind_ok]
    rw [show newLit t { st with sets := h' } = ((newLit t { st with sets := h' }).1, (newLit t { st with sets := h' }).2)
      from rfl]
    simp only [e1, e2, e3, Res.bind_ok]
  · refine d0.move (by simp only [s2, s1]; exact Nat.le_refl _) ?_
    intro x hx
    have hge := (f0 x hx).1
    have ne : x ≠ a := by omega
    simp only [if_neg ne]
    rw [c2 x (fun h => by have := b2 x h; omega), c1 x (fun h => by have := b1 x h; omega)]
  · intro x hxa hx1 hx2 hx
    simp only [if_neg hxa]
    rw [c2 x hx2, c1 x hx1, c0 x hx]
  · simp only [n2, n1]; exact n0
  · simp only [s2, s1, s0]; exact hle
  · simp only [k2, k1, k0]
  · intro x hx
    simp only [n2, n1]
    exact f0 x hx

theorem copyRef_spec {st : St} {a k c p S G} (hc : st.cells a = some c) (ha : a < st.next)
    (hk : st.nodesets[k]? = some p) (hd : Done st p S G) :
    ∃ q st' F', copyRef a k st = .ok (q, st') ∧ Done st' q S F' ∧
      (∀ x, x ≠ a → x < st.next → st'.cells x = st.cells x) ∧ st.next ≤ st'.next ∧
      st.sets ≤ st'.sets ∧ st'.nodesets = st.nodesets ∧ ∀ x, F' x → st.next ≤ x ∧ x < st'.next := by
  cases p with
  | none =>
    refine ⟨none, { st with cells := fun x => if x = a then none else st.cells x }, fun _ => False, ?_,
      ⟨hd.1, fun _ => id⟩, ?_, Nat.le_refl _, Nat.le_refl _, rfl, fun _ h => h.elim⟩
    · simp [copyRef, hk, freeCell_spec hc]
    · intro x hx _
      simp [hx]
  | some b =>
    obtain ⟨t, e, v, m⟩ := hd.litAt
    obtain ⟨h1, h2, _⟩ := copySet_spec t st.sets
    have v' := copySet_valid t st.sets v
    obtain ⟨F', d0, f0, c0, n0, s0, k0⟩ := newLit_spec (copySet st.sets t).1 { st with sets := (copySet st.sets t).2 } S v'
      (fun n => by rw [← m n]; simp only [Has, h1])
    simp only at f0 c0 n0 s0 k0
    have ca : (newLit (copySet st.sets t).1 { st with sets := (copySet st.sets t).2 }).2.cells a = some c := by
      rw [c0 a ha]; exact hc
    have e3 := freeCell_spec ca
    refine ⟨(newLit (copySet st.sets t).1 { st with sets := (copySet st.sets t).2 }).1,
      { (newLit (copySet st.sets t).1 { st with sets := (copySet st.sets t).2 }).2 with
        cells := fun x => if x = a then none
          else (newLit (copySet st.sets t).1 { st with sets := (copySet st.sets t).2 }).2.cells x }, F', ?_, ?_, ?_, ?_, ?_, ?_, ?_⟩
    · simp only [copyRef, hk, e, Res.bind_ok, e3]
    · refine d0.move (Nat.le_refl _) ?_
      intro x hx
      have ne : x ≠ a := by have := (f0 x hx).1; omega
      simp only [if_neg ne]
    · intro x hxa hx
      simp only [if_neg hxa]
      exact c0 x hx
    · exact n0
    · simp only [s0]; exact h2
    · simp only [k0]
    · exact f0

/-! ## Invariant -/

section
variable (tab : List (Ste Decl)) (es : List Expr) (idx : Id → Nat) (D : Nat → CStr → Prop)

/-- The nodesets that may be read while nodesets from position `b` on are being resolved. -/
def Act (b j : Nat) : Prop := j < es.length ∧ (b ≤ j ∨ ∃ e, es[j]? = some e ∧ IsLit e)

/-- State of a nodeset: resolved, or as parsed. -/
def Slot (st : St) (p : Option Nat) (k : Nat) (F : Nat → Prop) : Prop :=
  Done st p (D k) F ∨ ∃ a e, p = some a ∧ es[k]? = some e ∧ ¬ IsLit e ∧ Laid st e a F

/-- Invariant of the memory; `fp j` are the blocks of nodeset `j`. -/
structure Inv (b : Nat) (st : St) (fp : Nat → Nat → Prop) : Prop where
  len : st.nodesets.length = es.length
  slot : ∀ j, Act es b j → ∃ p, st.nodesets[j]? = some p ∧ Slot es D st p j (fp j)
  below : ∀ j a, Act es b j → fp j a → a < st.next
  disj : ∀ i j a, Act es b i → Act es b j → i ≠ j → fp i a → ¬ fp j a

/-- What resolving may change: the blocks `F`, the nodesets in reach, and fresh blocks. -/
structure Frame (b : Nat) (F : Nat → Prop) (st : St) (fp : Nat → Nat → Prop) (st' : St) (fp' : Nat → Nat → Prop) : Prop where
  cells : ∀ a, a < st.next → ¬ F a → (∀ j, Act es b j → ¬ fp j a) → st'.cells a = st.cells a
  next : st.next ≤ st'.next
  sets : st.sets ≤ st'.sets
  fps : ∀ j a, Act es b j → fp' j a → fp j a ∨ st.next ≤ a
  ns : ∀ j, j < b → st'.nodesets[j]? = st.nodesets[j]?

variable {es idx D tab}

theorem Act.mono {b k j} (hb : b ≤ k) (h : Act es k j) : Act es b j :=
  ⟨h.1, h.2.imp (fun h => Nat.le_trans hb h) id⟩

theorem Slot.move {st st' p k F} (h : Slot es D st p k F) (hs : st.sets ≤ st'.sets)
    (hc : ∀ x, F x → st'.cells x = st.cells x) : Slot es D st' p k F := by
  rcases h with h | ⟨a, e, h1, h2, h3, h4⟩
  · exact Or.inl (h.move hs hc)
  · exact Or.inr ⟨a, e, h1, h2, h3, h4.move hs hc⟩

theorem Inv.weaken {b k st fp} (h : Inv es D b st fp) (hb : b ≤ k) : Inv es D k st fp :=
  ⟨h.len, fun j hj => h.slot j (hj.mono hb), fun j a hj => h.below j a (hj.mono hb),
    fun i j a hi hj => h.disj i j a (hi.mono hb) (hj.mono hb)⟩

/-- The invariant does not depend on cells outside the footprints. -/
theorem Inv.move {b st st' fp} (h : Inv es D b st fp) (hs : st.sets ≤ st'.sets) (hn : st.next ≤ st'.next)
    (hk : st'.nodesets.length = st.nodesets.length) (hns : ∀ j, Act es b j → st'.nodesets[j]? = st.nodesets[j]?)
    (hc : ∀ j x, Act es b j → fp j x → st'.cells x = st.cells x) : Inv es D b st' fp := by
  refine ⟨by rw [hk]; exact h.len, fun j hj => ?_, fun j a hj ha => Nat.lt_of_lt_of_le (h.below j a hj ha) hn, h.disj⟩
  obtain ⟨p, h1, h2⟩ := h.slot j hj
  exact ⟨p, by rw [hns j hj]; exact h1, h2.move hs (fun x hx => hc j x hj hx)⟩

theorem Frame.trans {b F F' st fp st' fp' st'' fp''} (h1 : Frame es b F st fp st' fp') (h2 : Frame es b F' st' fp' st'' fp'')
    (hF : ∀ a, F' a → F a ∨ st.next ≤ a) : Frame es b F st fp st'' fp'' := by
  refine ⟨fun a ha hFa hfa => ?_, Nat.le_trans h1.next h2.next, Nat.le_trans h1.sets h2.sets, fun j a hj ha => ?_, fun j hj => ?_⟩
  · rw [h2.cells a (Nat.lt_of_lt_of_le ha h1.next), h1.cells a ha hFa hfa]
    · intro h
      rcases hF a h with h | h
      · exact hFa h
      · omega
    · intro j hj h
      rcases h1.fps j a hj h with h | h
      · exact hfa j hj h
      · omega
  · rcases h2.fps j a hj ha with h | h
    · exact h1.fps j a hj h
    · exact Or.inr (Nat.le_trans h1.next h)
  · rw [h2.ns j hj, h1.ns j hj]

theorem Frame.keep {b F st fp st' fp' a} (h : Frame es b F st fp st' fp') (ha : a < st.next) (hF : ¬ F a)
    (hf : ∀ j, Act es b j → ¬ fp j a) : st'.cells a = st.cells a := h.cells a ha hF hf

theorem lift {b k st fp st' fp'} (hb : b ≤ k) (hi : Inv es D b st fp) (hi' : Inv es D k st' fp')
    (hf : Frame es k (fun _ => False) st fp st' fp') :
    ∃ fpb, Inv es D b st' fpb ∧ Frame es b (fun _ => False) st fp st' fpb ∧ ∀ i, Act es k i → fpb i = fp' i := by
  classical
  refine ⟨fun i => if Act es k i then fp' i else fp i, ⟨hi'.len, ?_, ?_, ?_⟩, ⟨?_, hf.next, hf.sets, ?_, ?_⟩, ?_⟩
  · intro j hj
    by_cases h : Act es k j
    · simp only [if_pos h]; exact hi'.slot j h
    · simp only [if_neg h]
      obtain ⟨p, h1, h2⟩ := hi.slot j hj
      have hlt : j < k := by
        rcases Nat.lt_or_ge j k with h' | h'
        · exact h'
        · exact absurd ⟨hj.1, Or.inl h'⟩ h
      refine ⟨p, by rw [hf.ns j hlt]; exact h1, h2.move hf.sets ?_⟩
      intro x hx
      refine hf.cells x (hi.below j x hj hx) id ?_
      intro i hi1 hi2
      exact hi.disj i j x (hi1.mono hb) hj (fun e => h (e ▸ hi1)) hi2 hx
  · intro j a hj ha
    by_cases h : Act es k j
    · rw [if_pos h] at ha; exact hi'.below j a h ha
    · rw [if_neg h] at ha; exact Nat.lt_of_lt_of_le (hi.below j a hj ha) hf.next
  · intro i j a h1 h2 hne ha ha'
    by_cases hi1 : Act es k i <;> by_cases hj1 : Act es k j
    · rw [if_pos hi1] at ha; rw [if_pos hj1] at ha'
      exact hi'.disj i j a hi1 hj1 hne ha ha'
    · rw [if_pos hi1] at ha; rw [if_neg hj1] at ha'
      rcases hf.fps i a hi1 ha with h | h
      · exact hi.disj i j a h1 h2 hne h ha'
      · have := hi.below j a h2 ha'; omega
    · rw [if_neg hi1] at ha; rw [if_pos hj1] at ha'
      rcases hf.fps j a hj1 ha' with h | h
      · exact hi.disj i j a h1 h2 hne ha h
      · have := hi.below i a h1 ha; omega
    · rw [if_neg hi1] at ha; rw [if_neg hj1] at ha'
      exact hi.disj i j a h1 h2 hne ha ha'
  · intro a ha hF hfp
    exact hf.cells a ha hF (fun j hj => hfp j (hj.mono hb))
  · intro j a hj ha
    by_cases h : Act es k j
    · rw [if_pos h] at ha; exact hf.fps j a h ha
    · rw [if_neg h] at ha; exact Or.inl ha
  · intro j hj
    exact hf.ns j (Nat.lt_of_lt_of_le hj hb)
  · intro i hi
    simp only [if_pos hi]

variable (tab es idx D)

/-- Resolving the nodesets from position `j` on works. -/
def VOk (j : Nat) : Prop := ∀ st fp, Inv es D j st fp → ∃ st' fp' N, (∀ fuel, N ≤ fuel → visitSet tab fuel j st = .ok st') ∧
  Inv es D j st' fp' ∧ (∀ i, j ≤ i → i < es.length → ∃ p, st'.nodesets[i]? = some p ∧ Done st' p (D i) (fp' i)) ∧
  Frame es j (fun _ => False) st fp st' fp'

/-- All references in the expression stand for nodesets from position `b` on, or for literals. -/
def RefsOk (b : Nat) (e : Expr) : Prop := ∀ i ∈ refs e, target tab i = .ok (idx i) ∧ Act es b (idx i)

variable {tab es idx D}

theorem RefsOk.left {b o l r} (h : RefsOk tab es idx b (.op o l r)) : RefsOk tab es idx b l :=
  fun i hi => h i (List.mem_append_left _ hi)

theorem RefsOk.right {b o l r} (h : RefsOk tab es idx b (.op o l r)) : RefsOk tab es idx b r :=
  fun i hi => h i (List.mem_append_right _ hi)

theorem visit_ref {fuel a i k p st} (hc : st.cells a = some (.ref i)) (ht : target tab i = .ok k)
    (hk : st.nodesets[k]? = some p) : visit tab (fuel + 1) a st = (do
      let u ← unresolved p st
      let st ← match u with
        | true => visitSet tab fuel k st
        | false => .ok st
      copyRef a k st) := by
  rw [visit, hc]
  simp only [ht, Res.bind_ok, hk]
  rfl

theorem visit_ok (b : Nat) (hV : ∀ j, b ≤ j → VOk tab es D j) (e : Expr) (a : Nat) (st : St) (fp : Nat → Nat → Prop)
    (F : Nat → Prop) (hl : Laid st e a F) (hF : ∀ x, F x → x < st.next) (hFd : ∀ j x, Act es b j → fp j x → ¬ F x)
    (hi : Inv es D b st fp) (hr : RefsOk tab es idx b e) :
    ∃ p st' fp' F' N, (∀ fuel, N ≤ fuel → visit tab fuel a st = .ok (p, st')) ∧ Inv es D b st' fp' ∧
      Done st' p (sem D idx e) F' ∧ (∀ x, F' x → x < st'.next) ∧ (∀ j x, Act es b j → fp' j x → ¬ F' x) ∧
      Frame es b F st fp st' fp' ∧ ∀ x, F' x → F x ∨ st.next ≤ x := by
  induction e generalizing a st fp F with
  | lit names =>
    refine ⟨some a, st, fp, F, 1, ?_, hi, hl, hF, hFd, ⟨fun _ _ _ _ => rfl, Nat.le_refl _, Nat.le_refl _,
      fun j a _ h => Or.inl h, fun _ _ => rfl⟩, fun x hx => Or.inl hx⟩
    intro fuel hf
    obtain ⟨n, rfl⟩ : ∃ n, fuel = n + 1 := ⟨fuel - 1, by omega⟩
    obtain ⟨⟨t, h1, _⟩, _⟩ := hl
    rw [visit, h1]
  | ref i =>
    obtain ⟨hc, hFa⟩ := hl
    obtain ⟨ht, hact⟩ := hr i (by simp [refs])
    obtain ⟨p, hk, hs⟩ := hi.slot _ hact
    have ha : a < st.next := hF a ((hFa a).2 rfl)
    have fin : ∀ st1 fp1, Inv es D b st1 fp1 → Frame es b (fun _ => False) st fp st1 fp1 →
        (∃ q, st1.nodesets[idx i]? = some q ∧ Done st1 q (D (idx i)) (fp1 (idx i))) →
        ∃ p st' fp' F', copyRef a (idx i) st1 = .ok (p, st') ∧ Inv es D b st' fp' ∧
          Done st' p (sem D idx (.ref i)) F' ∧ (∀ x, F' x → x < st'.next) ∧ (∀ j x, Act es b j → fp' j x → ¬ F' x) ∧
          Frame es b F st fp st' fp' ∧ ∀ x, F' x → F x ∨ st.next ≤ x := by
      intro st1 fp1 hi1 hf1 ⟨q, hq, hd⟩
      have hna : ∀ j x, Act es b j → fp1 j x → x ≠ a := by
        intro j x hj hx e
        subst e
        rcases hf1.fps j x hj hx with h | h
        · exact hFd j x hj h ((hFa x).2 rfl)
        · omega
      have hc1 : st1.cells a = some (.ref i) := by
        rw [hf1.cells a ha id (fun j hj h => hFd j a hj h ((hFa a).2 rfl))]; exact hc
      obtain ⟨p, st', F', e, hd', c', n', s', k', f'⟩ := copyRef_spec hc1 (Nat.lt_of_lt_of_le ha hf1.next) hq hd
      refine ⟨p, st', fp1, F', e, ?_, hd', fun x hx => (f' x hx).2, ?_, ?_, ?_⟩
      · exact hi1.move s' n' (by rw [k']) (fun j _ => by rw [k'])
          (fun j x hj hx => c' x (hna j x hj hx) (hi1.below j x hj hx))
      · intro j x hj hx hx'
        have := (f' x hx').1
        have := hi1.below j x hj hx
        omega
      · refine ⟨fun x hx hFx hfx => ?_, Nat.le_trans hf1.next n', Nat.le_trans hf1.sets s', hf1.fps, fun j hj => ?_⟩
        · rw [c' x (fun e => hFx ((hFa x).2 e)) (Nat.lt_of_lt_of_le hx hf1.next), hf1.cells x hx id hfx]
        · rw [k', hf1.ns j hj]
      · intro x hx
        exact Or.inr (Nat.le_trans hf1.next (f' x hx).1)
    rcases hs with hs | ⟨a', e', rfl, he, hnl, hlaid⟩
    · obtain ⟨p', st', fp', F', e, rest⟩ := fin st fp hi ⟨fun _ _ _ _ => rfl, Nat.le_refl _, Nat.le_refl _,
        fun j a _ h => Or.inl h, fun _ _ => rfl⟩ ⟨p, hk, hs⟩
      refine ⟨p', st', fp', F', 1, ?_, rest⟩
      intro fuel hf
      obtain ⟨n, rfl⟩ : ∃ n, fuel = n + 1 := ⟨fuel - 1, by omega⟩
      rw [visit_ref hc ht hk]
      have hu : unresolved p st = .ok false := by
        cases p with
        | none => rfl
        | some x =>
          obtain ⟨⟨t, h1, _⟩, _⟩ := hs
          simp [unresolved, h1]
      simp only [hu, Res.bind_ok, e]
    · have hb : b ≤ idx i := by
        rcases hact.2 with h | ⟨e2, h1, h2⟩
        · exact h
        · rw [he] at h1; cases h1; exact absurd h2 hnl
      obtain ⟨st1, fp1, N, hv, hi1, hd1, hf1⟩ := hV _ hb st fp (hi.weaken hb)
      obtain ⟨fpb, hib, hfb, heq⟩ := lift hb hi hi1 hf1
      obtain ⟨q, hq, hqd⟩ := hd1 (idx i) (Nat.le_refl _) hact.1
      obtain ⟨p', st', fp', F', e, rest⟩ := fin st1 fpb hib hfb
        ⟨q, hq, by rw [heq _ ⟨hact.1, Or.inl (Nat.le_refl _)⟩]; exact hqd⟩
      refine ⟨p', st', fp', F', N + 1, ?_, rest⟩
      intro fuel hf
      obtain ⟨n, rfl⟩ : ∃ n, fuel = n + 1 := ⟨fuel - 1, by omega⟩
      rw [visit_ref hc ht hk]
      have hu : unresolved (some a') st = .ok true := by
        cases e' with
        | lit _ => exact absurd trivial hnl
        | ref _ => simp [unresolved, hlaid.1]
        | op _ _ _ =>
          obtain ⟨la, ra, FL, FR, h1, _⟩ := hlaid
          simp [unresolved, h1]
      simp only [hu, Res.bind_ok, hv n (by omega), e]
  | op o l r ihl ihr =>
    obtain ⟨la, ra, FL, FR, hc, hll, hlr, hd, haL, haR, hFx⟩ := hl
    have ha : a < st.next := hF a ((hFx a).2 (Or.inl rfl))
    have hLF : ∀ x, FL x → F x := fun x h => (hFx x).2 (Or.inr (Or.inl h))
    have hRF : ∀ x, FR x → F x := fun x h => (hFx x).2 (Or.inr (Or.inr h))
    obtain ⟨p1, st1, fp1, F1, N1, hv1, hi1, hd1, hb1, hdis1, hf1, hF1⟩ := ihl la st fp FL hll (fun x h => hF x (hLF x h))
      (fun j x hj hx h => hFd j x hj hx (hLF x h)) hi hr.left
    have keep1 : ∀ x, F x → ¬ FL x → st1.cells x = st.cells x := fun x hx hx' =>
      hf1.cells x (hF x hx) hx' (fun j hj h => hFd j x hj h hx)
    have hfd1 : ∀ j x, Act es b j → fp1 j x → ¬ F x := by
      intro j x hj hx h
      rcases hf1.fps j x hj hx with h' | h'
      · exact hFd j x hj h' h
      · have := hF x h; omega
    have hc1 : st1.cells a = some (.op o (some la) (some ra)) := by
      rw [keep1 a ((hFx a).2 (Or.inl rfl)) haL]; exact hc
    -- store the left operand
    have hi2 : Inv es D b (put a (.op o p1 (some ra)) st1) fp1 := by
      refine hi1.move (Nat.le_refl _) (Nat.le_refl _) rfl (fun _ _ => rfl) ?_
      intro j x hj hx
      have : x ≠ a := fun e => hfd1 j x hj hx ((hFx x).2 (Or.inl e))
      simp [put, this]
    have hlr2 : Laid (put a (.op o p1 (some ra)) st1) r ra FR := by
      refine hlr.move hf1.sets ?_
      intro x hx
      have : x ≠ a := fun e => haR (e ▸ hx)
      simp only [put, this, if_false]
      exact keep1 x (hRF x hx) (fun h => hd x h hx)
    obtain ⟨p2, st3, fp3, F2, N2, hv3, hi3, hd3, hb3, hdis3, hf3, hF3⟩ := ihr ra _ fp1 FR hlr2
      (fun x h => Nat.lt_of_lt_of_le (hF x (hRF x h)) hf1.next) (fun j x hj hx h => hfd1 j x hj hx (hRF x h)) hi2 hr.right
    have hn3 : st1.next ≤ st3.next := hf3.next
    have ha1 : a < st1.next := Nat.lt_of_lt_of_le ha hf1.next
    have hc3 : st3.cells a = some (.op o p1 (some ra)) := by
      rw [hf3.cells a ha1 haR (fun j hj h => hfd1 j a hj h ((hFx a).2 (Or.inl rfl)))]
      simp [put]
    have hfd3 : ∀ j x, Act es b j → fp3 j x → ¬ F x := by
      intro j x hj hx h
      rcases hf3.fps j x hj hx with h' | h'
      · exact hfd1 j x hj h' h
      · have := hF x h
        have := hf1.next
        simp only [put] at h'
        omega
    -- the left operand survives
    have h1a : ¬ F1 a := by
      intro h
      rcases hF1 a h with h | h
      · exact haL h
      · omega
    have h2a : ¬ F2 a := by
      intro h
      rcases hF3 a h with h | h
      · exact haR h
      · simp only [put] at h; omega
    have h1R : ∀ x, F1 x → ¬ FR x := by
      intro x h h'
      rcases hF1 x h with h | h
      · exact hd x h h'
      · have := hF x (hRF x h'); omega
    have h12 : ∀ x, F1 x → ¬ F2 x := by
      intro x h h'
      rcases hF3 x h' with h' | h'
      · exact h1R x h h'
      · have := hb1 x h
        simp only [put] at h'; omega
    have hd1' : Done (put a (.op o p1 p2) st3) p1 (sem D idx l) F1 := by
      refine hd1.move (Nat.le_trans (Nat.le_refl _) hf3.sets) ?_
      intro x hx
      have hne : x ≠ a := fun e => h1a (e ▸ hx)
      simp only [put, hne, if_false]
      rw [hf3.cells x (hb1 x hx) (h1R x hx) (fun j hj h => hdis1 j x hj h hx)]
      simp [put, hne]
    have hd3' : Done (put a (.op o p1 p2) st3) p2 (sem D idx r) F2 := by
      refine hd3.move (Nat.le_refl _) ?_
      intro x hx
      have hne : x ≠ a := fun e => h2a (e ▸ hx)
      simp [put, hne]
    have hc4 : (put a (.op o p1 p2) st3).cells a = some (.op o p1 p2) := by simp [put]
    obtain ⟨p, st', F', e, hd', c', n', s', k', f'⟩ := combine_spec hc4 (by simp only [put]; omega) hd1' hd3' h12 h1a h2a
      (fun x hx => Nat.lt_of_lt_of_le (hb1 x hx) hn3) hb3
    simp only [put] at n' s' k' f'
    refine ⟨p, st', fp3, F', max N1 N2 + 1, ?_, ?_, hd', fun x hx => (f' x hx).2, ?_, ?_, ?_⟩
    · intro fuel hfu
      obtain ⟨n, rfl⟩ : ∃ n, fuel = n + 1 := ⟨fuel - 1, by omega⟩
      rw [visit, hc]
      simp only [opt, hv1 n (by omega), Res.bind_ok, setLeft, hc1, rightOf]
      have hp : (put a (.op o p1 (some ra)) st1).cells a = some (.op o p1 (some ra)) := by simp [put]
      simp only [hp, Res.bind_ok, hv3 n (by omega), setRight, hc3, e]
    · refine hi3.move s' n' (by rw [k']) (fun j _ => by rw [k']) ?_
      intro j x hj hx
      have hne : x ≠ a := fun e => hfd3 j x hj hx ((hFx x).2 (Or.inl e))
      rw [c' x hne (fun h => ?_) (hdis3 j x hj hx) (hi3.below j x hj hx)]
      · simp [put, hne]
      · rcases hf3.fps j x hj hx with h' | h'
        · exact hdis1 j x hj h' h
        · have := hb1 x h; simp only [put] at h'; omega
    · intro j x hj hx hx'
      have := (f' x hx').1
      have := hi3.below j x hj hx
      omega
    · refine ⟨fun x hx hnF hnf => ?_, Nat.le_trans hf1.next (Nat.le_trans hn3 n'),
        Nat.le_trans hf1.sets (Nat.le_trans hf3.sets s'), fun j x hj hx => ?_, fun j hj => ?_⟩
      · have hne : x ≠ a := fun e => hnF ((hFx x).2 (Or.inl e))
        have hnf1 : ∀ j, Act es b j → ¬ fp1 j x := by
          intro j hj h
          rcases hf1.fps j x hj h with h | h
          · exact hnf j hj h
          · omega
        have hx1 : x < st1.next := Nat.lt_of_lt_of_le hx hf1.next
        rw [c' x hne (fun h => ?_) (fun h => ?_) (Nat.lt_of_lt_of_le hx1 hn3)]
        · simp only [put, hne, if_false]
          rw [hf3.cells x hx1 (fun h => hnF (hRF x h)) hnf1]
          simp only [put, hne, if_false]
          exact hf1.cells x hx (fun h => hnF (hLF x h)) hnf
        · rcases hF1 x h with h | h
          · exact hnF (hLF x h)
          · omega
        · rcases hF3 x h with h | h
          · exact hnF (hRF x h)
          · simp only [put] at h; omega
      · rcases hf3.fps j x hj hx with h | h
        · exact hf1.fps j x hj h
        · simp only [put] at h
          exact Or.inr (Nat.le_trans hf1.next h)
      · rw [k', hf3.ns j hj]
        exact hf1.ns j hj
    · intro x hx
      have := (f' x hx).1
      have := hf1.next
      exact Or.inr (by omega)

theorem set_same {α : Type} (l : List α) (k : Nat) (p : α) (h : l[k]? = some p) : l.set k p = l := by
  apply List.ext_getElem?
  intro i
  rw [List.getElem?_set]
  split
  · rename_i e
    subst e
    split
    · exact h.symm
    · rename_i hl
      rw [List.getElem?_eq_none (by omega)]
  · rfl

theorem visitSet_ok (hR : ∀ k e, es[k]? = some e → ¬ IsLit e → RefsOk tab es idx (k + 1) e)
    (hD : ∀ k e, es[k]? = some e → ∀ n, D k n ↔ sem D idx e n) (m : Nat) : ∀ j, es.length - j ≤ m → VOk tab es D j := by
  induction m with
  | zero =>
    intro j hj st fp hi
    refine ⟨st, fp, 1, ?_, hi, fun i h1 h2 => by omega, ⟨fun _ _ _ _ => rfl, Nat.le_refl _, Nat.le_refl _,
      fun j a _ h => Or.inl h, fun _ _ => rfl⟩⟩
    intro fuel hf
    obtain ⟨n, rfl⟩ : ∃ n, fuel = n + 1 := ⟨fuel - 1, by omega⟩
    have : st.nodesets[j]? = none := List.getElem?_eq_none (by rw [hi.len]; omega)
    rw [visitSet, this]
  | succ m ih =>
    intro j hj st fp hi
    rcases (Nat.lt_or_ge j es.length).symm with hge | hlt
    · exact ih j (by omega) st fp hi
    have hact : Act es j j := ⟨hlt, Or.inl (Nat.le_refl _)⟩
    obtain ⟨p, hp, hs⟩ := hi.slot j hact
    have hsplit : ∀ i, Act es j i → i = j ∨ Act es (j + 1) i := by
      intro i h
      rcases Nat.lt_trichotomy i j with h' | h' | h'
      · rcases h.2 with h2 | h2
        · omega
        · exact Or.inr ⟨h.1, Or.inr h2⟩
      · exact Or.inl h'
      · exact Or.inr ⟨h.1, Or.inl h'⟩
    rcases hs with hs | ⟨a, e, rfl, he, hnl, hlaid⟩
    · -- already resolved
      obtain ⟨st1, fp1, N, hv, hi1, hd1, hf1⟩ := ih (j + 1) (by omega) st fp (hi.weaken (Nat.le_succ j))
      obtain ⟨fpb, hib, hfb, heq⟩ := lift (Nat.le_succ j) hi hi1 hf1
      refine ⟨st1, fpb, N + 2, ?_, hib, ?_, hfb⟩
      · intro fuel hf
        obtain ⟨n, rfl⟩ : ∃ n, fuel = n + 2 := ⟨fuel - 2, by omega⟩
        rw [visitSet, hp]
        have : opt (visit tab (n + 1)) p st = .ok (p, st) := by
          cases p with
          | none => rfl
          | some x =>
            obtain ⟨⟨t, h1, _⟩, _⟩ := hs
            simp only [opt]
            rw [visit, h1]
        simp only [this, Res.bind_ok, set_same _ _ _ hp]
        exact hv (n + 1) (by omega)
      · intro i h1 h2
        rcases Nat.eq_or_lt_of_le h1 with rfl | h1
        · by_cases hL : Act es (j + 1) j
          · obtain ⟨q, hq, hqs⟩ := hib.slot j hact
            refine ⟨q, hq, ?_⟩
            rcases hqs with hqs | ⟨a, e, _, h4, h5, _⟩
            · exact hqs
            · rcases hL.2 with hL | ⟨e', h6, h7⟩
              · omega
              · rw [h4] at h6; cases h6; exact absurd h7 h5
          · obtain ⟨q, hq, hqs⟩ := hib.slot j hact
            have hqp : q = p := by
              rw [hf1.ns j (Nat.lt_succ_self j), hp] at hq
              exact (Option.some.inj hq).symm
            subst hqp
            refine ⟨q, hq, ?_⟩
            rcases hqs with hqs | ⟨a, e, rfl, h4, h5, h6⟩
            · exact hqs
            · -- a literal cell is not an expression as parsed
              exfalso
              obtain ⟨⟨t, h1, _⟩, hx⟩ := hs
              have : st1.cells a = some (.lit t) := by
                rw [hf1.cells a (hi.below j a hact ((hx a).2 rfl)) id
                  (fun i h h' => hi.disj i j a (h.mono (Nat.le_succ j)) hact (fun e => hL (e ▸ h)) h' ((hx a).2 rfl))]
                exact h1
              cases e with
              | lit _ => exact h5 trivial
              | ref _ => have := h6.1; simp_all
              | op _ _ _ =>
                obtain ⟨la, ra, FL, FR, h7, _⟩ := h6
                rw [this] at h7
                cases h7
        · obtain ⟨q, hq, hqd⟩ := hd1 i h1 h2
          exact ⟨q, hq, by rw [heq i ⟨h2, Or.inl h1⟩]; exact hqd⟩
    · -- resolve the expression
      have hnact : ¬ Act es (j + 1) j := by
        rintro ⟨_, h | ⟨e', h1, h2⟩⟩
        · omega
        · rw [he] at h1; cases h1; exact hnl h2
      obtain ⟨p', st1, fp1, F', N1, hv1, hi1, hd1, hb1, hdis1, hf1, hF1⟩ := visit_ok (j + 1)
        (fun i hji => ih i (by omega)) e a st fp (fp j) hlaid (fun x hx => hi.below j x hact hx)
        (fun i x h1 h2 h3 => hi.disj i j x (h1.mono (Nat.le_succ j)) hact (fun e => hnact (e ▸ h1)) h2 h3)
        (hi.weaken (Nat.le_succ j)) (hR j e he hnl)
      have hi2 : Inv es D (j + 1) { st1 with nodesets := st1.nodesets.set j p' } fp1 := by
        refine hi1.move (Nat.le_refl _) (Nat.le_refl _) (by simp) ?_ (fun _ _ _ _ => rfl)
        intro i h1
        have hne : j ≠ i := fun e => hnact (e ▸ h1)
        simp only [List.getElem?_set, hne, if_false]
      obtain ⟨st3, fp3, N2, hv3, hi3, hd3, hf3⟩ := ih (j + 1) (by omega) _ fp1 hi2
      have hd' : Done st3 p' (D j) F' := by
        refine (hd1.congr (fun n => (hD j e he n).symm)).move hf3.sets ?_
        intro x hx
        exact hf3.cells x (hb1 x hx) id (fun i h1 h2 => hdis1 i x h1 h2 hx)
      have hdis3 : ∀ i x, Act es (j + 1) i → fp3 i x → ¬ F' x := by
        intro i x h1 h2 h3
        rcases hf3.fps i x h1 h2 with h | h
        · exact hdis1 i x h1 h h3
        · have := hb1 x h3
          simp only at h; omega
      have hns : st3.nodesets[j]? = some p' := by
        rw [hf3.ns j (Nat.lt_succ_self j)]
        have : j < st1.nodesets.length := by rw [hi1.len]; exact hlt
        simp [this]
      refine ⟨st3, fun i => if i = j then F' else fp3 i, max N1 N2 + 1, ?_, ⟨hi3.len, ?_, ?_, ?_⟩, ?_, ⟨?_, ?_, ?_, ?_, ?_⟩⟩
      · intro fuel hf
        obtain ⟨n, rfl⟩ : ∃ n, fuel = n + 1 := ⟨fuel - 1, by omega⟩
        rw [visitSet, hp]
        simp only [opt, hv1 n (by omega), Res.bind_ok]
        exact hv3 n (by omega)
      · intro i h1
        rcases hsplit i h1 with rfl | h2
        · exact ⟨p', hns, Or.inl (by simpa using hd')⟩
        · have hne : i ≠ j := fun e => hnact (e ▸ h2)
          simp only [hne, if_false]
          exact hi3.slot i h2
      · intro i x h1 h2
        rcases hsplit i h1 with rfl | h3
        · simp only [if_true] at h2
          exact Nat.lt_of_lt_of_le (hb1 x h2) hf3.next
        · have hne : i ≠ j := fun e => hnact (e ▸ h3)
          simp only [hne, if_false] at h2
          exact hi3.below i x h3 h2
      · intro i k x h1 h2 hne h3 h4
        rcases hsplit i h1 with rfl | h1' <;> rcases hsplit k h2 with rfl | h2'
        · exact hne rfl
        · have hn : k ≠ i := fun e => hne e.symm
          simp only [hn, if_true, if_false] at h3 h4
          exact hdis3 k x h2' h4 h3
        · simp only [hne, if_true, if_false] at h3 h4
          exact hdis3 i x h1' h3 h4
        · have hn1 : i ≠ j := fun e => hnact (e ▸ h1')
          have hn2 : k ≠ j := fun e => hnact (e ▸ h2')
          simp only [hn1, hn2, if_false] at h3 h4
          exact hi3.disj i k x h1' h2' hne h3 h4
      · intro i h1 h2
        rcases Nat.eq_or_lt_of_le h1 with rfl | h1
        · exact ⟨p', hns, by simpa using hd'⟩
        · obtain ⟨q, hq, hqd⟩ := hd3 i h1 h2
          have hne : i ≠ j := by omega
          exact ⟨q, hq, by simp only [hne, if_false]; exact hqd⟩
      · intro x hx _ hnf
        have hx1 : x < st1.next := Nat.lt_of_lt_of_le hx hf1.next
        rw [hf3.cells x hx1 id ?_]
        · exact hf1.cells x hx (hnf j hact) (fun i h1 => hnf i (h1.mono (Nat.le_succ j)))
        · intro i h1 h2
          rcases hf1.fps i x h1 h2 with h | h
          · exact hnf i (h1.mono (Nat.le_succ j)) h
          · omega
      · exact Nat.le_trans hf1.next hf3.next
      · exact Nat.le_trans hf1.sets hf3.sets
      · intro i x h1 h2
        rcases hsplit i h1 with rfl | h3
        · simp only [if_true] at h2
          exact hF1 x h2
        · have hne : i ≠ j := fun e => hnact (e ▸ h3)
          simp only [hne, if_false] at h2
          rcases hf3.fps i x h3 h2 with h | h
          · exact hf1.fps i x h3 h
          · exact Or.inr (Nat.le_trans hf1.next h)
      · intro i h1
        rw [hf3.ns i (by omega)]
        have hne : j ≠ i := by omega
        simp only [List.getElem?_set, hne, if_false]
        exact hf1.ns i (by omega)

/-! ## Traversals -/

theorem visitTravs_ok (hV : ∀ j, VOk tab es D j) (ts : List Expr) (ps : List (Option Nat)) (G : Nat → Nat → Prop) (st : St)
    (fp : Nat → Nat → Prop) (hlen : ps.length = ts.length)
    (hl : ∀ j e, ts[j]? = some e → ∃ a, ps[j]? = some (some a) ∧ Laid st e a (G j))
    (hG : ∀ j x, G j x → x < st.next) (hGd : ∀ i j x, i ≠ j → G i x → ¬ G j x)
    (hGf : ∀ i j x, Act es 0 i → fp i x → ¬ G j x)
    (hi : Inv es D 0 st fp) (hr : ∀ e ∈ ts, RefsOk tab es idx 0 e) :
    ∃ (qs : List (Option Nat)) (st' : St) (fp' H : Nat → Nat → Prop) (N : Nat), (∀ fuel, N ≤ fuel → visitTravs tab fuel ps st = .ok (qs, st')) ∧ Inv es D 0 st' fp' ∧
      (∀ j e, ts[j]? = some e → ∃ q, qs[j]? = some q ∧ Done st' q (sem D idx e) (H j) ∧ (∀ x, H j x → x < st'.next) ∧
        ∀ i x, Act es 0 i → fp' i x → ¬ H j x) ∧
      Frame es 0 (fun x => ∃ j, G j x) st fp st' fp' := by
  induction ts generalizing ps G st fp with
  | nil =>
    obtain rfl : ps = [] := List.length_eq_zero_iff.1 hlen
    exact ⟨[], st, fp, fun _ _ => False, 0, fun _ _ => rfl, hi, by simp, ⟨fun _ _ _ _ => rfl, Nat.le_refl _, Nat.le_refl _,
      fun j a _ h => Or.inl h, fun _ _ => rfl⟩⟩
  | cons e ts ih =>
    cases ps with
    | nil => simp at hlen
    | cons p ps =>
      obtain ⟨a, ha, hla⟩ := hl 0 e rfl
      simp only [List.getElem?_cons_zero, Option.some.injEq] at ha
      subst ha
      obtain ⟨q, st1, fp1, F', N1, hv1, hi1, hd1, hb1, hdis1, hf1, hF1⟩ := visit_ok 0 (fun j _ => hV j) e a st fp (G 0) hla
        (fun x h => hG 0 x h) (fun j x h1 h2 => hGf j 0 x h1 h2) hi (hr e (List.mem_cons_self ..))
      obtain ⟨qs, st2, fp2, H, N2, hv2, hi2, hd2, hf2⟩ := ih ps (fun j => G (j + 1)) st1 fp1 (by simpa using hlen)
        (fun j e he => by
          obtain ⟨a, h1, h2⟩ := hl (j + 1) e (by simpa using he)
          refine ⟨a, by simpa using h1, h2.move hf1.sets ?_⟩
          intro x hx
          exact hf1.cells x (hG _ x hx) (hGd (j + 1) 0 x (by omega) hx) (fun i h3 h4 => hGf i _ x h3 h4 hx))
        (fun j x h => Nat.lt_of_lt_of_le (hG _ x h) hf1.next)
        (fun i j x hne => hGd (i + 1) (j + 1) x (by omega))
        (fun i j x h1 h2 h3 => by
          rcases hf1.fps i x h1 h2 with h | h
          · exact hGf i _ x h1 h h3
          · have := hG _ x h3; omega)
        hi1 (fun e he => hr e (List.mem_cons_of_mem _ he))
      have hF'G : ∀ x, F' x → ¬ ∃ j, G (j + 1) x := by
        rintro x h1 ⟨j, h2⟩
        rcases hF1 x h1 with h | h
        · exact hGd 0 (j + 1) x (by omega) h h2
        · have := hG _ x h2; omega
      refine ⟨q :: qs, st2, fp2, fun j => match j with | 0 => F' | j + 1 => H j, max N1 N2, ?_, hi2, ?_, ?_⟩
      · intro fuel hf
        simp only [visitTravs, opt, hv1 fuel (by omega), Res.bind_ok, hv2 fuel (by omega)]
      · intro j e' he
        cases j with
        | zero =>
          simp only [List.getElem?_cons_zero, Option.some.injEq] at he
          subst he
          refine ⟨q, rfl, hd1.move hf2.sets ?_, fun x hx => Nat.lt_of_lt_of_le (hb1 x hx) hf2.next, ?_⟩
          · intro x hx
            exact hf2.cells x (hb1 x hx) (hF'G x hx) (fun i h1 h2 => hdis1 i x h1 h2 hx)
          · intro i x h1 h2 h3
            rcases hf2.fps i x h1 h2 with h | h
            · exact hdis1 i x h1 h h3
            · have := hb1 x h3; omega
        | succ j =>
          obtain ⟨r, h1, h2⟩ := hd2 j e' (by simpa using he)
          exact ⟨r, by simpa using h1, h2⟩
      · have h1 : Frame es 0 (fun x => ∃ j, G j x) st fp st1 fp1 :=
          ⟨fun x h1 h2 h3 => hf1.cells x h1 (fun h => h2 ⟨0, h⟩) h3, hf1.next, hf1.sets, hf1.fps, hf1.ns⟩
        exact h1.trans hf2 (fun x ⟨j, h⟩ => Or.inl ⟨j + 1, h⟩)

/-! ## After parsing -/

theorem load_spec (e : Expr) (st : St) (hw : ∀ i ∈ members e, WfId i) :
    ∃ a st' F, load e st = .ok (a, st') ∧ Laid st' e a F ∧ (∀ x, F x → st.next ≤ x ∧ x < st'.next) ∧
      (∀ x, x < st.next → st'.cells x = st.cells x) ∧ st.next ≤ st'.next ∧ st.sets ≤ st'.sets := by
  induction e generalizing st with
  | lit names =>
    obtain ⟨t, h', e, g⟩ := insertAll_spec names st.sets .null (Valid.null _) hw
    refine ⟨st.next, (alloc (.lit t) { st with sets := h' }).2, fun x => x = st.next, by simp only [load, e, Res.bind_ok]; rfl,
      ⟨⟨t, by simp [alloc], g.valid, fun n => ?_⟩, fun x => Iff.rfl⟩, ?_, ?_, by simp [alloc], g.le⟩
    · rw [g.has hw]
      simp only [has_null, false_or]
    · intro x hx
      simp [alloc, hx]
    · intro x hx
      have : x ≠ st.next := by omega
      simp [alloc, this]
  | ref i =>
    refine ⟨st.next, (alloc (.ref i) st).2, fun x => x = st.next, rfl, ⟨by simp [alloc], fun x => Iff.rfl⟩, ?_, ?_, by simp [alloc],
      Nat.le_refl _⟩
    · intro x hx
      simp [alloc, hx]
    · intro x hx
      have : x ≠ st.next := by omega
      simp [alloc, this]
  | op o l r ihl ihr =>
    obtain ⟨la, st1, FL, e1, l1, f1, c1, n1, s1⟩ := ihl st (fun i hi => hw i (List.mem_append_left _ hi))
    obtain ⟨ra, st2, FR, e2, l2, f2, c2, n2, s2⟩ := ihr st1 (fun i hi => hw i (List.mem_append_right _ hi))
    have hc3 : ∀ x, x < st2.next → (alloc (.op o (some la) (some ra)) st2).2.cells x = st2.cells x := by
      intro x hx
      have : x ≠ st2.next := by omega
      simp [alloc, this]
    refine ⟨st2.next, (alloc (.op o (some la) (some ra)) st2).2, fun x => x = st2.next ∨ FL x ∨ FR x, ?_,
      ⟨la, ra, FL, FR, by simp [alloc], ?_, ?_, ?_, ?_, ?_, fun x => Iff.rfl⟩, ?_, ?_, ?_, ?_⟩
    · simp only [load, e1, e2, Res.bind_ok]; rfl
    · refine l1.move s2 ?_
      intro x hx
      rw [hc3 x (by have := (f1 x hx).2; omega), c2 x (f1 x hx).2]
    · refine l2.move (Nat.le_refl _) ?_
      intro x hx
      exact hc3 x (f2 x hx).2
    · intro x h1 h2
      have := f1 x h1; have := f2 x h2; omega
    · intro h; have := f1 _ h; omega
    · intro h; have := f2 _ h; omega
    · rintro x (rfl | h | h)
      · simp [alloc]; omega
      · have := f1 x h; simp [alloc]; omega
      · have := f2 x h; simp [alloc]; omega
    · intro x hx
      rw [hc3 x (by omega), c2 x (by omega), c1 x hx]
    · simp [alloc]; omega
    · simp only [alloc]; omega

theorem loadAll_spec (es : List Expr) (st : St) (hw : ∀ e ∈ es, ∀ i ∈ members e, WfId i) :
    ∃ (ps : List (Option Nat)) (st' : St) (G : Nat → Nat → Prop), loadAll es st = .ok (ps, st') ∧ ps.length = es.length ∧
      (∀ j e, es[j]? = some e → ∃ a, ps[j]? = some (some a) ∧ Laid st' e a (G j)) ∧
      (∀ j x, G j x → st.next ≤ x ∧ x < st'.next) ∧ (∀ i j x, i ≠ j → G i x → ¬ G j x) ∧
      (∀ x, x < st.next → st'.cells x = st.cells x) ∧ st.next ≤ st'.next ∧ st.sets ≤ st'.sets := by
  induction es generalizing st with
  | nil => exact ⟨[], st, fun _ _ => False, rfl, rfl, by simp, fun _ _ h => h.elim, fun _ _ _ _ h => h.elim, fun _ _ => rfl,
      Nat.le_refl _, Nat.le_refl _⟩
  | cons e es ih =>
    obtain ⟨a, st1, F, e1, l1, f1, c1, n1, s1⟩ := load_spec e st (hw e (List.mem_cons_self ..))
    obtain ⟨ps, st2, G, e2, len, l2, f2, d2, c2, n2, s2⟩ := ih st1 (fun e he => hw e (List.mem_cons_of_mem _ he))
    refine ⟨some a :: ps, st2, fun j => match j with | 0 => F | j + 1 => G j, by simp only [loadAll, e1, e2, Res.bind_ok],
      by simp [len], ?_, ?_, ?_, ?_, Nat.le_trans n1 n2, Nat.le_trans s1 s2⟩
    · intro j e' he
      cases j with
      | zero =>
        simp only [List.getElem?_cons_zero, Option.some.injEq] at he
        subst he
        exact ⟨a, rfl, l1.move s2 (fun x hx => c2 x (f1 x hx).2)⟩
      | succ j => exact l2 j e' (by simpa using he)
    · intro j x hx
      cases j with
      | zero => have := f1 x hx; omega
      | succ j => have := f2 j x hx; omega
    · intro i j x hne hx hy
      cases i with
      | zero =>
        cases j with
        | zero => exact hne rfl
        | succ j => have := f1 x hx; have := f2 j x hy; omega
      | succ i =>
        cases j with
        | zero => have := f1 x hy; have := f2 i x hx; omega
        | succ j => exact d2 i j x (by omega) hx hy
    · intro x hx
      rw [c2 x (by omega), c1 x hx]

theorem USE_ok (ts : List Expr) (hw : ∀ e ∈ es, ∀ i ∈ members e, WfId i) (hwt : ∀ e ∈ ts, ∀ i ∈ members e, WfId i)
    (hR : ∀ k e, es[k]? = some e → ¬ IsLit e → RefsOk tab es idx (k + 1) e) (hRt : ∀ e ∈ ts, RefsOk tab es idx 0 e)
    (hD : ∀ k e, es[k]? = some e → ∀ n, D k n ↔ sem D idx e n) :
    ∃ (qs : List (Option Nat)) (st : St) (N : Nat), (∀ fuel, N ≤ fuel → USEast tab fuel es ts = .ok (qs, st)) ∧
      (∀ (j : Nat) e, ts[j]? = some e → ∃ (q : Option Nat) (t : Tree), qs[j]? = some q ∧ litAt st q = .ok t ∧ Valid st.sets t ∧
        ∀ n, Has t n ↔ sem D idx e n) ∧
      ∀ k : Nat, k < es.length → ∃ (p : Option Nat) (t : Tree), st.nodesets[k]? = some p ∧ litAt st p = .ok t ∧ Valid st.sets t ∧
        ∀ n, Has t n ↔ D k n := by
  obtain ⟨ns, st1, G, e1, len1, l1, f1, d1, _, _, _⟩ := loadAll_spec es {} hw
  obtain ⟨ps, st2, H, e2, len2, l2, f2, d2, c2, n2, s2⟩ := loadAll_spec ts st1 hwt
  have hV : ∀ j, VOk tab es D j := fun j => visitSet_ok hR hD _ j (Nat.le_refl _)
  have hi : Inv es D 0 { st2 with nodesets := ns } G := by
    refine ⟨len1, fun j hj => ?_, fun j a _ ha => Nat.lt_of_lt_of_le (f1 j a ha).2 n2, fun i j a _ _ hne => d1 i j a hne⟩
    obtain ⟨e, he⟩ : ∃ e, es[j]? = some e := ⟨es[j]'hj.1, List.getElem?_eq_getElem hj.1⟩
    obtain ⟨a, h1, h2⟩ := l1 j e he
    have h2' : Laid { st2 with nodesets := ns } e a (G j) := h2.move s2 (fun x hx => c2 x (f1 j x hx).2)
    refine ⟨some a, h1, ?_⟩
    cases e with
    | lit names => exact Or.inl (Done.congr h2' (fun n => (hD j _ he n).symm))
    | ref i => exact Or.inr ⟨a, _, rfl, he, id, h2'⟩
    | op o l r => exact Or.inr ⟨a, _, rfl, he, id, h2'⟩
  obtain ⟨qs, st3, fp3, K, N1, hv3, hi3, hd3, hf3⟩ := visitTravs_ok hV ts ps H { st2 with nodesets := ns } G len2
    (fun j e he => by
      obtain ⟨a, h1, h2⟩ := l2 j e he
      exact ⟨a, h1, h2.move (Nat.le_refl _) (fun _ _ => rfl)⟩)
    (fun j x h => (f2 j x h).2) d2
    (fun i j x _ h1 h2 => by have := f1 i x h1; have := f2 j x h2; omega) hi hRt
  obtain ⟨st4, fp4, N2, hv4, hi4, hd4, hf4⟩ := hV 0 st3 fp3 hi3
  refine ⟨qs, st4, max N1 N2, ?_, ?_, ?_⟩
  · intro fuel hf
    simp only [USEast, parsed, e1, e2, Res.bind_ok, hv3 fuel (by omega), hv4 fuel (by omega)]
  · intro j e he
    obtain ⟨q, h1, h2, h3, h4⟩ := hd3 j e he
    obtain ⟨t, h5, hv, h6⟩ := (h2.move hf4.sets (fun x hx =>
      hf4.cells x (h3 x hx) id (fun i h7 h8 => h4 i x h7 h8 hx))).litAt
    exact ⟨q, t, h1, h5, hv, h6⟩
  · intro k hk
    obtain ⟨p, h1, h2⟩ := hd4 k (Nat.zero_le _) hk
    obtain ⟨t, h5, hv, h6⟩ := h2.litAt
    exact ⟨p, t, h1, h5, hv, h6⟩

end

/-! ## Denotation -/

theorem Den.unique {env e S S'} (hu : ∀ x ∈ env, ∀ y ∈ env, SameName x.1.orig y.1.orig → x = y) (h : Den env e S)
    (h' : Den env e S') (n : CStr) : S n ↔ S' n := by
  induction h generalizing S' with
  | lit names => cases h'; exact Iff.rfl
  | ref hx hs _ ih =>
    cases h' with
    | ref hx' hs' hd' =>
      obtain rfl := hu _ hx _ hx' (Eq.trans hs (Eq.symm hs'))
      exact ih hd'
  | union _ _ ih1 ih2 =>
    cases h' with
    | union h1 h2 => simp only [ih1 h1, ih2 h2]
  | inter _ _ ih1 ih2 =>
    cases h' with
    | inter h1 h2 => simp only [ih1 h1, ih2 h2]
  | diff _ _ ih1 ih2 =>
    cases h' with
    | diff h1 h2 => simp only [ih1 h1, ih2 h2]

/-- Meaning of nodeset `k`. -/
def denAt (env : List (Id × Expr)) (k : Nat) (n : CStr) : Prop := ∃ x S, env[k]? = some x ∧ Den env x.2 S ∧ S n

theorem den_exists (env : List (Id × Expr)) (e : Expr)
    (h : ∀ i ∈ refs e, ∃ x ∈ env, SameName x.1.orig i.orig ∧ ∃ S, Den env x.2 S) : ∃ S, Den env e S := by
  induction e with
  | lit names => exact ⟨_, .lit names⟩
  | ref i =>
    obtain ⟨x, h1, h2, S, h3⟩ := h i (by simp [refs])
    exact ⟨S, .ref h1 h2 h3⟩
  | op o l r ihl ihr =>
    obtain ⟨A, hA⟩ := ihl (fun i hi => h i (List.mem_append_left _ hi))
    obtain ⟨B, hB⟩ := ihr (fun i hi => h i (List.mem_append_right _ hi))
    cases o
    · exact ⟨_, .union hA hB⟩
    · exact ⟨_, .inter hA hB⟩
    · exact ⟨_, .diff hA hB⟩

theorem den_sem {env e S} (idx : Id → Nat) (hu : ∀ x ∈ env, ∀ y ∈ env, SameName x.1.orig y.1.orig → x = y)
    (hidx : ∀ i ∈ refs e, ∃ x, env[idx i]? = some x ∧ SameName x.1.orig i.orig)
    (h : Den env e S) (n : CStr) : S n ↔ sem (denAt env) idx e n := by
  induction e generalizing S with
  | lit names => cases h; exact Iff.rfl
  | ref i =>
    cases h with
    | ref hx hs hd =>
      obtain ⟨x, h1, h2⟩ := hidx i (by simp [refs])
      obtain rfl := hu _ hx _ (List.mem_of_getElem? h1) (Eq.trans hs (Eq.symm h2))
      simp only [sem, denAt]
      constructor
      · intro hn
        exact ⟨_, S, h1, hd, hn⟩
      · rintro ⟨y, S', h3, h4, h5⟩
        rw [h1] at h3
        cases h3
        exact (Den.unique hu hd h4 n).2 h5
  | op o l r ihl ihr =>
    have hl := fun {S} => ihl (S := S) (fun i hi => hidx i (List.mem_append_left _ hi))
    have hr := fun {S} => ihr (S := S) (fun i hi => hidx i (List.mem_append_right _ hi))
    cases h with
    | union h1 h2 => simp only [sem, opSem]; rw [hl h1, hr h2]
    | inter h1 h2 => simp only [sem, opSem]; rw [hl h1, hr h2]
    | diff h1 h2 => simp only [sem, opSem]; rw [hl h1, hr h2]

end Verif.Unwrap
