import Verif.Model.Semantic

/-!
# The identifiers in resolved set expressions are those of the literals in the expressions
-/

namespace Verif.Unwrap
open Verif.Ids Verif.Sets Verif.Grammar

/-- All identifiers in a literal have the property. -/
def From (P : Id → Prop) : Tree → Prop
  | .null => True
  | .node _ _ i l r => P i ∧ From P l ∧ From P r

/-- All identifiers in the literals of an expression have the property. -/
def Of (P : Id → Prop) : Expr → Prop
  | .lit names => ∀ i ∈ names, P i
  | .ref _ => True
  | .op _ l r => Of P l ∧ Of P r

variable {P : Id → Prop}

/-! ### Sets -/

theorem SLI_from {ia : Nat} {v : Id} (hv : P v) : ∀ {t : Tree} {h : Nat} {t' : Tree} {b : Bool} {h' : Nat}, From P t →
    SLIsetliteral ia v h t = .ok (t', b, h') → From P t'
  | .null, _, _, _, _, _, e => by cases e
  | .node a x ref l r, h, t', b, h', hf, e => by
    obtain ⟨h1, h2, h3⟩ := hf
    rw [SLIsetliteral] at e
    split at e
    · cases e; exact ⟨h1, h2, h3⟩
    · split at e
      · cases e; exact ⟨h1, ⟨hv, trivial, trivial⟩, h3⟩
      · obtain ⟨⟨l', ins, h''⟩, e1, e2⟩ := Res.bind_eq_ok.1 e
        cases e2
        exact ⟨h1, SLI_from hv h2 e1, h3⟩
    · split at e
      · cases e; exact ⟨h1, h2, ⟨hv, trivial, trivial⟩⟩
      · obtain ⟨⟨r', ins, h''⟩, e1, e2⟩ := Res.bind_eq_ok.1 e
        cases e2
        exact ⟨h1, h2, SLI_from hv h3 e1⟩

theorem insert_from {v : Id} (hv : P v) {t : Tree} {h : Nat} {t' : Tree} {h' : Nat} (hf : From P t)
    (e : SETIDinsert h t v = .ok (t', h')) : From P t' := by
  cases t with
  | null => cases e; exact ⟨hv, trivial, trivial⟩
  | node a ia ref l r =>
    obtain ⟨⟨x, b, y⟩, e1, e2⟩ := Res.bind_eq_ok.1 e
    cases e2
    exact SLI_from hv hf e1

theorem insertAll_from : ∀ {l : List Id} {h : Nat} {t t' : Tree} {h' : Nat}, (∀ i ∈ l, P i) → From P t → insertAll h t l = .ok (t', h') → From P t'
  | [], _, _, _, _, _, hf, e => by cases e; exact hf
  | i :: l, h, t, t', h', hl, hf, e => by
    rw [insertAll] at e
    obtain ⟨⟨t1, h1⟩, e1, e2⟩ := Res.bind_eq_ok.1 e
    exact insertAll_from (fun j hj => hl j (List.mem_cons_of_mem _ hj)) (insert_from (hl i List.mem_cons_self) hf e1) e2

theorem SLU_from : ∀ {t dst : Tree} {h : Nat} {t' dst' : Tree} {h' : Nat}, From P t → From P dst →
    SLUsetliteral dst h t = .ok (t', dst', h') → From P dst'
  | .null, _, _, _, _, _, _, hd, e => by cases e; exact hd
  | .node a ia ref l r, dst, h, t', dst', h', hf, hd, e => by
    obtain ⟨h1, h2, h3⟩ := hf
    rw [SLUsetliteral] at e
    obtain ⟨⟨d1, x1⟩, e1, e⟩ := Res.bind_eq_ok.1 e
    obtain ⟨⟨l2, d2, x2⟩, e2, e⟩ := Res.bind_eq_ok.1 e
    obtain ⟨⟨l3, d3, x3⟩, e3, e⟩ := Res.bind_eq_ok.1 e
    cases e
    exact SLU_from h3 (SLU_from h2 (insert_from h1 hd e1) e2) e3

theorem insertIf_from {w : Bool} {o n : Tree} {h : Nat} {i : Id} (hi : P i) {o' n' : Tree} {h' : Nat} (hn : From P n)
    (e : insertIf w o n h i = .ok (o', n', h')) : From P n' := by
  unfold insertIf at e
  simp only at e
  split at e
  · obtain ⟨⟨d1, x1⟩, e1, e⟩ := Res.bind_eq_ok.1 e
    cases e
    exact insert_from hi hn e1
  · cases e; exact hn

theorem SLF_from {w : Bool} : ∀ {t o n : Tree} {h : Nat} {t' o' n' : Tree} {h' : Nat}, From P t → From P n →
    SLFsetliteral w o n h t = .ok (t', o', n', h') → From P n'
  | .null, _, _, _, _, _, _, _, _, hd, e => by cases e; exact hd
  | .node a ia ref l r, o, n, h, t', o', n', h', hf, hd, e => by
    obtain ⟨h1, h2, h3⟩ := hf
    rw [SLFsetliteral] at e
    obtain ⟨⟨o1, n1, x1⟩, e1, e⟩ := Res.bind_eq_ok.1 e
    obtain ⟨⟨l2, o2, n2, x2⟩, e2, e⟩ := Res.bind_eq_ok.1 e
    obtain ⟨⟨l3, o3, n3, x3⟩, e3, e⟩ := Res.bind_eq_ok.1 e
    cases e
    exact SLF_from h3 (SLF_from h2 (insertIf_from h1 hd e1) e2) e3

theorem setOp_from {o : Op} {h : Nat} {l r t : Tree} {h' : Nat} (hl : From P l) (hr : From P r) (e : setOp o h l r = .ok (t, h')) : From P t := by
  cases o with
  | union =>
    obtain ⟨x, e1, e2⟩ := Res.bind_eq_ok.1 (show (SETIDunion h l r >>= fun r => Res.ok (r.new, r.heap)) = _ from e)
    cases e2
    unfold SETIDunion at e1
    obtain ⟨⟨a, b, c⟩, e2, e1⟩ := Res.bind_eq_ok.1 e1
    obtain ⟨⟨a', b', c'⟩, e3, e1⟩ := Res.bind_eq_ok.1 e1
    cases e1
    exact SLU_from hr (SLU_from (dst := .null) hl trivial e2) e3
  | inter =>
    obtain ⟨x, e1, e2⟩ := Res.bind_eq_ok.1 (show (SETIDintersect h l r >>= fun r => Res.ok (r.new, r.heap)) = _ from e)
    cases e2
    unfold SETIDintersect at e1
    split at e1
    · cases e1; trivial
    · obtain ⟨⟨a, b, c, d⟩, e2, e1⟩ := Res.bind_eq_ok.1 e1
      cases e1
      exact SLF_from (n := .null) hl trivial e2
  | diff =>
    obtain ⟨x, e1, e2⟩ := Res.bind_eq_ok.1 (show (SETIDdifference h l r >>= fun r => Res.ok (r.new, r.heap)) = _ from e)
    cases e2
    unfold SETIDdifference at e1
    split at e1
    · cases e1; trivial
    · obtain ⟨⟨a, b, c, d⟩, e2, e1⟩ := Res.bind_eq_ok.1 e1
      cases e1
      exact SLF_from (n := .null) hl trivial e2

theorem copy_from : ∀ {t : Tree} {h : Nat}, From P t → From P (copySet h t).1
  | .null, _, _ => trivial
  | .node _ _ _ _ _, _, ⟨h1, h2, h3⟩ => ⟨h1, copy_from h2, copy_from h3⟩

/-! ### Memory -/

/-- All literals in memory. -/
def All (P : Id → Prop) (st : St) : Prop := ∀ a t, st.cells a = some (.lit t) → From P t

/-- A node with a literal of such identifiers. -/
def CellOf (P : Id → Prop) : Cell → Prop
  | .lit t => From P t
  | _ => True

theorem All.write {st : St} (h : All P st) (x : Nat) {c : Option Cell} (hc : ∀ y ∈ c, CellOf P y) {n s : Nat} {l : List (Option Nat)} :
    All P { cells := fun z => if z = x then c else st.cells z, next := n, sets := s, nodesets := l } := by
  intro a t e
  simp only at e
  split at e
  · exact hc _ e
  · exact h a t e

theorem All.alloc {st : St} (h : All P st) {c : Cell} (hc : CellOf P c) : All P (alloc c st).2 :=
  h.write _ fun y hy => by cases hy; exact hc

theorem All.put {st : St} (h : All P st) {a : Nat} {c : Cell} (hc : CellOf P c) : All P (put a c st) :=
  h.write _ fun y hy => by cases hy; exact hc

theorem load_all : ∀ {e : Expr} {st : St} {a : Nat} {st' : St}, All P st → Of P e → load e st = .ok (a, st') → All P st'
  | .lit names, st, a, st', h, ho, e => by
    rw [load] at e
    obtain ⟨⟨t, x⟩, e1, e⟩ := Res.bind_eq_ok.1 e
    cases e
    exact All.alloc (st := { st with sets := x }) h (insertAll_from (t := .null) ho trivial e1)
  | .ref i, st, a, st', h, _, e => by
    cases e
    exact h.alloc trivial
  | .op o l r, st, a, st', h, ho, e => by
    rw [load] at e
    obtain ⟨⟨a1, s1⟩, e1, e⟩ := Res.bind_eq_ok.1 e
    obtain ⟨⟨a2, s2⟩, e2, e⟩ := Res.bind_eq_ok.1 e
    cases e
    exact (load_all (load_all h ho.1 e1) ho.2 e2).alloc trivial

theorem loadAll_all : ∀ {es : List Expr} {st : St} {l : List (Option Nat)} {st' : St}, All P st → (∀ e ∈ es, Of P e) →
    loadAll es st = .ok (l, st') → All P st'
  | [], st, l, st', h, _, e => by cases e; exact h
  | x :: es, st, l, st', h, ho, e => by
    rw [loadAll] at e
    obtain ⟨⟨a1, s1⟩, e1, e⟩ := Res.bind_eq_ok.1 e
    obtain ⟨⟨a2, s2⟩, e2, e⟩ := Res.bind_eq_ok.1 e
    cases e
    exact loadAll_all (load_all h (ho x List.mem_cons_self) e1) (fun y hy => ho y (List.mem_cons_of_mem _ hy)) e2

theorem freeCell_all {a : Nat} {st st' : St} (h : All P st) (e : freeCell a st = .ok st') : All P st' := by
  unfold freeCell at e
  split at e
  · cases e
  · cases e
    exact h.write _ fun y hy => by cases hy

theorem freeOpt_all {p : Option Nat} {st st' : St} (h : All P st) (e : freeOpt p st = .ok st') : All P st' := by
  cases p with
  | none => cases e; exact h
  | some a => exact freeCell_all h e

theorem litAt_from {p : Option Nat} {st : St} {t : Tree} (h : All P st) (e : litAt st p = .ok t) : From P t := by
  cases p with
  | none => cases e; trivial
  | some a =>
    simp only [litAt] at e
    split at e
    · cases e
    · rename_i t' hc
      cases e
      exact h a _ hc
    · cases e

theorem newLit_all {t : Tree} {st : St} (h : All P st) (ht : From P t) : All P (newLit t st).2 := by
  unfold newLit
  split
  · exact h
  · exact h.alloc ht

theorem combine_all {a : Nat} {st : St} {p : Option Nat} {st' : St} (h : All P st) (e : combine a st = .ok (p, st')) : All P st' := by
  unfold combine at e
  split at e
  · obtain ⟨tl, e1, e⟩ := Res.bind_eq_ok.1 e
    obtain ⟨tr, e2, e⟩ := Res.bind_eq_ok.1 e
    obtain ⟨⟨t, x⟩, e3, e⟩ := Res.bind_eq_ok.1 e
    obtain ⟨s1, e4, e⟩ := Res.bind_eq_ok.1 e
    obtain ⟨s2, e5, e⟩ := Res.bind_eq_ok.1 e
    obtain ⟨s3, e6, e⟩ := Res.bind_eq_ok.1 e
    cases e
    exact freeCell_all (freeOpt_all (freeOpt_all (newLit_all (st := { st with sets := x }) h
      (setOp_from (litAt_from h e1) (litAt_from h e2) e3)) e4) e5) e6
  · cases e

theorem setLeft_all {a : Nat} {p : Option Nat} {st st' : St} (h : All P st) (e : setLeft a p st = .ok st') : All P st' := by
  unfold setLeft at e
  split at e
  · cases e; exact h.put trivial
  · cases e

theorem setRight_all {a : Nat} {p : Option Nat} {st st' : St} (h : All P st) (e : setRight a p st = .ok st') : All P st' := by
  unfold setRight at e
  split at e
  · cases e; exact h.put trivial
  · cases e

theorem copyRef_all {a k : Nat} {st : St} {p : Option Nat} {st' : St} (h : All P st) (e : copyRef a k st = .ok (p, st')) : All P st' := by
  unfold copyRef at e
  split at e
  · cases e
  · obtain ⟨s1, e1, e⟩ := Res.bind_eq_ok.1 e
    cases e
    exact freeCell_all h e1
  · obtain ⟨t, e1, e⟩ := Res.bind_eq_ok.1 e
    obtain ⟨s1, e2, e⟩ := Res.bind_eq_ok.1 e
    cases e
    exact freeCell_all (newLit_all (st := { st with sets := (copySet st.sets t).2 }) h (copy_from (litAt_from h e1))) e2

theorem opt_all {f : Nat → St → Res (Option Nat × St)} (hf : ∀ a st p st', All P st → f a st = .ok (p, st') → All P st') {q : Option Nat} {st : St}
    {p : Option Nat} {st' : St} (h : All P st) (e : opt f q st = .ok (p, st')) : All P st' := by
  cases q with
  | none => cases e; exact h
  | some a => exact hf a st p st' h e

theorem visit_all (tab : List (Ste Decl)) : ∀ fuel, (∀ a st p st', All P st → visit tab fuel a st = .ok (p, st') → All P st') ∧
    ∀ k st st', All P st → visitSet tab fuel k st = .ok st' → All P st' := by
  intro fuel
  induction fuel with
  | zero =>
    refine ⟨fun a st p st' h e => ?_, fun k st st' h e => ?_⟩
    · rw [visit] at e; cases e
    · rw [visitSet] at e; cases e
  | succ fuel ih =>
    obtain ⟨ih1, ih2⟩ := ih
    refine ⟨fun a st p st' h e => ?_, fun k st st' h e => ?_⟩
    · rw [visit] at e
      split at e
      · cases e
      · cases e; exact h
      · obtain ⟨⟨p1, s1⟩, e1, e⟩ := Res.bind_eq_ok.1 e
        obtain ⟨s2, e2, e⟩ := Res.bind_eq_ok.1 e
        obtain ⟨r, e3, e⟩ := Res.bind_eq_ok.1 e
        obtain ⟨⟨p4, s4⟩, e4, e⟩ := Res.bind_eq_ok.1 e
        obtain ⟨s5, e5, e⟩ := Res.bind_eq_ok.1 e
        exact combine_all (setRight_all (opt_all ih1 (setLeft_all (opt_all ih1 h e1) e2) e4) e5) e
      · obtain ⟨k, e1, e⟩ := Res.bind_eq_ok.1 e
        split at e
        · cases e
        · obtain ⟨u, e2, e⟩ := Res.bind_eq_ok.1 e
          cases u with
          | true =>
            obtain ⟨s3, e3, e⟩ := Res.bind_eq_ok.1 (show (visitSet tab fuel k st >>= fun st => copyRef a k st) = _ from e)
            exact copyRef_all (ih2 _ _ _ h e3) e
          | false => exact copyRef_all h e
    · rw [visitSet] at e
      split at e
      · cases e; exact h
      · obtain ⟨⟨p1, s1⟩, e1, e⟩ := Res.bind_eq_ok.1 e
        have h1 : All P { s1 with nodesets := s1.nodesets.set k p1 } := fun a t ha => opt_all ih1 h e1 a t ha
        exact ih2 _ _ _ h1 e

theorem visitTravs_all (tab : List (Ste Decl)) (fuel : Nat) : ∀ {l : List (Option Nat)} {st : St} {l' : List (Option Nat)} {st' : St}, All P st →
    visitTravs tab fuel l st = .ok (l', st') → All P st'
  | [], st, l', st', h, e => by cases e; exact h
  | p :: l, st, l', st', h, e => by
    rw [visitTravs] at e
    obtain ⟨⟨p1, s1⟩, e1, e⟩ := Res.bind_eq_ok.1 e
    obtain ⟨⟨p2, s2⟩, e2, e⟩ := Res.bind_eq_ok.1 e
    cases e
    exact visitTravs_all tab fuel (opt_all (visit_all tab fuel).1 h e1) e2

theorem USE_all {tab : List (Ste Decl)} {fuel : Nat} {sets travs : List Expr} {ts : List (Option Nat)} {st : St} (hs : ∀ e ∈ sets, Of P e)
    (ht : ∀ e ∈ travs, Of P e) (e : USEast tab fuel sets travs = .ok (ts, st)) : All P st := by
  unfold USEast at e
  obtain ⟨⟨t1, s1⟩, e1, e⟩ := Res.bind_eq_ok.1 e
  obtain ⟨⟨t2, s2⟩, e2, e⟩ := Res.bind_eq_ok.1 e
  obtain ⟨s3, e3, e⟩ := Res.bind_eq_ok.1 e
  cases e
  unfold parsed at e1
  obtain ⟨⟨l1, m1⟩, f1, e1⟩ := Res.bind_eq_ok.1 e1
  obtain ⟨⟨l2, m2⟩, f2, e1⟩ := Res.bind_eq_ok.1 e1
  cases e1
  have h2 : All P m2 := loadAll_all (loadAll_all (fun _ _ h => by cases h) hs f1) ht f2
  have h3 : All P { m2 with nodesets := l1 } := h2
  exact (visit_all tab fuel).2 _ _ _ (visitTravs_all tab fuel h3 e2) e3

theorem trees_all {st : St} (h : All P st) : ∀ {ks : List Nat} {ts : List Tree}, Semantic.treesOf st ks = .ok ts → ts.length = ks.length ∧ ∀ t ∈ ts, From P t
  | [], ts, e => by cases e; exact ⟨rfl, fun _ h => by cases h⟩
  | k :: ks, ts, e => by
    rw [Semantic.treesOf] at e
    split at e
    · cases e
    · obtain ⟨t, e1, e⟩ := Res.bind_eq_ok.1 e
      obtain ⟨ts', e2, e⟩ := Res.bind_eq_ok.1 e
      cases e
      obtain ⟨h1, h2⟩ := trees_all h e2
      refine ⟨by rw [List.length_cons, List.length_cons, h1], fun x hx => ?_⟩
      rcases List.mem_cons.1 hx with rfl | hx
      · exact litAt_from h e1
      · exact h2 x hx

end Verif.Unwrap
