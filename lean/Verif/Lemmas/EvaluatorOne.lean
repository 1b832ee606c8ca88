import Verif.Lemmas.EvaluatorRun
import Mathlib.Data.List.Nodup
import Mathlib.Data.List.Perm.Subperm

/-!
# Lemmas about the generated evaluator: specifications whose visits can be generated

With at most one visit for each type.
-/

namespace Verif.Evaluator
open Verif.Str Verif.Ids Verif.Induce Verif.Schedule Verif.Visits Verif.Spec.Induce Verif.Spec.AttrTree Verif.Spec.Evaluate
open Verif.Spec.Evaluator Verif.AttrTree Verif.Evaluate
open Verif.Spec.Visits (At Step Runs VisitOf Alternatives withInputs)
open Verif.Spec.VisitGen (SeqOk Key keyOf childKey keyText evals visitsOf elemVars elemKeys structs VisitOk Apart EvalOk AltsOk)

/-- What is assumed of a specification in this file. -/
structure Basis (D : Names) (S : Spec) (P : Plan) (En : INode → Env) (Sq : INode → List (List Ev))
    (St : INode → Nat → Spec.Visits.Known) (Vs : INode → List AVisit) : Prop where
  ok : Checked S
  equipped : Equipped S
  sched : Sched S P En Sq St Vs
  one : ∀ t, One S t
  world : World S P En Sq St Vs
  named : Named D S
  args : ∀ n ∈ S.nodes, ∀ q ∈ n.eqs, ∀ d ∈ q.args, Resolved S n d
  each : OneEach S
  plain : Plain D S P

/-- The child `c` can be a node `m`. -/
def CanBe (S : Spec) (c : Child) (m : INode) : Prop := m.addr = c.type ∨ ∃ s ∈ S.sets, s.addr = c.type ∧ m ∈ s.members

/-- The alternatives of the only visit of a child. -/
def AltsOf (D : Names) (S : Spec) (P : Plan) (c : Child) (as : List VisitGen.Alt) : Prop :=
  ∃ ms : List (INode × AVisit), ms ≠ [] ∧ as = ms.map (fun y => .visit (toVisit D S y.1.addr 0 y.2)) ∧
    (∀ y ∈ ms, y.1 ∈ S.nodes ∧ P.visits y.1.addr = some [y.2] ∧ CanBe S c y.1) ∧ ∀ y, ms = [y] → Only S c.type y.1

/-- The elements of the only sequence of a node. -/
inductive Path (D : Names) (S : Spec) (P : Plan) (n : INode) (e : Env) :
    Spec.Visits.Known → List VisitGen.Elem → Spec.Visits.Known → Prop where
  | nil {A} : Path D S P n e A [] A
  | own {A B x i es} : x ∈ n.attrs → x.syn = true → At e n.addr x.addr i → ¬ A (.node i) →
      Path D S P n e (fun y => A y ∨ y = .node i) es B → Path D S P n e A (.eval (evalRef D S n (n.addr, x.addr)) :: es) B
  | kid {A B c x i es} : c ∈ n.children → AttrIn S c.type x → x.inh = true → At e c.addr x.addr i → ¬ A (.node i) →
      Path D S P n e (fun y => A y ∨ y = .node i) es B → Path D S P n e A (.eval (evalRef D S n (c.addr, x.addr)) :: es) B
  | visit {A B c v as es} : c ∈ n.children → P.visits c.type = some [v] → AltsOf D S P c as →
      (∀ a ∈ v.inputs, ∃ p, At e c.addr a p ∧ A (.node p)) → ¬ A (.visit c.addr 0) →
      (∀ a p, At e c.addr a p → e.syn a = true → ¬ A (.node p)) →
      Path D S P n e (fun y => A y ∨ y = .visit c.addr 0 ∨ ∃ a p, a ∈ v.outputs ∧ At e c.addr a p ∧ y = .node p) es B →
      Path D S P n e A (.visit (toChild D c) as :: es) B

theorem toAlts_map {D : Names} {S : Spec} {P : Plan} {l : List (Nat × Option Nat)} {as : List VisitGen.Alt} (h : toAlts D S P l = .ok as)
    (hl : ∀ y ∈ l, ∃ m v, m ∈ S.nodes ∧ m.addr = y.1 ∧ y.2 = some 0 ∧ P.visits m.addr = some [v]) :
    ∃ ms : List (INode × AVisit), ms.map (fun y => y.1.addr) = l.map (·.1) ∧
      as = ms.map (fun y => .visit (toVisit D S y.1.addr 0 y.2)) ∧
      ∀ y ∈ ms, y.1 ∈ S.nodes ∧ P.visits y.1.addr = some [y.2] := by
  induction l generalizing as with
  | nil =>
    rw [toAlts] at h
    cases h
    exact ⟨[], rfl, rfl, (fun y hy => by cases hy)⟩
  | cons y l ih =>
    obtain ⟨m, v, hm, e1, e2, hv⟩ := hl y List.mem_cons_self
    obtain ⟨t, o⟩ := y
    simp only at e1 e2
    subst e1 e2
    rw [toAlts] at h
    have hst : stub D S P m.addr 0 = some (toVisit D S m.addr 0 v) := by simp [stub, hv]
    rw [hst] at h
    simp only at h
    obtain ⟨as', h1, h2⟩ := Res.bind_eq_ok.1 h
    cases h2
    obtain ⟨ms, a1, a2, a3⟩ := ih h1 fun y hy => hl y (List.mem_cons_of_mem _ hy)
    refine ⟨(m, v) :: ms, by simp [a1], by rw [a2]; rfl, ?_⟩
    intro y hy
    rcases List.mem_cons.1 hy with rfl | hy
    · exact ⟨hm, hv⟩
    · exact a3 y hy

theorem rule_own' {S : Spec} (h : Checked S) {n : INode} (hn : n ∈ S.nodes) {a : Nat} {q : Eqn} (hq : For n (n.addr, a) q) :
    q.rule.child = none ∧ q.rule.attr.addr = a := by
  obtain ⟨h1, h2⟩ := hq
  have hr := (h.rules n hn q h1).1
  cases hc : q.rule.child with
  | some c =>
    simp only [Resolved, hc] at hr
    obtain ⟨ch, hch, rfl, _⟩ := hr
    simp only [place, hc, Option.getD_some, Prod.mk.injEq] at h2
    exact absurd h2.1.symm (node_child h hn hn hch)
  | none =>
    simp only [place, hc, Option.getD_none, Prod.mk.injEq, true_and] at h2
    exact ⟨rfl, h2⟩

theorem rule_kid' {S : Spec} (h : Checked S) {n : INode} (hn : n ∈ S.nodes) {c : Child} (hc : c ∈ n.children) {a : Nat} {q : Eqn}
    (hq : For n (c.addr, a) q) : q.rule.child = some c.addr ∧ q.rule.attr.addr = a := by
  obtain ⟨h1, h2⟩ := hq
  cases hcc : q.rule.child with
  | none =>
    simp only [place, hcc, Option.getD_none, Prod.mk.injEq] at h2
    exact absurd h2.1 (node_child h hn hn hc)
  | some c' =>
    simp only [place, hcc, Option.getD_some, Prod.mk.injEq] at h2
    exact ⟨by rw [h2.1], h2.2⟩

section
variable {D : Names} {S : Spec} {P : Plan} {En : INode → Env} {Sq : INode → List (List Ev)}
  {St : INode → Nat → Spec.Visits.Known} {Vs : INode → List AVisit} (w : Basis D S P En Sq St Vs)
include w

theorem first {t : Nat} {vs : List AVisit} (hv : P.visits t = some vs) {k : Nat} {v : AVisit} (hk : vs[k]? = some v) :
    vs = [v] ∧ k = 0 := by
  have := (w.sched.holds t vs hv).one (w.one t)
  match vs, k, hk, this with
  | [_], 0, hk, _ => cases hk; exact ⟨rfl, rfl⟩
  | [_], k + 1, hk, _ => simp at hk
  | _ :: _ :: _, _, _, hl => simp at hl

theorem ins_iff {t : Nat} {v : AVisit} (hv : P.visits t = some [v]) (a : Nat) :
    a ∈ v.inputs ↔ ∃ x, AttrIn S t x ∧ x.inh = true ∧ x.addr = a := by
  constructor
  · exact ((w.sched.holds t _ hv).held 0 v rfl).1 a
  · rintro ⟨x, h1, h2, rfl⟩
    obtain ⟨k, u, h3, h4⟩ := ((w.sched.holds t _ hv).all x h1).1 h2
    obtain ⟨h5, rfl⟩ := first w hv h3
    cases h5
    exact h4

theorem outs_iff {t : Nat} {v : AVisit} (hv : P.visits t = some [v]) (a : Nat) :
    a ∈ v.outputs ↔ ∃ x, AttrIn S t x ∧ x.syn = true ∧ x.addr = a := by
  constructor
  · exact ((w.sched.holds t _ hv).held 0 v rfl).2 a
  · rintro ⟨x, h1, h2, rfl⟩
    obtain ⟨k, u, h3, h4⟩ := ((w.sched.holds t _ hv).all x h1).2 h2
    obtain ⟨h5, rfl⟩ := first w hv h3
    cases h5
    exact h4

/-- The computed attributes of a node are those of the type of the child. -/
theorem attr_up {c : Child} {m : INode} (hm : m ∈ S.nodes) (hc : CanBe S c m) {b : Attr} (hb : b ∈ m.attrs)
    (hk : b.inh = true ∨ b.syn = true) : ∃ x, AttrIn S c.type x ∧ x.name = b.name ∧ x.inh = b.inh ∧ x.syn = b.syn := by
  rcases hc with e | ⟨s, hs, e, hms⟩
  · exact ⟨b, Or.inl ⟨m, hm, e, hb⟩, rfl, rfl, rfl⟩
  · obtain ⟨x, h1, h2, h3, h4⟩ := w.plain.exact s hs m hms b hb hk
    exact ⟨x, Or.inr ⟨s, hs, e, h1⟩, h2, h3, h4⟩

theorem attr_down {c : Child} {m : INode} (hm : m ∈ S.nodes) (hc : CanBe S c m) {x : Attr} (hx : AttrIn S c.type x)
    (hk : x.inh = true ∨ x.syn = true) : ∃ b ∈ m.attrs, b.name = x.name ∧ b.inh = x.inh ∧ b.syn = x.syn := by
  rcases hc with e | ⟨s, hs, e, hms⟩
  · rw [← e] at hx
    exact ⟨x, attrIn_node w.ok hm hx, rfl, rfl, rfl⟩
  · rw [← e] at hx
    exact w.ok.equivalent s hs m hms x (attrIn_set w.ok hs hx) hk

theorem syn_not_inh {t : Nat} {x : Attr} (hx : AttrIn S t x) (hs : x.syn = true) : x.inh = false := by
  cases hi : x.inh with
  | false => rfl
  | true => rw [not_syn w.world hx hi] at hs; cases hs

/-! ### The path -/

theorem altsOf {n : INode} (hn : n ∈ S.nodes) {c : Child} (hc : c ∈ n.children) {v : AVisit}
    (hv : P.visits c.type = some [v]) {alts : List (Nat × Option Nat)} (halt : Alternatives (En n) c.addr 0 alts) (hne : alts ≠ [])
    {as : List VisitGen.Alt} (h : toAlts D S P alts = .ok as) : AltsOf D S P c as := by
  have f := w.sched.node n hn
  unfold Alternatives at halt
  rw [f.typ c hc] at halt
  cases hms : (En n).members c.type with
  | none =>
    rw [hms] at halt
    simp only at halt
    subst halt
    obtain ⟨m, hm, e⟩ := (f.alt c hc).1 hms
    rw [← e] at h hv
    rw [toAlts] at h
    have hst : stub D S P m.addr 0 = some (toVisit D S m.addr 0 v) := by simp [stub, hv]
    rw [hst] at h
    cases h
    refine ⟨[(m, v)], by simp, rfl, ?_, ?_⟩
    · intro y hy
      cases List.mem_singleton.1 hy
      exact ⟨hm, hv, Or.inl e⟩
    · intro y hy
      cases hy
      exact Or.inl e
  | some l =>
    rw [hms] at halt
    simp only at halt
    obtain ⟨s, hs, e, rfl⟩ := (f.alt c hc).2 l hms
    obtain ⟨ms, a1, a2, a3⟩ := toAlts_map h (by
      intro y hy
      have : y.1 ∈ s.members.reverse.map (·.addr) := by rw [← halt.1]; exact List.mem_map.2 ⟨y, hy, rfl⟩
      obtain ⟨m, hm, em⟩ := List.mem_map.1 this
      have hm := List.mem_reverse.1 hm
      obtain ⟨vs, b1, b2, _⟩ := halt.2 y.1 y.2 hy
      rw [f.vis, ← em] at b1
      cases vs with
      | nil =>
        have := w.plain.even s hs m hm b1
        rw [e, hv] at this
        cases this
      | cons u us =>
        obtain ⟨b3, _⟩ := first w b1 (k := 0) (v := u) rfl
        cases b3
        exact ⟨m, u, w.ok.members s hs m hm, em, b2.2 (by simp), b1⟩)
    have mem : ∀ y ∈ ms, y.1 ∈ s.members := by
      intro y hy
      have : y.1.addr ∈ s.members.reverse.map (·.addr) := by
        rw [← halt.1, ← a1]; exact List.mem_map.2 ⟨y, hy, rfl⟩
      obtain ⟨m, hm, em⟩ := List.mem_map.1 this
      have hm := List.mem_reverse.1 hm
      rw [← node_inj w.ok (w.ok.members s hs m hm) (a3 y hy).1 em]
      exact hm
    refine ⟨ms, ?_, a2, fun y hy => ⟨(a3 y hy).1, (a3 y hy).2, Or.inr ⟨s, hs, e, mem y hy⟩⟩, ?_⟩
    · rintro rfl
      cases alts with
      | nil => exact hne rfl
      | cons => simp at a1
    · rintro y rfl
      refine Or.inr ⟨s, hs, e, ?_⟩
      have e2 : s.members.reverse.map (·.addr) = [y.1.addr] := by rw [← halt.1, ← a1]; rfl
      have e3 : s.members.map (·.addr) = [y.1.addr] := by
        have := congrArg List.reverse e2
        simpa using this
      cases hmm : s.members with
      | nil => rw [hmm] at e3; cases e3
      | cons m l =>
        rw [hmm] at e3
        simp only [List.map_cons, List.cons.injEq, List.map_eq_nil_iff] at e3
        obtain ⟨e3, rfl⟩ := e3
        rw [node_inj w.ok (w.ok.members s hs m (by rw [hmm]; simp)) (a3 y (by simp)).1 e3]

theorem path {n : INode} (hn : n ∈ S.nodes) {A B : Spec.Visits.Known} {evs : List Ev} (r : Runs (En n) A evs B) :
    (∀ ev ∈ evs, ∀ x ∈ n.attrs, x.inh = true → act (En n).g ev ≠ .eval (n.addr, x.addr)) → EInv (En n) A →
    ∀ es, toElems D S P n (evs.map (act (En n).g)) = .ok es → Path D S P n (En n) A es B := by
  have f := w.sched.node n hn
  induction r with
  | nil =>
    intro _ _ es h
    cases h
    exact .nil
  | @cons A T U ev evs st _ ih =>
    intro hni ei es h
    have ei' := einv_step (self_not_kid w.world hn) ei st
    have ih := ih (fun ev hev => hni ev (List.mem_cons_of_mem _ hev)) ei'
    have hn0 := hni ev List.mem_cons_self
    rw [List.map_cons] at h
    cases st with
    | @eval i o a hat ho hd hnew =>
      have ea : act (En n).g (.eval i) = .eval (o, a) := by
        simp only [act]
        rw [show (En n).g.nodes[i]? = _ from hat]
        rfl
      rw [ea] at h hn0
      rw [toElems] at h
      obtain ⟨es', h1, h2⟩ := Res.bind_eq_ok.1 h
      cases h2
      have ih := ih es' h1
      rcases f.only o a i hat with ⟨rfl, x, hx, hk, rfl⟩ | ⟨c, hc, rfl, x, hx, hk, rfl⟩
      · have hi : x.inh = false := by
          cases hi : x.inh with
          | false => rfl
          | true => exact absurd rfl (hn0 x hx hi)
        rw [hi] at hk
        exact .own hx (by simpa using hk) hat hnew ih
      · have hs : x.syn = false := by
          rcases ho with e | e
          · rw [f.self] at e
            exact absurd e.symm (node_child w.ok hn hn hc)
          · rw [f.syn _ x hx] at e; exact e
        rw [hs] at hk
        exact .kid hc hx (by simpa using hk) hat hnew ih
    | @visit c0 k alts v hc hv halt hne hpre hin hnew =>
      obtain ⟨c, hcc, rfl⟩ := (f.kids _).1 hc
      rw [act, toElems, childAt_ok w.ok hn hcc] at h
      simp only [Res.bind_ok] at h
      obtain ⟨as, ha, h⟩ := Res.bind_eq_ok.1 h
      obtain ⟨es', h1, h2⟩ := Res.bind_eq_ok.1 h
      cases h2
      obtain ⟨vs, b1, b2⟩ := hv
      rw [f.typ c hcc, f.vis] at b1
      obtain ⟨rfl, rfl⟩ := first w b1 b2
      refine .visit hcc b1 (altsOf w hn hcc b1 halt hne ha) hin hnew ?_ (ih es' h1)
      intro a p hat hs hA
      obtain ⟨k, u, ⟨us, c1, c2⟩, _, c3⟩ := ei.syn c.addr hc a p hat hs hA
      rw [f.typ c hcc, f.vis] at c1
      obtain ⟨rfl, rfl⟩ := first w c1 c2
      exact hnew c3

/-! ### The variables -/

/-- The key of the attribute `x` of the node or a child, `o`. -/
inductive KeyAt (D : Names) (S : Spec) (n : INode) : Key → Nat → Attr → Prop where
  | own {x} : x ∈ n.attrs → (x.inh = true ∨ x.syn = true) → KeyAt D S n (none, x.name) n.addr x
  | kid {c x} : c ∈ n.children → AttrIn S c.type x → (x.inh = true ∨ x.syn = true) →
      KeyAt D S n (some (D.child c.addr).lwr, x.name) c.addr x

omit w in
theorem KeyAt.var {n : INode} {k : Key} {o : Nat} {x : Attr} (h : KeyAt D S n k o x) : VarKey D S n k := by
  cases h with
  | own hx hk => exact .own hx hk
  | kid hc hx hk => exact .child hc hx hk

theorem keyAt_inj {n : INode} (hn : n ∈ S.nodes) {k : Key} {o o' : Nat} {x x' : Attr} (h : KeyAt D S n k o x)
    (h' : KeyAt D S n k o' x') : o = o' ∧ x = x' := by
  cases h with
  | own hx hk =>
    generalize hkk : ((none, x.name) : Key) = k at h'
    cases h' with
    | own hx' _ =>
      simp only [Prod.mk.injEq, true_and] at hkk
      exact ⟨rfl, name_inj w.ok hn hx hx' hkk⟩
    | kid => simp at hkk
  | @kid c _ hc hx hk =>
    generalize hkk : ((some (D.child c.addr).lwr, x.name) : Key) = k at h'
    cases h' with
    | own hx' _ => simp at hkk
    | @kid c' _ hc' hx' _ =>
      simp only [Prod.mk.injEq, Option.some.injEq] at hkk
      have := w.named.children n hn c hc c' hc' hkk.1
      subst this
      exact ⟨rfl, attrIn_inj w.ok hx hx' hkk.2⟩

theorem attr_lwr {t : Nat} {x : Attr} (hx : AttrIn S t x) : (D.attr x.addr).lwr = x.name := w.named.attr x (attrIn_mem hx)

omit w in
theorem key_own {n : INode} {a : Nat} : keyOf (evalRef D S n (n.addr, a)) = (none, (D.attr a).lwr) := by
  simp [keyOf, evalRef]

theorem key_kid {n : INode} (hn : n ∈ S.nodes) {c : Child} (hc : c ∈ n.children) {a : Nat} :
    keyOf (evalRef D S n (c.addr, a)) = (some (D.child c.addr).lwr, (D.attr a).lwr) := by
  have : ¬ c.addr = n.addr := fun e => node_child w.ok hn hn hc e.symm
  simp [keyOf, evalRef, this]

omit w in
theorem visitsOf_map {ms : List (INode × AVisit)} :
    visitsOf (ms.map fun y => .visit (toVisit D S y.1.addr 0 y.2)) = ms.map fun y => toVisit D S y.1.addr 0 y.2 := by
  induction ms with
  | nil => rfl
  | cons y ms ih =>
    have : visitsOf (VisitGen.Alt.visit (toVisit D S y.1.addr 0 y.2) :: ms.map fun y => .visit (toVisit D S y.1.addr 0 y.2)) =
        toVisit D S y.1.addr 0 y.2 :: visitsOf (ms.map fun y => .visit (toVisit D S y.1.addr 0 y.2)) := by simp [visitsOf]
    rw [List.map_cons, this, ih]
    rfl

/-- The outputs of the visit of the node that a child is. -/
theorem output_key {n : INode} {c : Child} (hc : c ∈ n.children) {v : AVisit}
    (hv : P.visits c.type = some [v]) {m : INode} (hm : m ∈ S.nodes) {u : AVisit} (hu : P.visits m.addr = some [u]) (hb : CanBe S c m)
    {o : EvalGen.ARef} (ho : o ∈ (toVisit D S m.addr 0 u).outputs) :
    ∃ x, AttrIn S c.type x ∧ x.syn = true ∧ x.addr ∈ v.outputs ∧ KeyAt D S n (childKey (toChild D c) o) c.addr x := by
  obtain ⟨a, ha, rfl⟩ := List.mem_map.1 ho
  obtain ⟨b, b1, b2, rfl⟩ := (outs_iff w hu a).1 ha
  have b1' := attrIn_node w.ok hm b1
  obtain ⟨x, x1, x2, x3, x4⟩ := attr_up w hm hb b1' (Or.inr b2)
  refine ⟨x, x1, x4.trans b2, (outs_iff w hv _).2 ⟨x, x1, x4.trans b2, rfl⟩, ?_⟩
  have : childKey (toChild D c) (visitRef D S m.addr b.addr) = (some (D.child c.addr).lwr, x.name) := by
    simp only [childKey, toChild, visitRef]
    rw [attr_lwr w b1, x2]
  rw [this]
  exact .kid hc x1 (Or.inr (x4.trans b2))

/-- An output of the visit of a node has its name. -/
theorem outputs_nodup {m : INode} {u : AVisit} (hu : P.visits m.addr = some [u]) :
    (u.outputs.map fun a => (D.attr a).lwr).Nodup := by
  refine List.Nodup.map_on ?_ ((w.sched.holds _ _ hu).nodup 0 u rfl).2
  intro a ha b hb e
  obtain ⟨x, x1, _, rfl⟩ := (outs_iff w hu a).1 ha
  obtain ⟨y, y1, _, rfl⟩ := (outs_iff w hu b).1 hb
  rw [attr_lwr w x1, attr_lwr w y1] at e
  rw [attrIn_inj w.ok x1 y1 e]

/-- Nothing is computed twice. -/
theorem path_keys {n : INode} (hn : n ∈ S.nodes) {A B : Spec.Visits.Known} {es : List VisitGen.Elem}
    (p : Path D S P n (En n) A es B) : (es.flatMap elemKeys).Nodup ∧
      ∀ k ∈ es.flatMap elemKeys, ∃ o x i, KeyAt D S n k o x ∧ At (En n) o x.addr i ∧ ¬ A (.node i) := by
  have f := w.sched.node n hn
  induction p with
  | nil => exact ⟨List.nodup_nil, (fun k hk => by cases hk)⟩
  | @own A B x i es hx hs hat hnew p ih =>
    have ek : elemKeys (.eval (evalRef D S n (n.addr, x.addr))) = [(none, x.name)] := by
      rw [elemKeys, key_own, attr_lwr w (own_attrIn hn hx)]
    have ka : KeyAt D S n (none, x.name) n.addr x := .own hx (Or.inr hs)
    rw [List.flatMap_cons, ek, List.singleton_append, List.nodup_cons]
    refine ⟨⟨?_, ih.1⟩, ?_⟩
    · intro hmem
      obtain ⟨o, y, j, h1, h2, h3⟩ := ih.2 _ hmem
      obtain ⟨rfl, rfl⟩ := keyAt_inj w hn ka h1
      exact h3 (Or.inr (by rw [at_inj f.nodup h2 hat]))
    · intro k hk
      rcases List.mem_cons.1 hk with rfl | hk
      · exact ⟨n.addr, x, i, ka, hat, hnew⟩
      · obtain ⟨o, y, j, h1, h2, h3⟩ := ih.2 _ hk
        exact ⟨o, y, j, h1, h2, fun h => h3 (Or.inl h)⟩
  | @kid A B c x i es hc hx hi hat hnew p ih =>
    have ek : elemKeys (.eval (evalRef D S n (c.addr, x.addr))) = [(some (D.child c.addr).lwr, x.name)] := by
      rw [elemKeys, key_kid w hn hc, attr_lwr w hx]
    have ka : KeyAt D S n (some (D.child c.addr).lwr, x.name) c.addr x := .kid hc hx (Or.inl hi)
    rw [List.flatMap_cons, ek, List.singleton_append, List.nodup_cons]
    refine ⟨⟨?_, ih.1⟩, ?_⟩
    · intro hmem
      obtain ⟨o, y, j, h1, h2, h3⟩ := ih.2 _ hmem
      obtain ⟨rfl, rfl⟩ := keyAt_inj w hn ka h1
      exact h3 (Or.inr (by rw [at_inj f.nodup h2 hat]))
    · intro k hk
      rcases List.mem_cons.1 hk with rfl | hk
      · exact ⟨c.addr, x, i, ka, hat, hnew⟩
      · obtain ⟨o, y, j, h1, h2, h3⟩ := ih.2 _ hk
        exact ⟨o, y, j, h1, h2, fun h => h3 (Or.inl h)⟩
  | @visit A B c v as es hc hv halt hin hnew hfresh p ih =>
    obtain ⟨ms, hne, rfl, hms, _⟩ := halt
    cases ms with
    | nil => exact absurd rfl hne
    | cons y ms =>
      obtain ⟨y1, y2, y3⟩ := hms y List.mem_cons_self
      have ek : elemKeys (.visit (toChild D c) ((y :: ms).map fun y => .visit (toVisit D S y.1.addr 0 y.2))) =
          (toVisit D S y.1.addr 0 y.2).outputs.map (childKey (toChild D c)) := by
        rw [elemKeys, visitsOf_map]
        rfl
      have out : ∀ k ∈ (toVisit D S y.1.addr 0 y.2).outputs.map (childKey (toChild D c)),
          ∃ x i, KeyAt D S n k c.addr x ∧ At (En n) c.addr x.addr i ∧ ¬ A (.node i) ∧ x.addr ∈ v.outputs := by
        intro k hk
        obtain ⟨o, ho, rfl⟩ := List.mem_map.1 hk
        obtain ⟨x, x1, x2, x3, x4⟩ := output_key w hc hv y1 y2 y3 ho
        obtain ⟨i, hi⟩ := f.hasKid c hc x x1 (Or.inr x2)
        exact ⟨x, i, x4, hi, hfresh _ _ hi ((f.syn _ x x1).trans x2), x3⟩
      rw [List.flatMap_cons, ek]
      refine ⟨List.nodup_append.2 ⟨?_, ih.1, ?_⟩, ?_⟩
      · have := outputs_nodup w y2
        simp only [toVisit, List.map_map]
        have e : (childKey (toChild D c) ∘ visitRef D S y.1.addr) = (fun l => (some (D.child c.addr).lwr, l)) ∘ fun a => (D.attr a).lwr := by
          funext a
          rfl
        rw [e, ← List.map_map]
        exact List.Nodup.map (fun a b h => by simpa using h) this
      · intro k hk k' hk' e
        subst e
        obtain ⟨x, i, a1, a2, _, a4⟩ := out k hk
        obtain ⟨o, y, j, h1, h2, h3⟩ := ih.2 _ hk'
        obtain ⟨rfl, rfl⟩ := keyAt_inj w hn a1 h1
        exact h3 (Or.inr (Or.inr ⟨x.addr, j, a4, h2, rfl⟩))
      · intro k hk
        rcases List.mem_append.1 hk with hk | hk
        · obtain ⟨x, i, a1, a2, a3, _⟩ := out k hk
          exact ⟨_, x, i, a1, a2, a3⟩
        · obtain ⟨o, y, j, h1, h2, h3⟩ := ih.2 _ hk
          exact ⟨o, y, j, h1, h2, fun h => h3 (Or.inl h)⟩

omit w in
theorem path_vars {n : INode} {A B : Spec.Visits.Known} {es : List VisitGen.Elem}
    (p : Path D S P n (En n) A es B) : es.flatMap elemVars = (es.flatMap elemKeys).map keyText := by
  induction p with
  | nil => rfl
  | own _ _ _ _ _ ih => rw [List.flatMap_cons, List.flatMap_cons, List.map_append, ih]; rfl
  | kid _ _ _ _ _ _ ih => rw [List.flatMap_cons, List.flatMap_cons, List.map_append, ih]; rfl
  | @visit A B c v as es hc hv halt hin hnew hfresh p ih =>
    rw [List.flatMap_cons, List.flatMap_cons, List.map_append, ih]
    congr 1
    obtain ⟨ms, hne, rfl, hms, _⟩ := halt
    cases ms with
    | nil => exact absurd rfl hne
    | cons y ms =>
      rw [elemKeys, visitsOf_map]
      simp only [List.map_cons, elemVars, List.map_map]
      rfl

/-! ### The rest of the conditions -/

omit w in
/-- The elements of a path. -/
theorem path_mem {n : INode} {A B : Spec.Visits.Known} {es : List VisitGen.Elem} (p : Path D S P n (En n) A es B) :
    (∀ a ∈ evals es, (∃ x ∈ n.attrs, x.syn = true ∧ a = evalRef D S n (n.addr, x.addr)) ∨
      ∃ c ∈ n.children, ∃ x, AttrIn S c.type x ∧ x.inh = true ∧ a = evalRef D S n (c.addr, x.addr)) ∧
    ∀ y ∈ Spec.VisitGen.childVisits es, ∃ c ∈ n.children, ∃ v, y.1 = toChild D c ∧ P.visits c.type = some [v] ∧ AltsOf D S P c y.2 := by
  induction p with
  | nil => exact ⟨(fun a ha => by cases ha), (fun y hy => by cases hy)⟩
  | own hx hs _ _ _ ih =>
    refine ⟨fun a ha => ?_, fun y hy => ih.2 y (by simpa [Spec.VisitGen.childVisits] using hy)⟩
    simp only [evals, List.filterMap_cons, List.mem_cons] at ha
    rcases ha with rfl | ha
    · exact Or.inl ⟨_, hx, hs, rfl⟩
    · exact ih.1 a ha
  | kid hc hx hi _ _ _ ih =>
    refine ⟨fun a ha => ?_, fun y hy => ih.2 y (by simpa [Spec.VisitGen.childVisits] using hy)⟩
    simp only [evals, List.filterMap_cons, List.mem_cons] at ha
    rcases ha with rfl | ha
    · exact Or.inr ⟨_, hc, _, hx, hi, rfl⟩
    · exact ih.1 a ha
  | visit hc hv halt _ _ _ _ ih =>
    refine ⟨fun a ha => ih.1 a (by simpa [evals] using ha), fun y hy => ?_⟩
    simp only [Spec.VisitGen.childVisits, List.filterMap_cons, List.mem_cons] at hy
    rcases hy with rfl | hy
    · exact ⟨_, hc, _, rfl, hv, halt⟩
    · exact ih.2 y hy

omit w in
theorem path_structs {n : INode} {A B : Spec.Visits.Known} {es : List VisitGen.Elem} (p : Path D S P n (En n) A es B) :
    ∀ u ∈ structs es, ∃ c ∈ n.children, ∃ m ∈ S.nodes, ∃ v, D.mandatory c.addr = true ∧ Only S c.type m ∧
      P.visits m.addr = some [v] ∧ u = toVisit D S m.addr 0 v ∧ 2 ≤ v.outputs.length ∧ ¬ A (.visit c.addr 0) := by
  induction p with
  | nil => exact fun u hu => by cases hu
  | own _ _ _ _ _ ih =>
    intro u hu
    obtain ⟨c, h1, m, h2, v, h3, h4, h5, h6, h7, h8⟩ := ih u (by simpa [structs] using hu)
    exact ⟨c, h1, m, h2, v, h3, h4, h5, h6, h7, fun h => h8 (Or.inl h)⟩
  | kid _ _ _ _ _ _ ih =>
    intro u hu
    obtain ⟨c, h1, m, h2, v, h3, h4, h5, h6, h7, h8⟩ := ih u (by simpa [structs] using hu)
    exact ⟨c, h1, m, h2, v, h3, h4, h5, h6, h7, fun h => h8 (Or.inl h)⟩
  | @visit A B c v as es hc hv halt hin hnew hfresh p ih =>
    intro u hu
    have hu : u ∈ structs [.visit (toChild D c) as] ++ structs es := by
      rw [structs, structs, ← List.filterMap_append]; exact hu
    rcases List.mem_append.1 hu with hu | hu
    · obtain ⟨ms, hne, rfl, hms, hon⟩ := halt
      match ms, hms, hon with
      | [y], hms, hon =>
        simp only [structs, List.map_cons, List.map_nil, List.filterMap_cons, List.filterMap_nil] at hu
        obtain ⟨y1, y2, y3⟩ := hms y List.mem_cons_self
        split at hu
        · cases hu
        · rename_i b hb
          split at hb
          · rename_i hcond
            cases hb
            cases List.mem_singleton.1 hu
            exact ⟨c, hc, y.1, y1, y.2, hcond.1, hon y rfl, y2, rfl, by simpa [toVisit] using hcond.2, hnew⟩
          · cases hb
      | [], _, _ => exact absurd rfl hne
      | _ :: _ :: _, _, _ => simp [structs] at hu
    · obtain ⟨c, h1, m, h2, v, h3, h4, h5, h6, h7, h8⟩ := ih u hu
      exact ⟨c, h1, m, h2, v, h3, h4, h5, h6, h7, fun h => h8 (Or.inl h)⟩

theorem few_outputs {m : INode} (hm : m ∈ S.nodes) {v : AVisit} (hv : P.visits m.addr = some [v]) :
    v.outputs.length ≤ (m.attrs.filter (·.syn)).length := by
  have h : v.outputs ⊆ (m.attrs.filter (·.syn)).map (·.addr) := by
    intro a ha
    obtain ⟨x, x1, x2, rfl⟩ := (outs_iff w hv a).1 ha
    exact List.mem_map.2 ⟨x, List.mem_filter.2 ⟨attrIn_node w.ok hm x1, x2⟩, rfl⟩
  have := (List.subperm_of_subset ((w.sched.holds _ _ hv).nodup 0 v rfl).2 h).length_le
  simpa using this

theorem path_once {n : INode} (hn : n ∈ S.nodes) {A B : Spec.Visits.Known} {es : List VisitGen.Elem}
    (p : Path D S P n (En n) A es B) :
    (structs es).Pairwise fun v w => v.inode.lwr = w.inode.lwr → v.index ≠ w.index := by
  induction p with
  | nil => exact List.Pairwise.nil
  | own _ _ _ _ _ ih => simpa [structs] using ih
  | kid _ _ _ _ _ _ ih => simpa [structs] using ih
  | @visit A B c v as es hc hv halt hin hnew hfresh p ih =>
    have e : structs (.visit (toChild D c) as :: es) = structs [.visit (toChild D c) as] ++ structs es := by
      rw [structs, structs, structs, ← List.filterMap_append]; rfl
    rw [e, List.pairwise_append]
    refine ⟨?_, ih, ?_⟩
    · have hl : (structs [VisitGen.Elem.visit (toChild D c) as]).length ≤ 1 := List.length_filterMap_le _ _
      match structs [VisitGen.Elem.visit (toChild D c) as], hl with
      | [], _ => exact List.Pairwise.nil
      | [_], _ => exact List.pairwise_singleton _ _
      | _ :: _ :: _, hl => simp at hl
    · intro u hu u' hu' el
      obtain ⟨d, d1, m', m1', v', a1, a2, a3, rfl, a5, a6⟩ := path_structs p u' hu'
      have p0 : Path D S P n (En n) A [.visit (toChild D c) as] _ := .visit hc hv halt hin hnew hfresh .nil
      have hcd : ¬ A (.visit c.addr 0) ∧ c ≠ d := ⟨hnew, by rintro rfl; exact a6 (Or.inr (Or.inl rfl))⟩
      obtain ⟨ms, hne, rfl, hms, hon⟩ := halt
      match ms, hms, hon with
      | [y], hms, hon =>
        obtain ⟨c', c1', m, m1, v'', b1, b2, b3, rfl, b5, _⟩ := path_structs p0 u hu
        obtain ⟨y1, y2, y3⟩ := hms y List.mem_cons_self
        simp only [structs, List.map_cons, List.map_nil, List.filterMap_cons, List.filterMap_nil] at hu
        have hm : D.mandatory c.addr = true ∧ y.1 = m := by
          split at hu
          · cases hu
          · rename_i b hb
            split at hb
            · rename_i hcond
              cases hb
              refine ⟨hcond.1, ?_⟩
              have := List.mem_singleton.1 hu
              refine w.named.types _ y1 _ m1 ?_
              simp only [toVisit, VisitGen.Visit.mk.injEq] at this
              rw [← this.1]
            · cases hb
        obtain ⟨hmand, rfl⟩ := hm
        have := w.named.types _ m1 _ m1' (by simpa [toVisit] using el)
        subst this
        have h1 := w.plain.structs n hn c hc d d1 hcd.2 hmand a1 _ m1 (hon y rfl) a2
        have h2 := few_outputs w m1 a3
        omega
      | [], _, _ => exact absurd rfl hne
      | _ :: _ :: _, _, _ => simp [structs] at hu

theorem all_apart : Apart (allVisits D S P) := by
  unfold Apart allVisits
  rw [List.pairwise_flatMap]
  constructor
  · intro n hn
    cases hv : P.visits n.addr with
    | none => exact List.Pairwise.nil
    | some vs =>
      have := (w.sched.holds _ _ hv).one (w.one _)
      match vs, this with
      | [], _ => exact List.Pairwise.nil
      | [_], _ => exact List.pairwise_singleton _ _
      | _ :: _ :: _, hl => simp at hl
  · have nd : S.nodes.Nodup := List.Nodup.of_map _ (List.nodup_append.1 (List.nodup_append.1 w.ok.distinct).1).1
    refine List.Pairwise.imp_of_mem ?_ nd
    intro n m hn hm hne u hu u' hu' e
    obtain ⟨i, _, rfl⟩ := List.mem_mapIdx.1 hu
    obtain ⟨j, _, rfl⟩ := List.mem_mapIdx.1 hu'
    exact absurd (w.named.types n hn m hm e) hne

theorem all_ok : ∀ u ∈ allVisits D S P, VisitOk u := by
  intro u hu
  obtain ⟨n, hn, hu⟩ := List.mem_flatMap.1 hu
  obtain ⟨i, hi, rfl⟩ := List.mem_mapIdx.1 hu
  have hg : ((P.visits n.addr).getD [])[i]? = some ((P.visits n.addr).getD [])[i] := List.getElem?_eq_getElem hi
  obtain ⟨v, hv⟩ : ∃ v, P.visits n.addr = some [v] ∧ i = 0 ∧ ((P.visits n.addr).getD [])[i] = v := by
    generalize ((P.visits n.addr).getD [])[i] = v at hg
    rcases hv : P.visits n.addr with _ | vs
    · rw [hv] at hg; simp at hg
    · rw [hv] at hg
      obtain ⟨h2, h3⟩ := first w hv hg
      exact ⟨v, by rw [h2], h3, rfl⟩
  obtain ⟨hv, rfl, e⟩ := hv
  rw [e]
  constructor
  · intro a ha
    rcases List.mem_append.1 ha with ha | ha
    all_goals
      obtain ⟨b, _, rfl⟩ := List.mem_map.1 ha
      rfl
  · have := outputs_nodup w hv
    simp only [toVisit, List.map_map]
    exact this

theorem node_unique {n : INode} (hn : n ∈ S.nodes) : Spec.EvalGen.Unique (toNode D S n) := by
  have inj : ∀ q ∈ n.eqs, ∀ q' ∈ n.eqs, Spec.EvalGen.SameRef (toRef D S n q.rule) (toRef D S n q'.rule) →
      place n q.rule = place n q'.rule := by
    rintro q hq q' hq' ⟨e1, e2⟩
    have r1 := (w.ok.rules n hn q hq).1
    have r2 := (w.ok.rules n hn q' hq').1
    simp only [toRef, Option.map_map] at e1 e2
    cases h1 : q.rule.child with
    | none =>
      cases h2 : q'.rule.child with
      | some => rw [h1, h2] at e1; cases e1
      | none =>
        simp only [Resolved, h1] at r1
        simp only [Resolved, h2] at r2
        rw [attr_lwr w (own_attrIn hn r1), attr_lwr w (own_attrIn hn r2)] at e2
        rw [place, place, name_inj w.ok hn r1 r2 e2, h1, h2]
    | some c =>
      cases h2 : q'.rule.child with
      | none => rw [h1, h2] at e1; cases e1
      | some c' =>
        simp only [Resolved, h1] at r1
        simp only [Resolved, h2] at r2
        obtain ⟨ch, hch, rfl, a1⟩ := r1
        obtain ⟨ch', hch', rfl, a2⟩ := r2
        have a1 : AttrIn S ch.type q.rule.attr := a1
        have a2 : AttrIn S ch'.type q'.rule.attr := a2
        rw [h1, h2] at e1
        simp only [Option.map_some, Function.comp, Option.some.injEq] at e1
        have := w.named.children n hn ch hch ch' hch' e1
        subst this
        rw [attr_lwr w a1, attr_lwr w a2] at e2
        rw [place, place, attrIn_inj w.ok a1 a2 e2, h1, h2]
  refine ⟨?_, ?_⟩
  · simp only [toNode, List.pairwise_map]
    have := w.each n hn
    rw [List.Nodup, List.pairwise_map] at this
    refine List.Pairwise.imp_of_mem ?_ this
    intro q q' hq hq' hne hs
    exact hne (inj q hq q' hq' hs)
  · intro e he i hi
    obtain ⟨q, hq, rfl⟩ := List.mem_map.1 he
    have r1 := (w.ok.rules n hn q hq).1
    simp only [toRef, Option.map_eq_some_iff] at hi
    obtain ⟨c, hc, rfl⟩ := hi
    simp only [Resolved, hc] at r1
    obtain ⟨ch, hch, rfl, _⟩ := r1
    exact w.plain.this n hn ch hch

theorem node_distinct {n : INode} (hn : n ∈ S.nodes) : Spec.EvalGen.Distinct (toNode D S n) := by
  simp only [Spec.EvalGen.Distinct, toNode, List.pairwise_map]
  have nd : n.children.Nodup := by
    have h1 := (List.nodup_append.1 w.ok.distinct).2.1
    have h2 := List.Nodup.of_map _ h1
    rw [List.nodup_flatMap] at h2
    exact h2.1 n hn
  refine List.Pairwise.imp_of_mem ?_ nd
  intro c d hc hd hne e
  have e : UInt64.ofNat c.addr = UInt64.ofNat d.addr := e
  have e := congrArg UInt64.toNat e
  rw [UInt64.toNat_ofNat', UInt64.toNat_ofNat', Nat.mod_eq_of_lt (w.named.size n hn c hc), Nat.mod_eq_of_lt (w.named.size n hn d hd)] at e
  exact hne (child_inj w.ok hn hn hc hd e)

theorem few_optionals {n : INode} (hn : n ∈ S.nodes) (e : EvalGen.Equation) :
    (Spec.EvalGen.optionals (toNode D S n) e).length < 64 := by
  have h : Spec.EvalGen.optionals (toNode D S n) e ⊆ (toNode D S n).children := by
    intro c hc
    exact (Spec.EvalGen.optionals_mem hc).1
  have := (List.subperm_of_subset (Spec.EvalGen.firsts_nodup _) h).length_le
  have h2 := w.plain.few n hn
  simp only [toNode, List.length_map] at this
  exact Nat.lt_of_le_of_lt this h2

theorem eval_ok {n : INode} (hn : n ∈ S.nodes) {a : EvalGen.ARef}
    (ha : (∃ x ∈ n.attrs, x.syn = true ∧ a = evalRef D S n (n.addr, x.addr)) ∨
      ∃ c ∈ n.children, ∃ x, AttrIn S c.type x ∧ x.inh = true ∧ a = evalRef D S n (c.addr, x.addr)) :
    EvalOk (toNode D S n) a := by
  have res : ∀ q ∈ n.eqs, Spec.EvalGen.Resolved (toNode D S n) ⟨toRef D S n q.rule, q.args.map (toRef D S n)⟩ := by
    intro q hq b hb i hi
    obtain ⟨d, hd, rfl⟩ := List.mem_map.1 hb
    simp only [toRef, Option.map_eq_some_iff] at hi
    obtain ⟨c, hc, rfl⟩ := hi
    have r := w.args n hn q hq d hd
    simp only [Resolved, hc] at r
    obtain ⟨ch, hch, rfl, _⟩ := r
    exact ⟨toChild D ch, List.mem_map.2 ⟨ch, hch, rfl⟩, rfl⟩
  rcases ha with ⟨x, hx, hs, rfl⟩ | ⟨c, hc, x, hx, hi, rfl⟩
  · refine ⟨fun _ => ?_, ?_, ?_⟩
    · simp only [evalRef]
      rw [attr_syn w.equipped (attrIn_mem (own_attrIn hn hx))]
      exact hs
    · intro i hi
      simp [evalRef] at hi
    · obtain ⟨q, hq⟩ := w.equipped.own n hn x hx hs
      refine ⟨_, List.mem_map.2 ⟨q, hq.1, rfl⟩, ?_, res q hq.1, few_optionals w hn _⟩
      obtain ⟨r1, r2⟩ := rule_own' w.ok hn hq
      simp [Spec.EvalGen.SameRef, evalRef, toRef, r1, r2]
  · have hne : ¬ c.addr = n.addr := fun e => node_child w.ok hn hn hc e.symm
    refine ⟨?_, ?_, ?_⟩
    · intro h
      simp [evalRef, hne] at h
    · intro i hi
      simp only [evalRef, hne, decide_false, Option.some.injEq] at hi
      subst hi
      exact w.named.wfChild _
    · have : ∃ q, For n (c.addr, x.addr) q := by
        rcases hx with ⟨m, hm, e, hx⟩ | ⟨s, hs, e, hx⟩
        · exact (w.equipped.child n hn c hc).1 m hm e x hx hi
        · exact (w.equipped.child n hn c hc).2 s hs e x hx hi
      obtain ⟨q, hq⟩ := this
      refine ⟨_, List.mem_map.2 ⟨q, hq.1, rfl⟩, ?_, res q hq.1, few_optionals w hn _⟩
      obtain ⟨r1, r2⟩ := rule_kid' w.ok hn hc hq
      simp [Spec.EvalGen.SameRef, evalRef, toRef, r1, r2, hne]

theorem alts_good {c : Child} {as : List VisitGen.Alt} (h : AltsOf D S P c as) : AltsOk (allVisits D S P) as := by
  obtain ⟨ms, hne, rfl, hms, _⟩ := h
  cases ms with
  | nil => exact absurd rfl hne
  | cons y ms =>
    obtain ⟨y1, y2, y3⟩ := hms y List.mem_cons_self
    refine ⟨⟨_, _, rfl, ?_⟩, ?_⟩
    · intro u hu ho
      rw [visitsOf_map] at hu
      obtain ⟨z, hz, rfl⟩ := List.mem_map.1 hu
      obtain ⟨z1, z2, z3⟩ := hms z hz
      intro he
      apply ho
      simp only [toVisit, List.map_eq_nil_iff] at he ⊢
      cases hzo : z.2.outputs with
      | nil => rfl
      | cons a l =>
        obtain ⟨b, b1, b2, rfl⟩ := (outs_iff w z2 a).1 (by rw [hzo]; simp)
        obtain ⟨x, x1, x2, x3, x4⟩ := attr_up w z1 z3 (attrIn_node w.ok z1 b1) (Or.inr b2)
        obtain ⟨b', b1', _, _, b4'⟩ := attr_down w y1 y3 x1 (Or.inr (x4.trans b2))
        have := (outs_iff w y2 b'.addr).2 ⟨b', own_attrIn y1 b1', b4'.trans (x4.trans b2), rfl⟩
        rw [he] at this
        cases this
    · intro u hu
      rw [visitsOf_map] at hu
      obtain ⟨z, hz, rfl⟩ := List.mem_map.1 hu
      obtain ⟨z1, z2, z3⟩ := hms z hz
      exact allVisits_mem z1 z2 rfl

/-- Inherited attributes of children that are known have been evaluated. -/
def Comes (D : Names) (S : Spec) (n : INode) (e : Env) (A : Spec.Visits.Known) (done : List EvalGen.ARef) : Prop :=
  ∀ c ∈ n.children, ∀ x, AttrIn S c.type x → x.inh = true → ∀ p, At e c.addr x.addr p → A (.node p) →
    ∃ b ∈ done, keyOf b = (some (D.child c.addr).lwr, x.name)

theorem path_before {n : INode} (hn : n ∈ S.nodes) {A B : Spec.Visits.Known} {es : List VisitGen.Elem}
    (p : Path D S P n (En n) A es B) : ∀ {done : List EvalGen.ARef}, Comes D S n (En n) A done → ∀ pre c alts post,
      es = pre ++ .visit c alts :: post → ∀ u ∈ visitsOf alts, ∀ a ∈ u.inputs, ∃ b ∈ done ++ evals pre, keyOf b = childKey c a := by
  have f := w.sched.node n hn
  have here : ∀ (el : VisitGen.Elem) (es : List VisitGen.Elem), (∀ c alts, el ≠ .visit c alts) → ∀ pre c alts post,
      el :: es = pre ++ .visit c alts :: post → ∃ pre', pre = el :: pre' ∧ es = pre' ++ .visit c alts :: post := by
    intro el es hel pre c alts post e
    cases pre with
    | nil => simp only [List.nil_append, List.cons.injEq] at e; exact absurd e.1 (hel _ _)
    | cons y pre => simp only [List.cons_append, List.cons.injEq] at e; exact ⟨pre, by rw [e.1], e.2⟩
  induction p with
  | nil =>
    intro done _ pre c alts post e
    simp at e
  | @own A B x i es hx hs hat hnew p ih =>
    intro done hd pre c alts post e u hu a ha
    obtain ⟨pre', rfl, e'⟩ := here _ _ (by intro _ _ h; cases h) _ _ _ _ e
    have hd' : Comes D S n (En n) (fun y => A y ∨ y = .node i) (done ++ [evalRef D S n (n.addr, x.addr)]) := by
      rintro c hc y hy hi p hp (hA | hA)
      · obtain ⟨b, b1, b2⟩ := hd c hc y hy hi p hp hA
        exact ⟨b, List.mem_append_left _ b1, b2⟩
      · cases hA
        have := hat.symm.trans hp
        simp only [Option.some.injEq, Prod.mk.injEq] at this
        exact absurd this.1 (node_child w.ok hn hn hc)
    obtain ⟨b, b1, b2⟩ := ih hd' pre' c alts post e' u hu a ha
    exact ⟨b, by simpa [evals] using b1, b2⟩
  | @kid A B c0 x i es hc hx hi hat hnew p ih =>
    intro done hd pre c alts post e u hu a ha
    obtain ⟨pre', rfl, e'⟩ := here _ _ (by intro _ _ h; cases h) _ _ _ _ e
    have hd' : Comes D S n (En n) (fun y => A y ∨ y = .node i) (done ++ [evalRef D S n (c0.addr, x.addr)]) := by
      rintro c hc' y hy hyi p hp (hA | hA)
      · obtain ⟨b, b1, b2⟩ := hd c hc' y hy hyi p hp hA
        exact ⟨b, List.mem_append_left _ b1, b2⟩
      · cases hA
        have := hat.symm.trans hp
        simp only [Option.some.injEq, Prod.mk.injEq] at this
        have e1 := child_inj w.ok hn hn hc hc' this.1
        subst e1
        have e2 := addr_inj w.world (attrIn_mem hx) (attrIn_mem hy) this.2
        subst e2
        exact ⟨_, List.mem_append_right _ (List.mem_singleton.2 rfl), by rw [key_kid w hn hc, attr_lwr w hx]⟩
    obtain ⟨b, b1, b2⟩ := ih hd' pre' c alts post e' u hu a ha
    exact ⟨b, by simpa [evals] using b1, b2⟩
  | @visit A B c0 v as es hc hv halt hin hnew hfresh p ih =>
    intro done hd pre c alts post e u hu a ha
    cases pre with
    | nil =>
      simp only [List.nil_append, List.cons.injEq, VisitGen.Elem.visit.injEq] at e
      obtain ⟨⟨rfl, rfl⟩, _⟩ := e
      obtain ⟨ms, hne, rfl, hms, _⟩ := halt
      rw [visitsOf_map] at hu
      obtain ⟨z, hz, rfl⟩ := List.mem_map.1 hu
      obtain ⟨z1, z2, z3⟩ := hms z hz
      obtain ⟨a, ha', rfl⟩ := List.mem_map.1 ha
      obtain ⟨b, b1, b2, rfl⟩ := (ins_iff w z2 a).1 ha'
      obtain ⟨x, x1, x2, x3, x4⟩ := attr_up w z1 z3 (attrIn_node w.ok z1 b1) (Or.inl b2)
      obtain ⟨p, hp1, hp2⟩ := hin x.addr ((ins_iff w hv _).2 ⟨x, x1, x3.trans b2, rfl⟩)
      obtain ⟨r, r1, r2⟩ := hd c0 hc x x1 (x3.trans b2) p hp1 hp2
      refine ⟨r, List.mem_append_left _ r1, ?_⟩
      rw [r2]
      simp only [childKey, toChild, visitRef]
      rw [attr_lwr w b1, x2]
    | cons y pre =>
      simp only [List.cons_append, List.cons.injEq] at e
      obtain ⟨rfl, e⟩ := e
      have hd' : Comes D S n (En n) (fun y => A y ∨ y = .visit c0.addr 0 ∨
          ∃ a p, a ∈ v.outputs ∧ At (En n) c0.addr a p ∧ y = .node p) done := by
        rintro c hc' y hy hyi p hp (hA | hA | ⟨a, p', h1, h2, hA⟩)
        · exact hd c hc' y hy hyi p hp hA
        · cases hA
        · cases hA
          have := h2.symm.trans hp
          simp only [Option.some.injEq, Prod.mk.injEq] at this
          obtain ⟨x, x1, x2, x3⟩ := (outs_iff w hv a).1 h1
          have e2 := addr_inj w.world (attrIn_mem x1) (attrIn_mem hy) (x3.trans this.2)
          subst e2
          rw [syn_not_inh w x1 x2] at hyi
          cases hyi
      obtain ⟨b, b1, b2⟩ := ih hd' pre c alts post e u hu a ha
      exact ⟨b, by simpa [evals] using b1, b2⟩

theorem path_outs {n : INode} (hn : n ∈ S.nodes) {A B : Spec.Visits.Known} {es : List VisitGen.Elem}
    (p : Path D S P n (En n) A es B) {a i : Nat} (hi : At (En n) n.addr a i) : B (.node i) →
    A (.node i) ∨ ∃ b ∈ evals es, keyOf b = (none, (D.attr a).lwr) := by
  induction p with
  | nil => exact Or.inl
  | @own A B x j es hx hs hat hnew p ih =>
    intro hB
    rcases ih hB with (h | h) | ⟨b, b1, b2⟩
    · exact Or.inl h
    · cases h
      have := hat.symm.trans hi
      simp only [Option.some.injEq, Prod.mk.injEq, true_and] at this
      exact Or.inr ⟨evalRef D S n (n.addr, x.addr), by simp [evals], by rw [key_own, this]⟩
    · exact Or.inr ⟨b, by simp only [evals, List.filterMap_cons]; exact List.mem_cons_of_mem _ b1, b2⟩
  | @kid A B c x j es hc hx hs hat hnew p ih =>
    intro hB
    rcases ih hB with (h | h) | ⟨b, b1, b2⟩
    · exact Or.inl h
    · cases h
      have := hat.symm.trans hi
      simp only [Option.some.injEq, Prod.mk.injEq] at this
      exact absurd this.1.symm (node_child w.ok hn hn hc)
    · exact Or.inr ⟨b, by simp only [evals, List.filterMap_cons]; exact List.mem_cons_of_mem _ b1, b2⟩
  | @visit A B c v as es hc hv halt hin hnew hfresh p ih =>
    intro hB
    rcases ih hB with (h | h | ⟨a', p', h1, h2, h⟩) | ⟨b, b1, b2⟩
    · exact Or.inl h
    · cases h
    · cases h
      have := h2.symm.trans hi
      simp only [Option.some.injEq, Prod.mk.injEq] at this
      exact absurd this.1.symm (node_child w.ok hn hn hc)
    · exact Or.inr ⟨b, by simpa [evals] using b1, b2⟩

/-- The visits of plain specifications with at most one visit for each type can be generated. -/
theorem generable : Generable D S P := by
  intro n hn vs hvs seqs hseqs i v seq hi hsi es hes
  have f := w.sched.node n hn
  obtain ⟨rfl, rfl⟩ := first w hvs hi
  have ho := f.own
  rw [hvs] at ho
  have ho := Option.some.inj ho
  have hp := f.plan
  rw [hseqs] at hp
  cases hp
  rw [List.getElem?_map] at hsi
  obtain ⟨evs, hev, rfl⟩ := Option.map_eq_some_iff.1 hsi
  have st := f.step 0 v evs (by rw [← ho]; rfl) hev
  rw [f.start] at st
  have ei := einv_inputs (self_not_kid w.world hn) (einv_empty (En n)) v
  have p := path w hn st.1 (no_own w.world hn hev) ei es hes
  obtain ⟨kn, kv⟩ := path_keys w hn p
  obtain ⟨mem1, mem2⟩ := path_mem p
  have inkey : ∀ k ∈ (toVisit D S n.addr 0 v).inputs.map keyOf, ∃ x ∈ n.attrs, x.addr ∈ v.inputs ∧ KeyAt D S n k n.addr x := by
    intro k hk
    obtain ⟨r, hr, rfl⟩ := List.mem_map.1 hk
    obtain ⟨a, ha, rfl⟩ := List.mem_map.1 hr
    obtain ⟨x, x1, x2, rfl⟩ := (ins_iff w hvs a).1 ha
    refine ⟨x, attrIn_node w.ok hn x1, ha, ?_⟩
    have : keyOf (visitRef D S n.addr x.addr) = (none, x.name) := by
      simp only [keyOf, visitRef, Option.map_none]
      rw [attr_lwr w x1]
    rw [this]
    exact .own (attrIn_node w.ok hn x1) (Or.inl x2)
  have keys : ((toVisit D S n.addr 0 v).inputs.map keyOf ++ es.flatMap elemKeys).Nodup := by
    refine List.nodup_append.2 ⟨?_, kn, ?_⟩
    · simp only [toVisit, List.map_map]
      refine List.Nodup.map_on ?_ ((w.sched.holds _ _ hvs).nodup 0 v rfl).1
      intro a ha b hb e
      obtain ⟨x, x1, _, rfl⟩ := (ins_iff w hvs a).1 ha
      obtain ⟨y, y1, _, rfl⟩ := (ins_iff w hvs b).1 hb
      simp only [Function.comp, keyOf, visitRef, Option.map_none, Prod.mk.injEq, true_and] at e
      rw [attr_lwr w x1, attr_lwr w y1] at e
      rw [attrIn_inj w.ok x1 y1 e]
    · intro k hk k' hk' e
      subst e
      obtain ⟨x, x1, x2, x3⟩ := inkey k hk
      obtain ⟨o, y, j, h1, h2, h3⟩ := kv k hk'
      obtain ⟨rfl, rfl⟩ := keyAt_inj w hn x3 h1
      exact h3 (Or.inr ⟨x.addr, j, x2, by rw [f.self]; exact h2, rfl⟩)
  have vars : Spec.VisitGen.variables (toVisit D S n.addr 0 v) es =
      ((toVisit D S n.addr 0 v).inputs.map keyOf ++ es.flatMap elemKeys).map keyText := by
    rw [Spec.VisitGen.variables, path_vars p, List.map_append, List.map_map]
    rfl
  have var : ∀ k ∈ (toVisit D S n.addr 0 v).inputs.map keyOf ++ es.flatMap elemKeys, VarKey D S n k := by
    intro k hk
    rcases List.mem_append.1 hk with hk | hk
    · obtain ⟨x, _, _, h⟩ := inkey k hk
      exact h.var
    · obtain ⟨_, _, _, h, _⟩ := kv k hk
      exact h.var
  refine
    { names := ?_, result := ?_, once := path_once w hn p, mem := allVisits_mem hn hvs rfl, apart := all_apart w, visits := all_ok w,
      unique := node_unique w hn, distinct := node_distinct w hn, evalOk := fun a ha => eval_ok w hn (mem1 a ha),
      altsOk := ?_, before := ?_, outs := ?_, sep := ?_ }
  · rw [vars]
    exact List.Nodup.map_on (fun k hk k' hk' => w.plain.texts n hn k k' (var k hk) (var k' hk')) keys
  · intro _ hmem
    rw [vars] at hmem
    obtain ⟨k, hk, e⟩ := List.mem_map.1 hmem
    exact w.plain.result n hn k (var k hk) e
  · intro y hy
    obtain ⟨c, hc, u, e, _, h⟩ := mem2 y hy
    rw [e]
    exact ⟨w.named.wfChild _, alts_good w h⟩
  · intro pre c alts post e u hu a ha
    have hc0 : Comes D S n (En n) (withInputs (En n) v fun _ => False) [] := by
      rintro c hc y hy hyi p hp (hA | ⟨a, p', h1, h2, hA⟩)
      · exact hA.elim
      · cases hA
        have := h2.symm.trans hp
        simp only [Option.some.injEq, Prod.mk.injEq] at this
        rw [f.self] at this
        exact absurd this.1 (node_child w.ok hn hn hc)
    simpa using path_before w hn p hc0 pre c alts post e u hu a ha
  · intro o ho'
    obtain ⟨a, ha, rfl⟩ := List.mem_map.1 ho'
    obtain ⟨i, hi1, hi2⟩ := st.2 a ha
    rw [f.self] at hi1
    rcases path_outs w hn p hi1 hi2 with (h | ⟨a', p', h1, h2, h⟩) | ⟨b, b1, b2⟩
    · exact h.elim
    · cases h
      rw [f.self] at h2
      have := h2.symm.trans hi1
      simp only [Option.some.injEq, Prod.mk.injEq, true_and] at this
      subst this
      obtain ⟨x, x1, x2, e⟩ := (ins_iff w hvs a').1 h1
      obtain ⟨y, y1, y2, e'⟩ := (outs_iff w hvs a').1 ha
      have := addr_inj w.world (attrIn_mem x1) (attrIn_mem y1) (e.trans e'.symm)
      subst this
      rw [syn_not_inh w x1 y2] at x2
      cases x2
    · exact ⟨b, b1, by rw [b2]; rfl⟩
  · intro b hb y hy u hu o ho' e
    obtain ⟨c, hc, v', e1, hv', h⟩ := mem2 y hy
    obtain ⟨ms, hne, e2, hms, _⟩ := h
    rw [e2, visitsOf_map] at hu
    obtain ⟨z, hz, rfl⟩ := List.mem_map.1 hu
    obtain ⟨z1, z2, z3⟩ := hms z hz
    obtain ⟨x, x1, x2, _, x4⟩ := output_key (n := n) w hc hv' z1 z2 z3 ho'
    rw [e1] at e
    rw [← e] at x4
    rcases mem1 b hb with ⟨x', h1, h2, rfl⟩ | ⟨c', hc', x', h1, h2, rfl⟩
    · rw [e] at x4
      rw [key_own] at e
      simp [childKey] at e
    · rw [key_kid w hn hc', attr_lwr w h1] at x4
      obtain ⟨e3, e4⟩ := keyAt_inj w hn x4 (.kid hc' h1 (Or.inl h2))
      subst e4
      rw [syn_not_inh w x1 x2] at h2
      cases h2

end

end Verif.Evaluator
