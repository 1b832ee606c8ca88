import Verif.Lemmas.EvaluatorRun
import Mathlib.Data.Fintype.Card
import Mathlib.Data.Set.Finite.Lattice

/-!
# The equations of a tree have a solution

If no attribute of a tree is needed to compute itself, then the attributes can be computed one after the other.
-/

namespace Verif.Evaluator
open Verif.Str Verif.Ids Verif.Induce Verif.Schedule Verif.Visits Verif.Spec.Induce Verif.Spec.AttrTree Verif.Spec.Evaluate
open Verif.Spec.Evaluator Verif.AttrTree Verif.Evaluate

/-- What the arguments of an equation stand for. -/
inductive ArgsOf (n : INode) (kids : Nat → Tree) : List Ref → List Vertex → Prop where
  | nil : ArgsOf n kids [] []
  | missing {d c rest us} : d.child = some c → kids c = .null → ArgsOf n kids rest us → ArgsOf n kids (d :: rest) us
  | value {d u rest us} : Means n kids d u → ArgsOf n kids rest us → ArgsOf n kids (d :: rest) (u :: us)

/-- The equation for an attribute of a tree. -/
inductive Inst (D : Names) (S : Spec) : Tree → Vertex → CStr → List Vertex → Prop where
  | here {n kids q v us} : q ∈ n.eqs → Means n kids q.rule v → ArgsOf n kids q.args us →
      Inst D S (.node n kids) v (userFn D S n kids q) us
  | deeper {n kids c v fn us} : c ∈ n.children → Inst D S (kids c.addr) v fn us →
      Inst D S (.node n kids) (c.addr :: v.1, v.2) fn (us.map fun u => (c.addr :: u.1, u.2))

theorem argsOf_mem {n : INode} {kids : Nat → Tree} {args : List Ref} {us : List Vertex} (h : ArgsOf n kids args us) :
    ∀ u ∈ us, ∃ d ∈ args, Means n kids d u := by
  induction h with
  | nil => intro u hu; cases hu
  | missing _ _ _ ih =>
    intro u hu
    obtain ⟨d, h1, h2⟩ := ih u hu
    exact ⟨d, List.mem_cons_of_mem _ h1, h2⟩
  | value hm _ ih =>
    intro u hu
    rcases List.mem_cons.1 hu with rfl | hu
    · exact ⟨_, List.mem_cons_self, hm⟩
    · obtain ⟨d, h1, h2⟩ := ih u hu
      exact ⟨d, List.mem_cons_of_mem _ h1, h2⟩

theorem argsOf_gets {V : Type} {n : INode} {kids : Nat → Tree} {z : Store V} {args : List Ref} {us : List Vertex}
    (h : ArgsOf n kids args us) : ∀ {xs : List V}, us.map z = xs.map some → Gets n kids z args xs := by
  induction h with
  | nil =>
    intro xs hx
    cases xs with
    | nil => exact .nil
    | cons x xs => simp at hx
  | missing h1 h2 _ ih => intro xs hx; exact .missing h1 h2 (ih hx)
  | value hm _ ih =>
    intro xs hx
    cases xs with
    | nil => simp at hx
    | cons x xs =>
      simp only [List.map_cons, List.cons.injEq] at hx
      exact .value hm hx.1 (ih hx.2)

theorem means_inj {S : Spec} (h : Checked S) {n : INode} {kids : Nat → Tree} (hk : ∀ c ∈ n.children, Fits S (kids c.addr))
    {d : Ref} (hr : Resolved S n d) {u u' : Vertex} (h1 : Means n kids d u) (h2 : Means n kids d u') : u = u' := by
  cases h1 with
  | own e =>
    cases h2 with
    | own => rfl
    | child e' => rw [e] at e'; cases e'
  | @child c m k b e e1 e2 e3 =>
    cases h2 with
    | own e' => rw [e] at e'; cases e'
    | @child c' m' k' b' e' e1' e2' e3' =>
      rw [e] at e'
      cases e'
      rw [e1] at e1'
      cases e1'
      simp only [Resolved, e] at hr
      obtain ⟨ch, hch, rfl, _⟩ := hr
      have ft := hk ch hch
      rw [e1, Fits] at ft
      rw [name_inj h ft.1 e2 e2' (e3.trans e3'.symm)]

theorem argsOf_inj {S : Spec} (h : Checked S) {n : INode} {kids : Nat → Tree} (hk : ∀ c ∈ n.children, Fits S (kids c.addr))
    {args : List Ref} {us : List Vertex} (h1 : ArgsOf n kids args us) : ∀ {us' : List Vertex}, (∀ d ∈ args, Resolved S n d) →
    ArgsOf n kids args us' → us = us' := by
  induction h1 with
  | nil => intro us' _ h2; cases h2; rfl
  | missing e1 e2 _ ih =>
    intro us' hr h2
    cases h2 with
    | missing _ _ h2 => exact ih (fun d hd => hr d (List.mem_cons_of_mem _ hd)) h2
    | value hm =>
      cases hm with
      | own e => rw [e1] at e; cases e
      | child e e' => rw [e1] at e; cases e; rw [e2] at e'; cases e'
  | value hm _ ih =>
    intro us' hr h2
    cases h2 with
    | missing e1 e2 h2 =>
      cases hm with
      | own e => rw [e1] at e; cases e
      | child e e' => rw [e1] at e; cases e; rw [e2] at e'; cases e'
    | value hm' h2 =>
      rw [means_inj h hk (hr _ List.mem_cons_self) hm hm', ih (fun d hd => hr d (List.mem_cons_of_mem _ hd)) h2]

/-- There are finitely many attributes in a tree. -/
theorem finite_tree : ∀ (T : Tree), {v | InTree T v}.Finite
  | .null => by
    refine Set.Finite.subset Set.finite_empty ?_
    intro v hv
    cases hv
  | .node n kids => by
    have h2 : ∀ c ∈ {c | c ∈ n.children}, ((fun v : Vertex => ((c.addr :: v.1, v.2) : Vertex)) '' {v | InTree (kids c.addr) v}).Finite :=
      fun c _ => (finite_tree (kids c.addr)).image _
    have h3 := Set.Finite.biUnion (List.finite_toSet n.children) h2
    refine Set.Finite.subset ((List.finite_toSet (n.attrs.map fun x => (([], x.addr) : Vertex))).union h3) ?_
    intro v hv
    generalize hT : Tree.node n kids = T at hv
    have hv' : InTree T v := hv
    cases hv' with
    | root hx _ =>
      cases hT
      exact Or.inl (List.mem_map.2 ⟨_, hx, rfl⟩)
    | @deeper _ _ c u hc hu =>
      cases hT
      exact Or.inr (Set.mem_biUnion (x := c) hc ⟨u, hu, rfl⟩)

section
variable {V : Type} {D : Names} {S : Spec} {P : Plan} {En : INode → Env} {Sq : INode → List (List Ev)}
  {St : INode → Nat → Spec.Visits.Known} {Vs : INode → List AVisit} {prog : Prog} (w : Setup D S P En Sq St Vs prog)
include w

/-- What a reference stands for is an attribute of the tree of the same kind. -/
theorem means_kind {n : INode} (hn : n ∈ S.nodes) {kids : Nat → Tree}
    (hk : ∀ c ∈ n.children, OfType S c.type (kids c.addr) ∧ Fits S (kids c.addr)) {d : Ref} (hr : Resolved S n d) {u : Vertex}
    (hu : Means n kids d u) : Has (.node n kids) u ∧ (InTree (.node n kids) u ↔ (d.attr.inh = true ∨ d.attr.syn = true)) := by
  cases hu with
  | own e =>
    simp only [Resolved, e] at hr
    refine ⟨.root hr, fun hi => ?_, fun hc => .root hr hc⟩
    obtain ⟨x, hx, hcx, hxa⟩ := inTree_root hi
    have := addr_inj w.world (attrIn_mem (own_attrIn hn hx)) (attrIn_mem (own_attrIn hn hr)) hxa
    subst this
    exact hcx
  | @child c m k b e e1 e2 e3 =>
    simp only [Resolved, e] at hr
    obtain ⟨ch, hch, rfl, hat⟩ := hr
    have hat : AttrIn S ch.type d.attr := hat
    obtain ⟨ot, ft⟩ := hk ch hch
    rw [e1] at ot ft
    rw [Fits] at ft
    have hm := ft.1
    obtain ⟨b', hb', n', ki, ks'⟩ := kinds w hm ot hat
    have := name_inj w.ok.toChecked hm hb' e2 (n'.trans e3.symm)
    subst this
    refine ⟨.deeper (v := ([], b'.addr)) hch (by rw [e1]; exact .root hb'), fun hi => ?_, fun hc => ?_⟩
    · have := (inTree_cons (path := []) (a := b'.addr) hi).2
      rw [e1] at this
      obtain ⟨x, hx, hcx, hxa⟩ := inTree_root this
      have := addr_inj w.world (attrIn_mem (own_attrIn hm hx)) (attrIn_mem (own_attrIn hm hb')) hxa
      subst this
      rwa [ki, ks'] at hcx
    · exact .deeper (v := ([], b'.addr)) hch (by rw [e1]; exact .root hb' (by rwa [ki, ks']))

/-- What an equation uses and what it is for. -/
theorem inst_spec : ∀ {T : Tree}, Fits S T → ∀ {v fn us}, Inst D S T v fn us → InTree T v ∧
    ∀ u ∈ us, Has T u ∧ (InTree T u → Uses T u v) := by
  intro T hf v fn us hi
  induction hi with
  | @here n kids q v us hq hm ha =>
    rw [Fits] at hf
    obtain ⟨hn, hk⟩ := hf
    obtain ⟨hr, hkind⟩ := w.ok.rules n hn q hq
    refine ⟨(means_kind w hn hk hr hm).2.2 ?_, fun u hu => ?_⟩
    · unfold RuleKind at hkind
      split at hkind
      · exact Or.inr hkind
      · exact Or.inl hkind
    · obtain ⟨d, hd, hu⟩ := argsOf_mem ha u hu
      have := means_kind w hn hk (w.classic.args n hn q hq d hd) hu
      exact ⟨this.1, fun hi => .here hq hd (this.2.1 hi) hu hm⟩
  | @deeper n kids c v fn us hc hi ih =>
    rw [Fits] at hf
    obtain ⟨hn, hk⟩ := hf
    obtain ⟨h1, h2⟩ := ih (hk c hc).2
    refine ⟨.deeper hc h1, fun u hu => ?_⟩
    obtain ⟨u', hu', rfl⟩ := List.mem_map.1 hu
    obtain ⟨h3, h4⟩ := h2 u' hu'
    exact ⟨.deeper hc h3, fun hi => .deeper hc (h4 (inTree_cons hi).2)⟩

theorem uses_in : ∀ {T : Tree}, Fits S T → ∀ {u v}, Uses T u v → InTree T u ∧ InTree T v := by
  intro T hf u v hu
  induction hu with
  | @here n kids q d u v hq hd hc h1 h2 =>
    rw [Fits] at hf
    obtain ⟨hn, hk⟩ := hf
    obtain ⟨hr, hkind⟩ := w.ok.rules n hn q hq
    refine ⟨(means_kind w hn hk (w.classic.args n hn q hq d hd) h1).2.2 hc, (means_kind w hn hk hr h2).2.2 ?_⟩
    unfold RuleKind at hkind
    split at hkind
    · exact Or.inr hkind
    · exact Or.inl hkind
  | @deeper n kids c u v hc _ ih =>
    rw [Fits] at hf
    obtain ⟨h1, h2⟩ := ih (hf.2 c hc).2
    exact ⟨.deeper hc h1, .deeper hc h2⟩

/-- The arguments of an equation stand for something, or are missing. -/
theorem argsOf_exist {n : INode} {kids : Nat → Tree}
    (hk : ∀ c ∈ n.children, OfType S c.type (kids c.addr) ∧ Fits S (kids c.addr)) :
    ∀ {args : List Ref}, (∀ d ∈ args, Resolved S n d) → ∃ us, ArgsOf n kids args us
  | [], _ => ⟨[], .nil⟩
  | d :: args, hr => by
    obtain ⟨us, ih⟩ := argsOf_exist hk fun d hd => hr d (List.mem_cons_of_mem _ hd)
    have r := hr d List.mem_cons_self
    cases hd : d.child with
    | none => exact ⟨_, .value (.own hd) ih⟩
    | some c =>
      simp only [Resolved, hd] at r
      obtain ⟨ch, hch, rfl, hat⟩ := r
      cases hT : kids ch.addr with
      | null => exact ⟨us, .missing hd hT ih⟩
      | node m ks =>
        obtain ⟨ot, ft⟩ := hk ch hch
        rw [hT] at ot ft
        rw [Fits] at ft
        obtain ⟨b, hb, nb, _, _⟩ := kinds w ft.1 ot (show AttrIn S ch.type d.attr from hat)
        exact ⟨_, .value (.child hd hT hb nb) ih⟩

/-- Every attribute has an equation, but for the inherited ones of the root. -/
theorem inst_exist : ∀ (T : Tree), Fits S T → ∀ v, InTree T v → (∃ fn us, Inst D S T v fn us) ∨
    ∃ n kids b, T = .node n kids ∧ b ∈ n.attrs ∧ b.inh = true ∧ v = ([], b.addr) := by
  intro T
  induction T with
  | null => intro _ v hv; cases hv
  | node n kids ih =>
    intro hf v hv
    rw [Fits] at hf
    obtain ⟨hn, hk⟩ := hf
    have f := w.world.node n hn
    generalize hT : Tree.node n kids = T at hv
    cases hv with
    | @root _ _ x hx hc =>
      cases hT
      rcases hc with hc | hc
      · exact Or.inr ⟨n, kids, x, rfl, hx, hc, rfl⟩
      · obtain ⟨q, hq⟩ := w.world.equipped.own n hn x hx hc
        obtain ⟨us, hus⟩ := argsOf_exist w hk (w.classic.args n hn q hq.1)
        exact Or.inl ⟨_, us, .here hq.1 ((for_own w.world hn hq _).2 rfl) hus⟩
    | @deeper _ _ c v hc hv =>
      cases hT
      rcases ih c.addr (hk c hc).2 v hv with ⟨fn, us, hi⟩ | ⟨m, ks, b, e, hb, hbi, rfl⟩
      · exact Or.inl ⟨fn, _, .deeper hc hi⟩
      · obtain ⟨ot, ft⟩ := hk c hc
        rw [e] at ot ft
        rw [Fits] at ft
        have fm := w.world.node m ft.1
        obtain ⟨ws, hws⟩ := f.child c hc
        obtain ⟨k, u, h1, h2⟩ := (w.world.all _ _ fm.own b (own_attrIn ft.1 hb)).1 hbi
        obtain ⟨_, _, _, _, x, x1, x2, x3, _⟩ := (fit w.world ft.1 ot hws fm.own).2.1 k u h1 b hb h2
        have : ∃ q, For n (c.addr, x.addr) q := by
          rcases x1 with ⟨m', hm', e', hx⟩ | ⟨s, hs, e', hx⟩
          · exact (w.world.equipped.child n hn c hc).1 m' hm' e' x hx x3
          · exact (w.world.equipped.child n hn c hc).2 s hs e' x hx x3
        obtain ⟨q, hq⟩ := this
        obtain ⟨us, hus⟩ := argsOf_exist w hk (w.classic.args n hn q hq.1)
        exact Or.inl ⟨_, us, .here hq.1 ((for_kid w.world hn hc x1 hq _).2 ⟨m, ks, b, e, hb, x2.symm, rfl⟩) hus⟩

/-- The only equation for something. -/
theorem rule_inj (one : OneEach S) {n : INode} (hn : n ∈ S.nodes) {kids : Nat → Tree}
    (hk : ∀ c ∈ n.children, OfType S c.type (kids c.addr) ∧ Fits S (kids c.addr))
    {q q' : Eqn} (hq : q ∈ n.eqs) (hq' : q' ∈ n.eqs) {v : Vertex}
    (h1 : Means n kids q.rule v) (h2 : Means n kids q'.rule v) : q = q' := by
  refine inj_of_nodup (one n hn) hq hq' ?_
  have r1 := (w.ok.rules n hn q hq).1
  have r2 := (w.ok.rules n hn q' hq').1
  generalize hv : v = v' at h2
  cases h1 with
  | own e =>
    cases h2 with
    | own e' =>
      simp only [Prod.mk.injEq, true_and] at hv
      simp [place, e, e', hv]
    | child e' => simp at hv
  | @child c m k b e e1 e2 e3 =>
    cases h2 with
    | own e' => simp at hv
    | @child c' m' k' b' e' e1' e2' e3' =>
      simp only [Prod.mk.injEq, List.cons.injEq, and_true] at hv
      obtain ⟨rfl, hv⟩ := hv
      rw [e1] at e1'
      cases e1'
      simp only [Resolved, e] at r1
      simp only [Resolved, e'] at r2
      obtain ⟨ch, hch, rfl, a1⟩ := r1
      obtain ⟨ch', hch', ee, a2⟩ := r2
      have := child_inj w.ok.toChecked hn hn hch' hch ee
      subst this
      have ft := (hk ch' hch').2
      rw [e1, Fits] at ft
      have := addr_inj w.world (attrIn_mem (own_attrIn ft.1 e2)) (attrIn_mem (own_attrIn ft.1 e2')) hv
      subst this
      have hnm := e3.symm.trans e3'
      have : q.rule.attr = q'.rule.attr := by
        have a1 : AttrIn S ch'.type q.rule.attr := a1
        have a2 : AttrIn S ch'.type q'.rule.attr := a2
        rcases List.mem_append.1 (w.ok.types n hn ch' hch') with ht | ht
        · obtain ⟨m', hm', et⟩ := List.mem_map.1 ht
          rw [← et] at a1 a2
          exact name_inj w.ok.toChecked hm' (attrIn_node w.ok.toChecked hm' a1) (attrIn_node w.ok.toChecked hm' a2) hnm
        · obtain ⟨s, hs, et⟩ := List.mem_map.1 ht
          rw [← et] at a1 a2
          exact inj_of_nodup (w.ok.setNames s hs) (attrIn_set w.ok.toChecked hs a1) (attrIn_set w.ok.toChecked hs a2) hnm
      simp [place, e, e', this]

omit w in
theorem inst_inv {n : INode} {kids : Nat → Tree} {v : Vertex} {fn : CStr} {us : List Vertex} (h : Inst D S (.node n kids) v fn us) :
    (∃ q ∈ n.eqs, Means n kids q.rule v ∧ ArgsOf n kids q.args us ∧ fn = userFn D S n kids q) ∨
    ∃ c ∈ n.children, ∃ v' us', Inst D S (kids c.addr) v' fn us' ∧ v = (c.addr :: v'.1, v'.2) ∧
      us = us'.map fun u => (c.addr :: u.1, u.2) := by
  cases h with
  | here h1 h2 h3 => exact Or.inl ⟨_, h1, h2, h3, rfl⟩
  | deeper h1 h2 => exact Or.inr ⟨_, h1, _, _, h2, rfl, rfl⟩

/-- An equation of a node for an attribute of a child, and one of the child for the same attribute. -/
theorem not_both {n : INode} (hn : n ∈ S.nodes) {kids : Nat → Tree}
    (hk : ∀ c ∈ n.children, OfType S c.type (kids c.addr) ∧ Fits S (kids c.addr)) {q : Eqn} (hq : q ∈ n.eqs)
    {c : Child} (hc : c ∈ n.children) {v : Vertex} {fn : CStr} {us : List Vertex} (h1 : Means n kids q.rule (c.addr :: v.1, v.2))
    (h2 : Inst D S (kids c.addr) v fn us) : False := by
  obtain ⟨r1, k1⟩ := w.ok.rules n hn q hq
  generalize hv : ((c.addr :: v.1, v.2) : Vertex) = v' at h1
  cases h1 with
  | own e => simp at hv
  | @child c' m k b e e1 e2 e3 =>
    simp only [Prod.mk.injEq, List.cons.injEq] at hv
    obtain ⟨⟨rfl, hv1⟩, hv2⟩ := hv
    simp only [Resolved, e] at r1
    simp only [RuleKind, e] at k1
    obtain ⟨ch, hch, ee, a1⟩ := r1
    have := child_inj w.ok.toChecked hn hn hch hc ee
    subst this
    obtain ⟨ot, ft⟩ := hk ch hch
    rw [e1] at ot ft h2
    rw [Fits] at ft
    obtain ⟨b', hb', n', ki, _⟩ := kinds w ft.1 ot (show AttrIn S ch.type q.rule.attr from a1)
    have := name_inj w.ok.toChecked ft.1 hb' e2 (n'.trans e3.symm)
    subst this
    rcases inst_inv h2 with ⟨q2, hq2, hm2, _⟩ | ⟨_, _, _, _, _, hv', _⟩
    · obtain ⟨r2, k2⟩ := w.ok.rules m ft.1 q2 hq2
      generalize hv : v = v' at hm2
      cases hm2 with
      | own e' =>
        subst hv
        simp only [Resolved, e'] at r2
        simp only [RuleKind, e'] at k2
        have := addr_inj w.world (attrIn_mem (own_attrIn ft.1 r2)) (attrIn_mem (own_attrIn ft.1 hb')) hv2
        rw [this] at k2
        exact w.world.equipped.kinds b' (attrIn_mem (own_attrIn ft.1 hb')) ⟨ki.trans k1, k2⟩
      | child _ => subst hv; simp at hv1
    · rw [hv'] at hv1
      simp at hv1

theorem inst_inj (one : OneEach S) : ∀ {T : Tree}, Fits S T → ∀ {v fn us fn' us'}, Inst D S T v fn us → Inst D S T v fn' us' →
    fn = fn' ∧ us = us' := by
  intro T hf v fn us fn' us' hi
  induction hi generalizing fn' us' with
  | @here n kids q v us hq hm ha =>
    intro h2
    rw [Fits] at hf
    obtain ⟨hn, hk⟩ := hf
    rcases inst_inv h2 with ⟨q', hq', hm', ha', rfl⟩ | ⟨c, hc, v', us0, h3, rfl, rfl⟩
    · have := rule_inj w one hn hk hq hq' hm hm'
      subst this
      exact ⟨rfl, argsOf_inj w.ok.toChecked (fun c hc => (hk c hc).2) ha (w.classic.args n hn q hq) ha'⟩
    · exact (not_both w hn hk hq hc hm h3).elim
  | @deeper n kids c v fn us hc hi ih =>
    intro h2
    rw [Fits] at hf
    obtain ⟨hn, hk⟩ := hf
    rcases inst_inv h2 with ⟨q', hq', hm', ha', rfl⟩ | ⟨c', hc', v', us0, h2, e, rfl⟩
    · exact (not_both w hn hk hq' hc hm' hi).elim
    · simp only [Prod.mk.injEq, List.cons.injEq] at e
      obtain ⟨⟨e1, e2⟩, e3⟩ := e
      have := child_inj w.ok.toChecked hn hn hc hc' e1
      subst this
      have : v = v' := Prod.ext e2 e3
      subst this
      obtain ⟨h1, h2⟩ := ih (hk c hc).2 h2
      exact ⟨h1, by rw [h2]⟩

/-- An order in which the attributes can be computed. -/
theorem uses_wf {T : Tree} (hf : Fits S T) (hc : ¬ T.Circular) : WellFounded (Uses T) := by
  have fin := finite_tree T
  have : Finite {v // InTree T v} := fin
  let R : {v // InTree T v} → {v // InTree T v} → Prop := fun u v => Relation.TransGen (Uses T) u.1 v.1
  have : IsTrans _ R := ⟨fun a b c h1 h2 => h1.trans h2⟩
  have : Std.Irrefl R := ⟨fun a h => hc ⟨a.1, h⟩⟩
  have wf := Finite.wellFounded_of_trans_of_irrefl R
  have acc : ∀ v : {v // InTree T v}, Acc (Uses T) v.1 := by
    intro v
    induction v using wf.induction with
    | _ v ih =>
      refine Acc.intro _ fun u hu => ?_
      exact ih ⟨u, (uses_in w hf hu).1⟩ (Relation.TransGen.single hu)
  refine ⟨fun v => Acc.intro _ fun u hu => acc ⟨u, (uses_in w hf hu).1⟩⟩

/-- If the equations for all attributes hold, all equations hold. -/
theorem inst_holds {user : CStr → List V → V} : ∀ (T : Tree), Fits S T → ∀ z : Store V,
    (∀ v fn us, Inst D S T v fn us → ∃ xs, us.map z = xs.map some ∧ z v = some (user fn xs)) →
    Spec.Evaluator.Holds D S user T z := by
  intro T
  induction T with
  | null => intros; trivial
  | node n kids ih =>
    intro hf z h
    rw [Fits] at hf
    obtain ⟨hn, hk⟩ := hf
    rw [Spec.Evaluator.Holds]
    refine ⟨fun q hq v hv => ?_, fun c hc => ih c.addr (hk c hc).2 _ fun v fn us hi => ?_⟩
    · obtain ⟨us, hus⟩ := argsOf_exist w hk (w.classic.args n hn q hq)
      obtain ⟨xs, h1, h2⟩ := h _ _ _ (.here hq hv hus)
      exact ⟨xs, argsOf_gets hus h1, h2⟩
    · obtain ⟨xs, h1, h2⟩ := h _ _ _ (.deeper hc hi)
      exact ⟨xs, by rw [← h1, List.map_map]; rfl, h2⟩

omit w in
theorem map_some {z : Store V} : ∀ {us : List Vertex}, (∀ u ∈ us, z u ≠ none) → us.map z = (us.filterMap z).map some
  | [], _ => rfl
  | u :: us, h => by
    obtain ⟨x, hx⟩ := Option.ne_none_iff_exists'.1 (h u List.mem_cons_self)
    rw [List.map_cons, List.filterMap_cons, hx, map_some fun u hu => h u (List.mem_cons_of_mem _ hu)]
    rfl

/-- The equations have a solution. -/
theorem solve (user : CStr → List V → V) (one : OneEach S) {T : Tree} (hf : Fits S T) (hc : ¬ T.Circular) (hs : CanStart P T) {s : Store V}
    (hg : Given T s) : ∃ z, Solution D S user T s z := by
  classical
  let F : (v : Vertex) → ((u : Vertex) → Uses T u v → Option V) → Option V := fun v rec =>
    if h : ∃ p : CStr × List Vertex, Inst D S T v p.1 p.2 then
      some (user h.choose.1 (h.choose.2.filterMap fun u => if hu : Uses T u v then rec u hu else s u))
    else s v
  let z : Store V := (uses_wf w hf hc).fix F
  have eq : ∀ v, z v = F v fun u _ => z u := fun v => WellFounded.fix_eq _ F v
  have none : ∀ v, ¬ InTree T v → z v = s v := by
    intro v hv
    rw [eq]
    exact dif_neg fun ⟨_, hi⟩ => hv (inst_spec w hf hi).1
  have val : ∀ v fn us, Inst D S T v fn us → z v = some (user fn (us.filterMap z)) := by
    intro v fn us hi
    have h : ∃ p : CStr × List Vertex, Inst D S T v p.1 p.2 := ⟨(fn, us), hi⟩
    obtain ⟨e1, e2⟩ := inst_inj w one hf hi h.choose_spec
    rw [eq]
    refine (dif_pos h).trans ?_
    rw [← e1, ← e2]
    congr 2
    refine List.filterMap_congr fun u hu => ?_
    by_cases hu' : Uses T u v
    · rw [dif_pos hu']
    · rw [dif_neg hu', none u fun hin => hu' (((inst_spec w hf hi).2 u hu).2 hin)]
  have total : ∀ v, Has T v → z v ≠ Option.none := by
    intro v hv
    by_cases hin : InTree T v
    · rcases inst_exist w T hf v hin with ⟨fn, us, hi⟩ | ⟨n, kids, b, rfl, hb, hbi, _⟩
      · rw [val v fn us hi]
        exact Option.some_ne_none _
      · have := hs.2 b hb
        rw [hbi] at this
        cases this
    · rw [none v hin]
      exact hg v hv hin
  refine ⟨z, inst_holds w T hf z fun v fn us hi => ⟨us.filterMap z, ?_, val v fn us hi⟩, total, none⟩
  exact map_some fun u hu => total u ((inst_spec w hf hi).2 u hu).1

end

end Verif.Evaluator
