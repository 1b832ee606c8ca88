import Verif.Spec.AttrTree
import Verif.Lemmas.Induce

/-!
# Lemmas about attribute dependencies in trees
-/

namespace Verif.AttrTree
open Verif.Induce Verif.Spec.Induce Verif.Spec.AttrTree
open Relation (TransGen)

theorem trans_gen {α : Type} {r : α → α → Prop} {a b c : α} (h : TransGen r a b) (h' : TransGen r b c) : TransGen r a c := by
  induction h' with
  | single e => exact .tail h e
  | tail _ e ih => exact .tail ih e

/-- An attribute of a type. -/
def AttrIn (S : Spec) (t : Nat) (a : Attr) : Prop :=
  (∃ m ∈ S.nodes, m.addr = t ∧ a ∈ m.attrs) ∨ (∃ s ∈ S.sets, s.addr = t ∧ a ∈ s.attrs)

/-- A place of the production of `n` that belongs to a child, and what it stands for. -/
def RepC (S : Spec) (n : INode) (kids : Nat → Tree) (P : Attr → Prop) (x : Place) (v : Vertex) : Prop :=
  ∃ ch ∈ n.children, ∃ m k a b, kids ch.addr = .node m k ∧ AttrIn S ch.type a ∧ (a.inh = true ∨ a.syn = true) ∧ P a ∧
    b ∈ m.attrs ∧ b.name = a.name ∧ x = (ch.addr, a.addr) ∧ v = ([ch.addr], b.addr)

/-- A place of the production of `n`, and what it stands for. -/
def Rep (S : Spec) (n : INode) (kids : Nat → Tree) (P : Attr → Prop) (x : Place) (v : Vertex) : Prop :=
  (∃ a, x = (n.addr, a) ∧ v = ([], a)) ∨ RepC S n kids P x v

theorem means_rep {S n kids r v} (hr : Resolved S n r) (hc : r.attr.inh = true ∨ r.attr.syn = true) {P : Attr → Prop}
    (hP : ∀ c, r.child = some c → P r.attr) (hm : Means n kids r v) : Rep S n kids P (place n r) v := by
  cases hm with
  | own he => exact Or.inl ⟨r.attr.addr, by simp [place, he], rfl⟩
  | @child c m k b he hk hb hn =>
    simp only [Resolved, he] at hr
    obtain ⟨ch, hch, rfl, hat⟩ := hr
    exact Or.inr ⟨ch, hch, m, k, r.attr, b, hk, hat, hc, hP _ he, hb, hn, by simp [place, he], rfl⟩

section
variable {S : Spec} (h : Checked S)
include h

/-- Attributes of a type with the same name are the same. -/
theorem attrIn_inj {t : Nat} {a a' : Attr} (h1 : AttrIn S t a) (h2 : AttrIn S t a') (he : a.name = a'.name) : a = a' := by
  rcases h1 with ⟨m, hm, rfl, ha⟩ | ⟨s, hs, rfl, ha⟩
  · rcases h2 with ⟨m', hm', e, ha'⟩ | ⟨s', hs', e, ha'⟩
    · have := node_inj h hm' hm e
      subst this
      exact inj_of_nodup (h.names m' hm) ha ha' he
    · exact absurd e.symm (node_set h hm hs')
  · rcases h2 with ⟨m', hm', e, ha'⟩ | ⟨s', hs', e, ha'⟩
    · exact absurd e (node_set h hm' hs)
    · have := set_inj h hs' hs e
      subst this
      exact inj_of_nodup (h.setNames s' hs) ha ha' he

theorem rep_fun {n kids} (hn : n ∈ S.nodes) (hk : ∀ c ∈ n.children, Fits S (kids c.addr)) {P P' x y v}
    (h1 : Rep S n kids P x v) (h2 : Rep S n kids P' y v) : x = y := by
  rcases h1 with ⟨a, rfl, rfl⟩ | ⟨ch, hch, m, k, a, b, k1, k2, k3, k4, k5, k6, rfl, rfl⟩
  · rcases h2 with ⟨a', rfl, e⟩ | ⟨ch, hch, m, k, a', b, k1, k2, k3, k4, k5, k6, rfl, e⟩
    · cases e; rfl
    · cases e
  · rcases h2 with ⟨a', rfl, e⟩ | ⟨ch', hch', m', k', a', b', k1', k2', k3', k4', k5', k6', rfl, e⟩
    · cases e
    · simp only [Prod.mk.injEq, List.cons.injEq, and_true] at e
      have hcc := child_inj h hn hn hch hch' e.1
      subst hcc
      rw [k1] at k1'
      cases k1'
      have hm : m ∈ S.nodes := by
        have := hk ch hch
        rw [k1, Fits] at this
        exact this.1
      have hb : b = b' := inj_of_nodup (h.nodeAttrs m hm) k5 k5' e.2
      subst hb
      rw [attrIn_inj h k2 k2' (k6.symm.trans k6')]

omit h in
theorem attrIn_of {t : Nat} {a : Attr} (ha : AttrIn S t a) (hc : a.inh = true ∨ a.syn = true) : AttrOf S t a.addr := by
  rcases ha with ⟨m, hm, e, ha⟩ | ⟨s, hs, e, ha⟩
  · exact Or.inl ⟨m, hm, e, a, ha, hc, rfl⟩
  · exact Or.inr ⟨s, hs, e, a, ha, hc, rfl⟩

/-- What holds in the production of the node that a child is, from an inherited to a synthesized attribute, holds between
the attributes of the child. -/
theorem lift {n : INode} (hn : n ∈ S.nodes) {ch : Child} (hch : ch ∈ n.children) {m : INode} (hm : m ∈ S.nodes) {k}
    (ht : OfType S ch.type (.node m k)) {a1 a2 b1 b2 : Attr} (i1 : AttrIn S ch.type a1) (i2 : AttrIn S ch.type a2)
    (hi : a1.inh = true) (hs : a2.inh = true ∨ a2.syn = true) (hb1 : b1 ∈ m.attrs) (hb2 : b2 ∈ m.attrs)
    (n1 : b1.name = a1.name) (n2 : b2.name = a2.name) (hs2 : b2.syn = true)
    (hd : Dep S (.node m) (m.addr, b1.addr) (m.addr, b2.addr)) :
    Dep S (.node n) (ch.addr, a1.addr) (ch.addr, a2.addr) := by
  have sy : (Production.node n).Sym ch.addr ch.type := Or.inr ⟨ch, hch, rfl, rfl⟩
  have o1 : (Production.node n).Has S ch.addr ch.type a1.addr := ⟨sy, attrIn_of i1 (Or.inl hi)⟩
  have o2 : (Production.node n).Has S ch.addr ch.type a2.addr := ⟨sy, attrIn_of i2 hs⟩
  rcases ht with e | ⟨s, hss, e, hms⟩
  · have e1 : b1 = a1 := attrIn_inj h (Or.inl ⟨m, hm, e, hb1⟩) i1 n1
    have e2 : b2 = a2 := attrIn_inj h (Or.inl ⟨m, hm, e, hb2⟩) i2 n2
    subst e1 e2
    rw [e] at hd
    exact .induced hd (Or.inl ⟨e.symm, e.symm⟩) hn o1 o2
  · have m1 : a1 ∈ s.attrs := by
      rcases i1 with ⟨m', hm', e', _⟩ | ⟨s', hs', e', ha⟩
      · exact absurd (e'.trans e.symm) (node_set h hm' hss)
      · rw [← set_inj h hs' hss (e'.trans e.symm)]; exact ha
    have m2 : a2 ∈ s.attrs := by
      rcases i2 with ⟨m', hm', e', _⟩ | ⟨s', hs', e', ha⟩
      · exact absurd (e'.trans e.symm) (node_set h hm' hss)
      · rw [← set_inj h hs' hss (e'.trans e.symm)]; exact ha
    have syn : a2.syn = true := by
      obtain ⟨b, hb, hbn, _, hbs⟩ := h.equivalent s hss m hms a2 m2 hs
      have := name_inj h hm hb2 hb (n2.trans hbn.symm)
      subst this
      rw [← hbs]; exact hs2
    have hp : (Production.member s m).In S := ⟨hss, hms⟩
    have d1 : Dep S (.member s m) (m.addr, b1.addr) (m.addr, b2.addr) :=
      .induced hd (Or.inl ⟨rfl, rfl⟩) hp (Or.inr ⟨rfl, rfl, a1, m1, Or.inl hi, b1, hb1, n1, rfl⟩)
        (Or.inr ⟨rfl, rfl, a2, m2, hs, b2, hb2, n2, rfl⟩)
    have d2 : Dep S (.member s m) (s.addr, a1.addr) (s.addr, a2.addr) :=
      (Dep.direct hp (.down m1 hi hb1 n1)).trans (d1.trans (.direct hp (.up m2 syn hb2 n2)))
    exact .induced d2 (Or.inl ⟨rfl, e.symm⟩) hn o1 o2

/-- Only rules for own attributes give values to the attributes of the root, and these are synthesized. -/
theorem root_syn {m : INode} (hm : m ∈ S.nodes) {k} {u : Vertex} {b : Attr} (hb : b ∈ m.attrs)
    (hu : Uses (.node m k) u ([], b.addr)) : b.syn = true := by
  generalize hv : (([], b.addr) : Vertex) = v at hu
  generalize hT : Tree.node m k = T at hu
  cases hu with
  | @here n kids e d u v he hd hc h1 h2 =>
    cases hT
    cases h2 with
    | own hn =>
      obtain ⟨r1, r2⟩ := h.rules m hm e he
      unfold RuleKind at r2
      simp only [Resolved, hn] at r1 r2
      have : b = e.rule.attr := inj_of_nodup (h.nodeAttrs m hm) hb r1 (Prod.mk.inj hv).2
      rw [this]; exact r2
    | child => cases hv
  | deeper => cases hv

omit h in
theorem last_edge {α : Type} {r : α → α → Prop} {a b : α} (ht : TransGen r a b) : ∃ c, r c b := by
  cases ht with
  | single e => exact ⟨_, e⟩
  | tail _ e => exact ⟨_, e⟩

/-- A way inside the subtree of a child. -/
def Inside (n : INode) (kids : Nat → Tree) (u v : Vertex) : Prop :=
  ∃ ch ∈ n.children, ∃ u' v', TransGen (Uses (kids ch.addr)) u' v' ∧ u = (ch.addr :: u'.1, u'.2) ∧
    v = (ch.addr :: v'.1, v'.2)

omit h in
theorem Inside.trans {n kids u v w} (h1 : Inside n kids u v) (h2 : Inside n kids v w) : Inside n kids u w := by
  obtain ⟨ch, hch, u', v', t, rfl, rfl⟩ := h1
  obtain ⟨ch', hch', v'', w', t', e, rfl⟩ := h2
  simp only [Prod.mk.injEq, List.cons.injEq] at e
  have : v' = v'' := Prod.ext e.1.2 e.2
  subst this
  refine ⟨ch, hch, u', w', ?_, rfl, by rw [e.1.1]⟩
  rw [← e.1.1] at t'
  exact trans_gen t t'

/-- The dependencies between attributes of the root of a tree are those of its production. -/
def RootDep (S : Spec) (T : Tree) : Prop :=
  ∀ m k, T = .node m k → ∀ a b, TransGen (Uses T) ([], a) ([], b) → Dep S (.node m) (m.addr, a) (m.addr, b)

/-- Going through a subtree is a dependency between the attributes of the child. -/
theorem through {n kids} (hn : n ∈ S.nodes) (hk : ∀ c ∈ n.children, OfType S c.type (kids c.addr) ∧ Fits S (kids c.addr))
    (ih : ∀ c ∈ n.children, RootDep S (kids c.addr)) {x y u v} (h1 : Rep S n kids (fun a => a.inh = true) x u)
    (h2 : Rep S n kids (fun _ => True) y v) (hI : Inside n kids u v) : Dep S (.node n) x y := by
  obtain ⟨ch, hch, u', v', t, rfl, rfl⟩ := hI
  obtain ⟨u1, u2⟩ := u'
  obtain ⟨v1, v2⟩ := v'
  rcases h1 with ⟨a, _, e⟩ | ⟨ch1, hch1, m, k, a1, b1, k1, k2, k3, k4, k5, k6, rfl, e⟩
  · cases e
  · rcases h2 with ⟨a, _, e'⟩ | ⟨ch2, hch2, m', k', a2, b2, j1, j2, j3, j4, j5, j6, rfl, e'⟩
    · cases e'
    · simp only [Prod.mk.injEq, List.cons.injEq] at e e'
      obtain ⟨⟨e1, rfl⟩, rfl⟩ := e
      obtain ⟨⟨e1', rfl⟩, rfl⟩ := e'
      have c1 := child_inj h hn hn hch hch1 e1
      have c2 := child_inj h hn hn hch hch2 e1'
      subst c1
      subst c2
      rw [k1] at j1
      cases j1
      obtain ⟨ht, hf⟩ := hk ch hch
      have hr := ih ch hch m k k1 _ _ t
      rw [k1] at ht hf t
      rw [Fits] at hf
      obtain ⟨c, hc⟩ := last_edge t
      exact lift h hn hch hf.1 ht k2 j2 k4 j3 k5 j5 k6 j6 (root_syn h hf.1 j5 hc) hr

/-- A way in a tree: inside a subtree, or through the root's production with ways inside subtrees before and after. -/
theorem split {n kids} (hn : n ∈ S.nodes) (hk : ∀ c ∈ n.children, OfType S c.type (kids c.addr) ∧ Fits S (kids c.addr))
    (ih : ∀ c ∈ n.children, RootDep S (kids c.addr)) {u v} (t : TransGen (Uses (.node n kids)) u v) :
    Inside n kids u v ∨ ∃ x y w1 w2, Rep S n kids (fun _ => True) x w1 ∧ Rep S n kids (fun a => a.inh = true) y w2 ∧
      Dep S (.node n) x y ∧ (u = w1 ∨ Inside n kids u w1) ∧ (v = w2 ∨ Inside n kids w2 v) := by
  -- one edge
  have one : ∀ u v, Uses (.node n kids) u v → Inside n kids u v ∨ ∃ x y, Rep S n kids (fun _ => True) x u ∧
      Rep S n kids (fun a => a.inh = true) y v ∧ Dep S (.node n) x y := by
    intro u v hu
    generalize hT : Tree.node n kids = T at hu
    cases hu with
    | @here n' kids' e d u v he hd hc h1 h2 =>
      cases hT
      obtain ⟨r1, r2⟩ := h.rules n hn e he
      unfold RuleKind at r2
      refine Or.inr ⟨place n d, place n e.rule, means_rep (h.args n hn e he d hd hc) hc (fun _ _ => trivial) h1,
        means_rep r1 ?_ ?_ h2, .direct hn (.eqn he hd hc)⟩
      · split at r2
        · exact Or.inr r2
        · exact Or.inl r2
      · intro c hcc
        simp only [hcc] at r2
        exact r2
    | @deeper n' kids' c u v hc hu =>
      cases hT
      exact Or.inl ⟨c, hc, u, v, .single hu, rfl, rfl⟩
  induction t with
  | single e =>
    rcases one _ _ e with hI | ⟨x, y, h1, h2, hd⟩
    · exact Or.inl hI
    · exact Or.inr ⟨x, y, _, _, h1, h2, hd, Or.inl rfl, Or.inl rfl⟩
  | tail _ e ihp =>
    rcases one _ _ e with hI | ⟨x', y', h1', h2', hd'⟩
    · rcases ihp with ihp | ⟨x, y, w1, w2, h1, h2, hd, hu, hv⟩
      · exact Or.inl (ihp.trans hI)
      · refine Or.inr ⟨x, y, w1, w2, h1, h2, hd, hu, Or.inr ?_⟩
        rcases hv with rfl | hv
        · exact hI
        · exact hv.trans hI
    · rcases ihp with ihp | ⟨x, y, w1, w2, h1, h2, hd, hu, hv⟩
      · exact Or.inr ⟨x', y', _, _, h1', h2', hd', Or.inr ihp, Or.inl rfl⟩
      · refine Or.inr ⟨x, y', w1, _, h1, h2', ?_, hu, Or.inl rfl⟩
        rcases hv with rfl | hv
        · rw [rep_fun h hn (fun c hc => (hk c hc).2) h2 h1'] at hd
          exact hd.trans hd'
        · exact hd.trans ((through h hn hk ih h2 h1' hv).trans hd')

theorem tree_spec (T : Tree) : Fits S T → RootDep S T ∧ (T.Circular → Circular S) := by
  induction T with
  | null =>
    intro _
    refine ⟨(fun m k e => by cases e), ?_⟩
    rintro ⟨v, t⟩
    obtain ⟨c, hc⟩ := last_edge t
    cases hc
  | node n kids ih =>
    intro hf
    rw [Fits] at hf
    obtain ⟨hn, hk⟩ := hf
    have ih1 : ∀ c ∈ n.children, RootDep S (kids c.addr) := fun c hc => (ih c.addr (hk c hc).2).1
    refine ⟨?_, ?_⟩
    · intro m k e a b t
      cases e
      rcases split h hn hk ih1 t with ⟨_, _, _, _, _, e, _⟩ | ⟨x, y, w1, w2, h1, h2, hd, hu, hv⟩
      · cases e
      · rcases hu with rfl | ⟨_, _, _, _, _, e, _⟩
        · rcases hv with rfl | ⟨_, _, _, _, _, _, e⟩
          · rcases h1 with ⟨a', rfl, e⟩ | ⟨_, _, _, _, _, _, _, _, _, _, _, _, _, e⟩
            · cases e
              rcases h2 with ⟨b', rfl, e⟩ | ⟨_, _, _, _, _, _, _, _, _, _, _, _, _, e⟩
              · cases e
                exact hd
              · cases e
            · cases e
          · cases e
        · cases e
    · rintro ⟨v, t⟩
      rcases split h hn hk ih1 t with ⟨ch, hch, u', v', t', e, e'⟩ | ⟨x, y, w1, w2, h1, h2, hd, hu, hv⟩
      · rw [e] at e'
        simp only [Prod.mk.injEq, List.cons.injEq, true_and] at e'
        have : u' = v' := Prod.ext e'.1 e'.2
        subst this
        exact (ih ch.addr (hk ch hch).2).2 ⟨u', t'⟩
      · -- from the end back to the start
        have back : ∀ hI : Inside n kids w2 w1, Circular S := fun hI =>
          ⟨.node n, x, hd.trans (through h hn hk ih1 h2 h1 hI)⟩
        rcases hu with rfl | hu
        · rcases hv with rfl | hv
          · have := rep_fun h hn (fun c hc => (hk c hc).2) h1 h2
            subst this
            exact ⟨_, _, hd⟩
          · exact back hv
        · rcases hv with rfl | hv
          · exact back hu
          · exact back (hv.trans hu)

end

end Verif.AttrTree
