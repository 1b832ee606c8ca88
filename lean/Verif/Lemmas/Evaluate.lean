import Verif.Spec.Evaluate
import Verif.Lemmas.AttrTree

/-!
# Lemmas about the evaluation of trees

The sequences of a node, as described by `Plays`, are executed on trees.
-/

namespace Verif.Evaluate
open Verif.Induce Verif.Spec.Induce Verif.Spec.AttrTree Verif.Spec.Evaluate Verif.Schedule Verif.Visits Verif.Spec.Visits
open Verif.AttrTree Verif.Lemmas.Visits

/-! ## One node -/

/-- What is known of the children while a sequence is executed: the visits that are done come first, a synthesized attribute is
known from a visit, and the inputs of the visits that are done are known. -/
structure EInv (e : Env) (A : Known) : Prop where
  pre : ∀ c ∈ e.children, ∃ d, (∀ i, A (.visit c i) ↔ i < d) ∧ ∀ ws, e.visits (e.typeOf c) = some ws → d ≤ ws.length
  syn : ∀ c ∈ e.children, ∀ a p, At e c a p → e.syn a = true → A (.node p) →
    ∃ k v, VisitOf e c k v ∧ a ∈ v.outputs ∧ A (.visit c k)
  ins : ∀ c ∈ e.children, ∀ k v, VisitOf e c k v → A (.visit c k) → ∀ a ∈ v.inputs, ∃ p, At e c a p ∧ A (.node p)

theorem einv_empty (e : Env) : EInv e fun _ => False :=
  ⟨fun _ _ => ⟨0, fun i => ⟨False.elim, fun h => absurd h (Nat.not_lt_zero i)⟩, fun _ _ => Nat.zero_le _⟩,
    fun _ _ _ _ _ _ h => h.elim, fun _ _ _ _ _ h => h.elim⟩

theorem einv_inputs {e : Env} (hs : e.self ∉ e.children) {A : Known} (h : EInv e A) (v : AVisit) :
    EInv e (withInputs e v A) := by
  refine ⟨?_, ?_, ?_⟩
  · intro c hc
    obtain ⟨d, h1, h2⟩ := h.pre c hc
    refine ⟨d, fun i => ?_, h2⟩
    rw [← h1 i]
    constructor
    · rintro (h | ⟨a, p, _, _, h⟩)
      · exact h
      · cases h
    · exact Or.inl
  · intro c hc a p hp ha hA
    rcases hA with hA | ⟨a', p', _, hp', h'⟩
    · obtain ⟨k, v, h1, h2, h3⟩ := h.syn c hc a p hp ha hA
      exact ⟨k, v, h1, h2, Or.inl h3⟩
    · cases h'
      have := hp.symm.trans hp'
      cases this
      exact absurd hc hs
  · intro c hc k w hw hA a ha
    rcases hA with hA | ⟨_, _, _, _, h'⟩
    · obtain ⟨p, h1, h2⟩ := h.ins c hc k w hw hA a ha
      exact ⟨p, h1, Or.inl h2⟩
    · cases h'

theorem einv_step {e : Env} (hs : e.self ∉ e.children) {A B : Known} {ev : Ev} (h : EInv e A)
    (st : Step e A ev B) : EInv e B := by
  cases st with
  | @eval i o a hat ho hd hnew =>
    refine ⟨?_, ?_, ?_⟩
    · intro c hc
      obtain ⟨d, h1, h2⟩ := h.pre c hc
      refine ⟨d, fun i => ?_, h2⟩
      rw [← h1 i]
      constructor
      · rintro (h | h)
        · exact h
        · cases h
      · exact Or.inl
    · intro c hc b p hp hb hA
      rcases hA with hA | hA
      · obtain ⟨k, v, h1, h2, h3⟩ := h.syn c hc b p hp hb hA
        exact ⟨k, v, h1, h2, Or.inl h3⟩
      · cases hA
        have := hp.symm.trans hat
        cases this
        rcases ho with rfl | ho
        · exact absurd hc hs
        · rw [hb] at ho; cases ho
    · intro c hc k w hw hA b hb
      rcases hA with hA | hA
      · obtain ⟨p, h1, h2⟩ := h.ins c hc k w hw hA b hb
        exact ⟨p, h1, Or.inl h2⟩
      · cases hA
  | @visit c0 k0 alts v0 hc0 hv0 halt hne hpre hin hnew =>
    refine ⟨?_, ?_, ?_⟩
    · intro c hc
      obtain ⟨d, h1, h2⟩ := h.pre c hc
      by_cases hcc : c = c0
      · subst hcc
        have hd : d = k0 := by
          have a1 : ¬ k0 < d := fun hlt => hnew ((h1 k0).2 hlt)
          have a2 : ¬ d < k0 := fun hlt => absurd ((h1 d).1 (hpre d hlt)) (Nat.lt_irrefl _)
          omega
        subst hd
        refine ⟨d + 1, fun i => ?_, fun ws hw => ?_⟩
        · constructor
          · rintro (hh | hh | ⟨_, _, _, _, hh⟩)
            · have := (h1 i).1 hh; omega
            · cases hh; omega
            · cases hh
          · intro hi
            by_cases hid : i = d
            · subst hid; exact Or.inr (Or.inl rfl)
            · exact Or.inl ((h1 i).2 (by omega))
        · obtain ⟨vs, e1, e2⟩ := hv0
          rw [hw] at e1
          cases e1
          exact (List.getElem?_eq_some_iff.1 e2).1
      · refine ⟨d, fun i => ?_, h2⟩
        rw [← h1 i]
        constructor
        · rintro (hh | hh | ⟨_, _, _, _, hh⟩)
          · exact hh
          · cases hh; exact absurd rfl hcc
          · cases hh
        · exact Or.inl
    · intro c hc b p hp hb hA
      rcases hA with hA | hA | ⟨a', p', ha', hp', hA⟩
      · obtain ⟨k, v, h1, h2, h3⟩ := h.syn c hc b p hp hb hA
        exact ⟨k, v, h1, h2, Or.inl h3⟩
      · cases hA
      · cases hA
        have := hp.symm.trans hp'
        cases this
        exact ⟨k0, v0, hv0, ha', Or.inr (Or.inl rfl)⟩
    · intro c hc k w hw hA b hb
      rcases hA with hA | hA | ⟨_, _, _, _, hA⟩
      · obtain ⟨p, h1, h2⟩ := h.ins c hc k w hw hA b hb
        exact ⟨p, h1, Or.inl h2⟩
      · cases hA
        obtain ⟨vs, e1, e2⟩ := hv0
        obtain ⟨vs', e1', e2'⟩ := hw
        rw [e1] at e1'
        cases e1'
        rw [e2] at e2'
        cases e2'
        obtain ⟨p, h1, h2⟩ := hin b hb
        exact ⟨p, h1, Or.inl h2⟩
      · cases hA

theorem einv_runs {e : Env} (hs : e.self ∉ e.children) {A B : Known} {evs : List Ev}
    (r : Runs e A evs B) (h : EInv e A) : EInv e B := by
  induction r with
  | nil => exact h
  | cons s _ ih => exact ih (einv_step hs h s)

/-- The states between the visits. -/
theorem plays_states {e : Env} {A U : Known} {vs : List AVisit} {seqs : List (List Ev)} (h : Plays e A vs seqs U) :
    ∃ st : Nat → Known, st 0 = A ∧ st vs.length = U ∧ seqs.length = vs.length ∧
      ∀ (k : Nat) v seq, vs[k]? = some v → seqs[k]? = some seq → Runs e (withInputs e v (st k)) seq (st (k + 1)) ∧
        ∀ a, a ∈ v.outputs → ∃ p, At e e.self a p ∧ st (k + 1) (.node p) := by
  induction h with
  | @nil A => exact ⟨fun _ => A, rfl, rfl, rfl, fun k v seq h => by simp at h⟩
  | @cons A T U v vs seq seqs r ho _ ih =>
    obtain ⟨st, h1, h2, h3, h4⟩ := ih
    refine ⟨fun k => match k with
      | 0 => A
      | k + 1 => st k, rfl, h2, by simp [h3], ?_⟩
    intro k w sq hw hsq
    cases k with
    | zero =>
      simp only [List.getElem?_cons_zero, Option.some.injEq] at hw hsq
      subst hw hsq
      simp only [h1]
      exact ⟨r, ho⟩
    | succ k =>
      simp only [List.getElem?_cons_succ] at hw hsq
      exact h4 k w sq hw hsq

/-! ## All nodes -/

/-- What the scheduler establishes for a node: `e` is what the sequences `seqs` were made from, `vs` are the visits, and `st`
what is known after each of them. -/
structure NodeFact (S : Spec) (P : Plan) (n : INode) (e : Env) (seqs : List (List Ev)) (st : Nat → Known)
    (vs : List AVisit) : Prop where
  self : e.self = n.addr
  kids : ∀ c, c ∈ e.children ↔ ∃ ch ∈ n.children, ch.addr = c
  typ : ∀ c ∈ n.children, e.typeOf c.addr = c.type
  syn : ∀ t x, AttrIn S t x → e.syn x.addr = x.syn
  mem : ∀ c ∈ n.children, ∀ m ks, m ∈ S.nodes → OfType S c.type (.node m ks) → (e.members c.type = none ∧ c.type = m.addr) ∨
    ∃ ms, e.members c.type = some ms ∧ m.addr ∈ ms
  alt : ∀ c ∈ n.children, (e.members c.type = none → ∃ m ∈ S.nodes, m.addr = c.type) ∧
    ∀ ms, e.members c.type = some ms → ∃ s ∈ S.sets, s.addr = c.type ∧ ms = s.members.reverse.map (·.addr)
  vis : e.visits = P.visits
  nodup : e.g.nodes.Nodup
  only : ∀ o a p, At e o a p → (o = n.addr ∧ ∃ x ∈ n.attrs, (x.inh ∨ x.syn) ∧ x.addr = a) ∨
    ∃ c ∈ n.children, c.addr = o ∧ ∃ x, AttrIn S c.type x ∧ (x.inh ∨ x.syn) ∧ x.addr = a
  hasOwn : ∀ x ∈ n.attrs, (x.inh ∨ x.syn) → ∃ p, At e n.addr x.addr p
  hasKid : ∀ c ∈ n.children, ∀ x, AttrIn S c.type x → (x.inh ∨ x.syn) → ∃ p, At e c.addr x.addr p
  dep : ∀ q ∈ n.eqs, ∀ d ∈ q.args, (d.attr.inh ∨ d.attr.syn) → ∀ i, At e (place n q.rule).1 (place n q.rule).2 i →
    ∃ j, At e (place n d).1 (place n d).2 j ∧ DependsOn e.g j i
  own : P.visits n.addr = some vs
  child : ∀ c ∈ n.children, ∃ ws, P.visits c.type = some ws
  plan : P.seqs n.addr = some (seqs.map fun seq => seq.map (act e.g))
  start : st 0 = fun _ => False
  len : seqs.length = vs.length
  step : ∀ (k : Nat) v seq, vs[k]? = some v → seqs[k]? = some seq → Runs e (withInputs e v (st k)) seq (st (k + 1)) ∧
    ∀ a, a ∈ v.outputs → ∃ p, At e e.self a p ∧ st (k + 1) (.node p)
  last : vs ≠ [] → ∀ c ∈ n.children, ∀ ws, P.visits c.type = some ws → ∀ k, k < ws.length → st vs.length (.visit c.addr k)
  none : vs = [] → ∀ c ∈ n.children, ∀ ws, P.visits c.type = some ws → ws = []

/-- What the scheduler establishes, with what is needed besides. -/
structure World (S : Spec) (P : Plan) (En : INode → Env) (Sq : INode → List (List Ev)) (St : INode → Nat → Known)
    (Vs : INode → List AVisit) : Prop where
  checked : Checked S
  equipped : Equipped S
  agree : Agree S P
  noInh : NoInherited S P
  node : ∀ n ∈ S.nodes, NodeFact S P n (En n) (Sq n) (St n) (Vs n)
  held : ∀ t vs, P.visits t = some vs → ∀ (k : Nat) v, vs[k]? = some v →
    (∀ a ∈ v.inputs, ∃ x, AttrIn S t x ∧ x.inh = true ∧ x.addr = a) ∧
    (∀ a ∈ v.outputs, ∃ x, AttrIn S t x ∧ x.syn = true ∧ x.addr = a)
  all : ∀ t vs, P.visits t = some vs → ∀ x, AttrIn S t x →
    (x.inh = true → ∃ (k : Nat) (v : AVisit), vs[k]? = some v ∧ x.addr ∈ v.inputs) ∧
    (x.syn = true → ∃ (k : Nat) (v : AVisit), vs[k]? = some v ∧ x.addr ∈ v.outputs)

theorem attrIn_mem {S : Spec} {t : Nat} {x : Attr} (h : AttrIn S t x) : x ∈ attributes S := by
  rcases h with ⟨m, hm, _, hx⟩ | ⟨s, hs, _, hx⟩
  · exact List.mem_append_left _ (List.mem_flatMap.2 ⟨m, hm, hx⟩)
  · exact List.mem_append_right _ (List.mem_flatMap.2 ⟨s, hs, hx⟩)

theorem own_attrIn {S : Spec} {n : INode} (hn : n ∈ S.nodes) {x : Attr} (hx : x ∈ n.attrs) : AttrIn S n.addr x :=
  Or.inl ⟨n, hn, rfl, hx⟩

theorem attrIn_node {S : Spec} (h : Checked S) {n : INode} (hn : n ∈ S.nodes) {x : Attr} (hx : AttrIn S n.addr x) :
    x ∈ n.attrs := by
  rcases hx with ⟨m, hm, e, hx⟩ | ⟨s, hs, e, hx⟩
  · rw [← node_inj h hm hn e]; exact hx
  · exact absurd e.symm (node_set h hn hs)

theorem attrIn_set {S : Spec} (h : Checked S) {s : NSet} (hs : s ∈ S.sets) {x : Attr} (hx : AttrIn S s.addr x) :
    x ∈ s.attrs := by
  rcases hx with ⟨m, hm, e, hx⟩ | ⟨s', hs', e, hx⟩
  · exact absurd e (node_set h hm hs)
  · rw [← set_inj h hs' hs e]; exact hx

section
variable {S : Spec} {P : Plan} {En : INode → Env} {Sq : INode → List (List Ev)} {St : INode → Nat → Known}
  {Vs : INode → List AVisit} (w : World S P En Sq St Vs)
include w

/-- The address determines the attribute. -/
theorem addr_inj {x y : Attr} (hx : x ∈ attributes S) (hy : y ∈ attributes S) (he : x.addr = y.addr) : x = y :=
  inj_of_nodup w.equipped.addrs hx hy he

theorem not_syn {t : Nat} {x : Attr} (hx : AttrIn S t x) (hi : x.inh = true) : x.syn = false := by
  cases hs : x.syn with
  | false => rfl
  | true => exact absurd ⟨hi, hs⟩ (w.equipped.kinds x (attrIn_mem hx))

/-- The attribute of a node that a child is has the kind of the attribute of the child. -/
theorem kind_eq {t : Nat} {m : INode} {ks} (hm : m ∈ S.nodes) (ht : OfType S t (.node m ks)) {x b : Attr} (hx : AttrIn S t x)
    (hc : x.inh = true ∨ x.syn = true) (hb : b ∈ m.attrs) (hn : b.name = x.name) : b.inh = x.inh ∧ b.syn = x.syn := by
  rcases ht with e | ⟨s, hs, e, hms⟩
  · have := attrIn_inj w.checked (Or.inl ⟨m, hm, e, hb⟩) hx hn
    subst this
    exact ⟨rfl, rfl⟩
  · subst e
    obtain ⟨b', hb', n', i', s'⟩ := w.checked.equivalent s hs m hms x (attrIn_set w.checked hs hx) hc
    have := name_inj w.checked hm hb hb' (hn.trans n'.symm)
    subst this
    exact ⟨i', s'⟩

/-- The visits of the node that a child is fit those of the type of the child. -/
theorem fit {t : Nat} {m : INode} {ks} (hm : m ∈ S.nodes) (ht : OfType S t (.node m ks)) {vs ws : List AVisit}
    (hv : P.visits t = some vs) (hw : P.visits m.addr = some ws) :
    ws.length ≤ vs.length ∧
    (∀ (k : Nat) w, ws[k]? = some w → ∀ b ∈ m.attrs, b.addr ∈ w.inputs → ∃ (j : Nat) (v : AVisit), j ≤ k ∧
      vs[j]? = some v ∧ ∃ x, AttrIn S t x ∧ x.name = b.name ∧ x.inh = true ∧ x.addr ∈ v.inputs) ∧
    (∀ (k : Nat) v, vs[k]? = some v → ∀ x, AttrIn S t x → x.addr ∈ v.outputs → ∀ b ∈ m.attrs, b.name = x.name →
      ∃ (j : Nat) (w : AVisit), j ≤ k ∧ ws[j]? = some w ∧ b.addr ∈ w.outputs) := by
  rcases ht with e | ⟨s, hs, e, hms⟩
  · subst e
    rw [hv] at hw
    cases hw
    refine ⟨Nat.le_refl _, ?_, ?_⟩
    · intro k v hk b hb hi
      obtain ⟨x, h1, h2, h3⟩ := (w.held _ _ hv k v hk).1 _ hi
      have := addr_inj w (attrIn_mem h1) (attrIn_mem (own_attrIn hm hb)) h3
      subst this
      exact ⟨k, v, Nat.le_refl _, hk, x, h1, rfl, h2, hi⟩
    · intro k v hk x hx hi b hb hn
      have := attrIn_inj w.checked (own_attrIn hm hb) hx hn
      subst this
      exact ⟨k, v, Nat.le_refl _, hk, hi⟩
  · subst e
    obtain ⟨h1, h2, h3⟩ := w.agree s hs m hms vs ws hv hw
    refine ⟨h1, ?_, ?_⟩
    · intro k u hk b hb hi
      obtain ⟨j, v, hj, hjv, a, ha, x, hx, y, hy, rfl, e2, e3⟩ := h2 k u hk _ hi
      have := addr_inj w (attrIn_mem (own_attrIn hm hy)) (attrIn_mem (own_attrIn hm hb)) e2
      subst this
      have hx' : AttrIn S s.addr x := Or.inr ⟨s, hs, rfl, hx⟩
      obtain ⟨x', k1, k2, k3⟩ := (w.held _ _ hv j v hjv).1 _ ha
      have := addr_inj w (attrIn_mem k1) (attrIn_mem hx') k3
      subst this
      exact ⟨j, v, hj, hjv, x', hx', e3, k2, ha⟩
    · intro k v hk x hx hi b hb hn
      obtain ⟨j, u, hj, hju, a, ha, x', hx', y, hy, e1, rfl, e3⟩ := h3 k v hk _ hi
      have := addr_inj w (attrIn_mem (Or.inr ⟨s, hs, rfl, hx'⟩ : AttrIn S s.addr x')) (attrIn_mem hx) e1
      subst this
      have := name_inj w.checked hm hb hy (hn.trans e3)
      subst this
      exact ⟨j, u, hj, hju, ha⟩

end

/-! ## Trees -/

/-- The computed attributes `K` of a tree at a node fit what is known (`A`), given what that means for the subtrees. -/
structure SimS (S : Spec) (P : Plan) (e : Env) (n : INode) (kids : Nat → Tree) (sub : Nat → Nat → Values → Prop) (A : Known)
    (K : Values) : Prop where
  own : ∀ x ∈ n.attrs, x.syn = true → (K ([], x.addr) ↔ ∃ p, At e n.addr x.addr p ∧ A (.node p))
  kid : ∀ c ∈ n.children, ∀ m ks ws, kids c.addr = .node m ks → P.visits m.addr = some ws →
    ∃ d, (∀ i, A (.visit c.addr i) ↔ i < d) ∧ sub c.addr (min d ws.length) (part c.addr K)
  inh : ∀ c ∈ n.children, ∀ m ks, kids c.addr = .node m ks → ∀ b ∈ m.attrs, b.inh = true →
    (K ([c.addr], b.addr) ↔ ∃ x p, AttrIn S c.type x ∧ x.name = b.name ∧ x.inh = true ∧ At e c.addr x.addr p ∧ A (.node p))

/-- The computed attributes of a tree are those after `j` visits.  Nothing is said about the inherited attributes of the
root. -/
def Sim (S : Spec) (P : Plan) (En : INode → Env) (St : INode → Nat → Known) : Tree → Nat → Values → Prop
  | .null, _, _ => True
  | .node n kids, j, K => SimS S P (En n) n kids (fun c => Sim S P En St (kids c)) (St n j) K

/-- The inherited attributes of the root do not matter. -/
theorem sim_inh {S : Spec} (q : Equipped S) {P : Plan} {En : INode → Env} {St : INode → Nat → Known} {m : INode} (hm : m ∈ S.nodes)
    {ks : Nat → Tree} {j : Nat} {K K' : Values} (hK : ∀ v, (¬ ∃ b ∈ m.attrs, b.inh = true ∧ v = ([], b.addr)) → (K v ↔ K' v))
    (h : Sim S P En St (.node m ks) j K) : Sim S P En St (.node m ks) j K' := by
  rw [Sim] at h ⊢
  refine ⟨?_, ?_, ?_⟩
  · intro x hx hs
    rw [← h.own x hx hs]
    refine (hK _ ?_).symm
    rintro ⟨b, hb, hi, e⟩
    simp only [Prod.mk.injEq, true_and] at e
    have := inj_of_nodup q.addrs (attrIn_mem (own_attrIn hm hx)) (attrIn_mem (own_attrIn hm hb)) e
    subst this
    exact q.kinds x (attrIn_mem (own_attrIn hm hx)) ⟨hi, hs⟩
  · intro c hc m' ks' ws h1 h2
    have e : part c.addr K = part c.addr K' := by
      funext v
      exact propext (hK _ (by rintro ⟨b, _, _, e⟩; simp at e))
    rw [← e]
    exact h.kid c hc m' ks' ws h1 h2
  · intro c hc m' ks' h1 b hb hi
    rw [← h.inh c hc m' ks' h1 b hb hi]
    exact (hK _ (by rintro ⟨b, _, _, e⟩; simp at e)).symm

section
variable {S : Spec} {P : Plan} {En : INode → Env} {Sq : INode → List (List Ev)} {St : INode → Nat → Known}
  {Vs : INode → List AVisit} (w : World S P En Sq St Vs)
include w

theorem self_not_kid {n : INode} (hn : n ∈ S.nodes) : (En n).self ∉ (En n).children := by
  intro h
  obtain ⟨c, hc, e⟩ := ((w.node n hn).kids _).1 h
  rw [(w.node n hn).self] at e
  exact node_child w.checked hn hn hc e.symm

theorem st_seq {n : INode} (hn : n ∈ S.nodes) {k : Nat} (hk : k < (Vs n).length) :
    ∃ v seq, (Vs n)[k]? = some v ∧ (Sq n)[k]? = some seq := by
  have hl := (w.node n hn).len
  exact ⟨_, _, List.getElem?_eq_getElem hk, List.getElem?_eq_getElem (by omega)⟩

theorem st_mono {n : INode} (hn : n ∈ S.nodes) {i j : Nat} (hij : i ≤ j) (hj : j ≤ (Vs n).length) (x : Item) (h : St n i x) :
    St n j x := by
  induction j with
  | zero =>
    have : i = 0 := by omega
    subst this
    exact h
  | succ j ih =>
    by_cases hi : i = j + 1
    · subst hi; exact h
    · obtain ⟨v, seq, hv, hs⟩ := st_seq w hn (k := j) (by omega)
      exact runs_mono ((w.node n hn).step j v seq hv hs).1 _ (Or.inl (ih (by omega) (by omega)))

/-- The outputs of the visits that are done are computed. -/
theorem sim_outputs {n : INode} (hn : n ∈ S.nodes) {kids : Nat → Tree} {j : Nat} (hj : j ≤ (Vs n).length) {K : Values}
    (h : Sim S P En St (.node n kids) j K) {i : Nat} (hi : i < j) {v : AVisit} (hv : (Vs n)[i]? = some v) {x : Attr}
    (hx : x ∈ n.attrs) (hs : x.syn = true) (ho : x.addr ∈ v.outputs) : K ([], x.addr) := by
  rw [Sim] at h
  have f := w.node n hn
  obtain ⟨v', seq, hv', hq⟩ := st_seq w hn (k := i) (by omega)
  rw [hv] at hv'
  cases hv'
  obtain ⟨p, h1, h2⟩ := (f.step i v seq hv hq).2 _ ho
  rw [f.self] at h1
  exact (h.own x hx hs).2 ⟨p, h1, st_mono w hn (by omega) hj _ h2⟩

/-- What an equation for an attribute of the node is for. -/
theorem for_own {n : INode} (hn : n ∈ S.nodes) {kids : Nat → Tree} {a : Nat} {q : Eqn} (hq : For n (n.addr, a) q) (v : Vertex) :
    Means n kids q.rule v ↔ v = ([], a) := by
  obtain ⟨h1, h2⟩ := hq
  have hr := (w.checked.rules n hn q h1).1
  cases hc : q.rule.child with
  | some c =>
    simp only [Resolved, hc] at hr
    obtain ⟨ch, hch, rfl, _⟩ := hr
    simp only [place, hc, Option.getD_some, Prod.mk.injEq] at h2
    exact absurd h2.1.symm (node_child w.checked hn hn hch)
  | none =>
    simp only [place, hc, Option.getD_none, Prod.mk.injEq, true_and] at h2
    constructor
    · intro hm
      cases hm with
      | own _ => rw [h2]
      | child e => rw [hc] at e; cases e
    · rintro rfl
      rw [← h2]
      exact .own hc

/-- What an equation for an attribute of a child is for. -/
theorem for_kid {n : INode} (hn : n ∈ S.nodes) {kids : Nat → Tree} {c : Child} (hc : c ∈ n.children) {x : Attr}
    (hx : AttrIn S c.type x) {q : Eqn} (hq : For n (c.addr, x.addr) q) (v : Vertex) :
    Means n kids q.rule v ↔ ∃ m ks b, kids c.addr = .node m ks ∧ b ∈ m.attrs ∧ b.name = x.name ∧ v = ([c.addr], b.addr) := by
  obtain ⟨h1, h2⟩ := hq
  have hr := (w.checked.rules n hn q h1).1
  cases hcc : q.rule.child with
  | none =>
    simp only [place, hcc, Option.getD_none, Prod.mk.injEq] at h2
    exact absurd h2.1 (node_child w.checked hn hn hc)
  | some c' =>
    simp only [Resolved, hcc] at hr
    obtain ⟨ch, hch, rfl, hat⟩ := hr
    simp only [place, hcc, Option.getD_some, Prod.mk.injEq] at h2
    have := child_inj w.checked hn hn hch hc h2.1
    subst this
    have := addr_inj w (attrIn_mem (show AttrIn S ch.type q.rule.attr from hat)) (attrIn_mem hx) h2.2
    constructor
    · intro hm
      cases hm with
      | own e => rw [hcc] at e; cases e
      | @child c m k b e e1 e2 e3 =>
        rw [hcc] at e
        cases e
        rw [this] at e3
        exact ⟨m, k, b, e1, e2, e3, rfl⟩
    · rintro ⟨m, k, b, e1, e2, e3, rfl⟩
      exact .child hcc e1 e2 (by rw [this]; exact e3)

/-- The inherited attributes of the node that are known are computed. -/
def OwnK (e : Env) (n : INode) (A : Known) (K : Values) : Prop :=
  ∀ x ∈ n.attrs, x.inh = true → ∀ p, At e n.addr x.addr p → A (.node p) → K ([], x.addr)

/-- What an equation uses is computed, if the graph node is known. -/
theorem arg_known {n : INode} (hn : n ∈ S.nodes) {kids : Nat → Tree}
    (hk : ∀ c ∈ n.children, OfType S c.type (kids c.addr) ∧ Fits S (kids c.addr)) {A : Known} {K : Values} (ei : EInv (En n) A)
    (si : SimS S P (En n) n kids (fun c => Sim S P En St (kids c)) A K) (ow : OwnK (En n) n A K) {d : Ref}
    (hr : Resolved S n d) (hd : d.attr.inh = true ∨ d.attr.syn = true) {j : Nat}
    (hj : At (En n) (place n d).1 (place n d).2 j) (hA : A (.node j)) {u : Vertex} (hu : Means n kids d u) : K u := by
  have f := w.node n hn
  cases hu with
  | own e =>
    simp only [Resolved, e] at hr
    simp only [place, e, Option.getD_none] at hj
    rcases hd with hd | hd
    · exact ow _ hr hd j hj hA
    · exact (si.own _ hr hd).2 ⟨j, hj, hA⟩
  | @child c m k b e e1 e2 e3 =>
    simp only [Resolved, e] at hr
    obtain ⟨ch, hch, rfl, hat⟩ := hr
    have hat : AttrIn S ch.type d.attr := hat
    simp only [place, e, Option.getD_some] at hj
    obtain ⟨ot, ft⟩ := hk ch hch
    rw [e1] at ot ft
    rw [Fits] at ft
    have hm := ft.1
    have ke := kind_eq w hm ot hat hd e2 e3
    rcases hd with hd | hd
    · exact (si.inh ch hch m k e1 b e2 (by rw [ke.1]; exact hd)).2 ⟨_, j, hat, e3.symm, hd, hj, hA⟩
    · have hcc : ch.addr ∈ (En n).children := (f.kids _).2 ⟨ch, hch, rfl⟩
      obtain ⟨kk, v, ⟨vs, hv1, hv2⟩, ho, hA'⟩ := ei.syn _ hcc _ _ hj (by rw [f.syn _ _ hat]; exact hd) hA
      rw [f.typ ch hch, f.vis] at hv1
      have hw := (w.node m hm).own
      obtain ⟨j', w', hj', hw', ho'⟩ := (fit w hm ot hv1 hw).2.2 kk v hv2 _ hat ho b e2 e3
      obtain ⟨d', hd', hsub⟩ := si.kid ch hch m k _ e1 hw
      have hlt := (hd' kk).1 hA'
      have hl : j' < (Vs m).length := (List.getElem?_eq_some_iff.1 hw').1
      simp only [e1] at hsub
      exact sim_outputs w hm (by omega) hsub (i := j') (by omega) hw' e2 (by rw [ke.2]; exact hd) ho'

/-- The visits of a tree can be executed. -/
def Claim (S : Spec) (P : Plan) (En : INode → Env) (St : INode → Nat → Known) (Vs : INode → List AVisit) (T : Tree) : Prop :=
  ∀ n kids, T = .node n kids → ∀ j K, j < (Vs n).length → Sim S P En St T j K →
    (∀ i, i ≤ j → ∀ v, (Vs n)[i]? = some v → ∀ a ∈ v.inputs, K ([], a)) →
    ∃ K', Visited P T j K K' ∧ Sim S P En St T (j + 1) K' ∧
      ∀ b ∈ n.attrs, b.inh = true → (K' ([], b.addr) ↔ K ([], b.addr))

/-- An attribute of the node is evaluated. -/
theorem eval_own {n : INode} (hn : n ∈ S.nodes) {kids : Nat → Tree} {A : Known} {K : Values}
    (si : SimS S P (En n) n kids (fun c => Sim S P En St (kids c)) A K) (ow : OwnK (En n) n A K) {x : Attr} (hx : x ∈ n.attrs)
    (hs : x.syn = true) {i : Nat} (hi : At (En n) n.addr x.addr i) (hnew : ¬ A (.node i)) {K' : Values}
    (hK : ∀ v, K' v ↔ K v ∨ v = ([], x.addr)) :
    ¬ K ([], x.addr) ∧ SimS S P (En n) n kids (fun c => Sim S P En St (kids c)) (fun y => A y ∨ y = .node i) K' ∧
      OwnK (En n) n (fun y => A y ∨ y = .node i) K' ∧ ∀ b ∈ n.attrs, b.inh = true → (K' ([], b.addr) ↔ K ([], b.addr)) := by
  have f := w.node n hn
  have ne : ∀ b ∈ n.attrs, b.inh = true → b.addr ≠ x.addr := by
    intro b hb hbi e
    have := addr_inj w (attrIn_mem (own_attrIn hn hb)) (attrIn_mem (own_attrIn hn hx)) e
    subst this
    exact w.equipped.kinds b (attrIn_mem (own_attrIn hn hb)) ⟨hbi, hs⟩
  have same : ∀ c path a, K' (c :: path, a) ↔ K (c :: path, a) := by
    intro c path a
    rw [hK]
    simp
  refine ⟨?_, ⟨?_, ?_, ?_⟩, ?_, ?_⟩
  · intro h
    obtain ⟨p, h1, h2⟩ := (si.own x hx hs).1 h
    have := at_unique f.nodup h1 hi
    subst this
    exact hnew h2
  · intro y hy hys
    rw [hK, si.own y hy hys]
    constructor
    · rintro (⟨p, h1, h2⟩ | h)
      · exact ⟨p, h1, Or.inl h2⟩
      · simp only [Prod.mk.injEq, true_and] at h
        rw [h]
        exact ⟨i, hi, Or.inr rfl⟩
    · rintro ⟨p, h1, h2 | h2⟩
      · exact Or.inl ⟨p, h1, h2⟩
      · cases h2
        have := h1.symm.trans hi
        simp only [Option.some.injEq, Prod.mk.injEq, true_and] at this
        right
        rw [this]
  · intro c hc m ks ws h1 h2
    obtain ⟨d, h3, h4⟩ := si.kid c hc m ks ws h1 h2
    refine ⟨d, fun k => ?_, ?_⟩
    · rw [← h3 k]; simp
    · have : part c.addr K' = part c.addr K := by
        funext v; exact propext (same _ _ _)
      rw [this]; exact h4
  · intro c hc m ks h1 b hb hbi
    rw [same, si.inh c hc m ks h1 b hb hbi]
    constructor
    · rintro ⟨y, p, k1, k2, k3, k4, k5⟩
      exact ⟨y, p, k1, k2, k3, k4, Or.inl k5⟩
    · rintro ⟨y, p, k1, k2, k3, k4, k5 | k5⟩
      · exact ⟨y, p, k1, k2, k3, k4, k5⟩
      · cases k5
        have := k4.symm.trans hi
        simp only [Option.some.injEq, Prod.mk.injEq] at this
        exact absurd this.1.symm (node_child w.checked hn hn hc)
  · intro y hy hyi p hp hA
    rcases hA with hA | hA
    · exact (hK _).2 (Or.inl (ow y hy hyi p hp hA))
    · cases hA
      have := hp.symm.trans hi
      simp only [Option.some.injEq, Prod.mk.injEq, true_and] at this
      exact absurd this (ne y hy hyi)
  · intro b hb hbi
    rw [hK]
    have := ne b hb hbi
    simp [this]

/-- An attribute of a child is evaluated. -/
theorem eval_kid {n : INode} (hn : n ∈ S.nodes) {kids : Nat → Tree}
    (hk : ∀ c ∈ n.children, OfType S c.type (kids c.addr) ∧ Fits S (kids c.addr)) {A : Known} {K : Values}
    (si : SimS S P (En n) n kids (fun c => Sim S P En St (kids c)) A K) (ow : OwnK (En n) n A K) {c : Child}
    (hc : c ∈ n.children) {x : Attr} (hx : AttrIn S c.type x)
    (hs : x.inh = true) {i : Nat} (hi : At (En n) c.addr x.addr i) (hnew : ¬ A (.node i)) {K' : Values}
    (hK : ∀ v, K' v ↔ K v ∨ ∃ m ks b, kids c.addr = .node m ks ∧ b ∈ m.attrs ∧ b.name = x.name ∧ v = ([c.addr], b.addr)) :
    (∀ m ks b, kids c.addr = .node m ks → b ∈ m.attrs → b.name = x.name → ¬ K ([c.addr], b.addr)) ∧
      SimS S P (En n) n kids (fun c => Sim S P En St (kids c)) (fun y => A y ∨ y = .node i) K' ∧
      OwnK (En n) n (fun y => A y ∨ y = .node i) K' ∧ ∀ b ∈ n.attrs, b.inh = true → (K' ([], b.addr) ↔ K ([], b.addr)) := by
  have f := w.node n hn
  have root : ∀ a, K' ([], a) ↔ K ([], a) := by
    intro a; rw [hK]; simp
  have kindOf : ∀ m ks b, kids c.addr = .node m ks → b ∈ m.attrs → b.name = x.name → m ∈ S.nodes ∧ b.inh = true := by
    intro m ks b h1 h2 h3
    obtain ⟨ot, ft⟩ := hk c hc
    rw [h1] at ot ft
    rw [Fits] at ft
    exact ⟨ft.1, by rw [(kind_eq w ft.1 ot hx (Or.inl hs) h2 h3).1]; exact hs⟩
  have only : ∀ y p, AttrIn S c.type y → y.name = x.name → At (En n) c.addr y.addr p → p = i := by
    intro y p h1 h2 h3
    have := attrIn_inj w.checked h1 hx h2
    subst this
    exact at_unique f.nodup h3 hi
  refine ⟨?_, ⟨?_, ?_, ?_⟩, ?_, fun b _ _ => root _⟩
  · intro m ks b h1 h2 h3 h
    obtain ⟨y, p, k1, k2, _, k4, k5⟩ := (si.inh c hc m ks h1 b h2 (kindOf m ks b h1 h2 h3).2).1 h
    have := only y p k1 (k2.trans h3) k4
    subst this
    exact hnew k5
  · intro y hy hys
    rw [root, si.own y hy hys]
    constructor
    · rintro ⟨p, h1, h2⟩
      exact ⟨p, h1, Or.inl h2⟩
    · rintro ⟨p, h1, h2 | h2⟩
      · exact ⟨p, h1, h2⟩
      · cases h2
        have := h1.symm.trans hi
        simp only [Option.some.injEq, Prod.mk.injEq] at this
        exact absurd this.1 (node_child w.checked hn hn hc)
  · intro c' hc' m ks ws h1 h2
    obtain ⟨d, h3, h4⟩ := si.kid c' hc' m ks ws h1 h2
    refine ⟨d, fun k => ?_, ?_⟩
    · rw [← h3 k]; simp
    · by_cases hcc : c'.addr = c.addr
      · have := child_inj w.checked hn hn hc' hc hcc
        subst this
        have hm : m ∈ S.nodes := by
          have := (hk c' hc').2
          rw [h1, Fits] at this
          exact this.1
        simp only [h1] at h4 ⊢
        refine sim_inh w.equipped hm ?_ h4
        intro v hv
        show K (c'.addr :: v.1, v.2) ↔ K' (c'.addr :: v.1, v.2)
        rw [hK]
        constructor
        · exact Or.inl
        · rintro (h | ⟨m', ks', b, e1, e2, e3, e4⟩)
          · exact h
          · rw [h1] at e1
            cases e1
            simp only [Prod.mk.injEq, List.cons.injEq, true_and] at e4
            exact absurd ⟨b, e2, (kindOf m ks b h1 e2 e3).2, Prod.ext e4.1 e4.2⟩ hv
      · have : part c'.addr K' = part c'.addr K := by
          funext v
          apply propext
          show K' (c'.addr :: v.1, v.2) ↔ K (c'.addr :: v.1, v.2)
          rw [hK]
          constructor
          · rintro (h | ⟨m', ks', b, e1, e2, e3, e4⟩)
            · exact h
            · simp only [Prod.mk.injEq, List.cons.injEq] at e4
              exact absurd e4.1.1 hcc
          · exact Or.inl
        rw [this]; exact h4
  · intro c' hc' m ks h1 b hb hbi
    rw [hK, si.inh c' hc' m ks h1 b hb hbi]
    constructor
    · rintro (⟨y, p, k1, k2, k3, k4, k5⟩ | ⟨m', ks', b', e1, e2, e3, e4⟩)
      · exact ⟨y, p, k1, k2, k3, k4, Or.inl k5⟩
      · simp only [Prod.mk.injEq, List.cons.injEq, and_true] at e4
        have := child_inj w.checked hn hn hc' hc e4.1
        subst this
        rw [h1] at e1
        cases e1
        have hm := (kindOf m ks b' h1 e2 e3).1
        have := addr_inj w (attrIn_mem (own_attrIn hm hb)) (attrIn_mem (own_attrIn hm e2)) e4.2
        subst this
        exact ⟨x, i, hx, e3.symm, hs, hi, Or.inr rfl⟩
    · rintro ⟨y, p, k1, k2, k3, k4, k5 | k5⟩
      · exact Or.inl ⟨y, p, k1, k2, k3, k4, k5⟩
      · cases k5
        have := k4.symm.trans hi
        simp only [Option.some.injEq, Prod.mk.injEq] at this
        have e := child_inj w.checked hn hn hc' hc this.1
        subst e
        have := addr_inj w (attrIn_mem k1) (attrIn_mem hx) this.2
        subst this
        exact Or.inr ⟨m, ks, b, h1, hb, k2.symm, rfl⟩
  · intro y hy hyi p hp hA
    rw [root]
    rcases hA with hA | hA
    · exact ow y hy hyi p hp hA
    · cases hA
      have := hp.symm.trans hi
      simp only [Option.some.injEq, Prod.mk.injEq] at this
      exact absurd this.1 (node_child w.checked hn hn hc)

/-- A child is visited, or left alone: `B` is what has been computed of the subtree then. -/
theorem sim_visit {n : INode} (hn : n ∈ S.nodes) {kids : Nat → Tree} {A : Known} {K : Values}
    (si : SimS S P (En n) n kids (fun c => Sim S P En St (kids c)) A K) (ow : OwnK (En n) n A K) {c : Child}
    (hc : c ∈ n.children) {k : Nat} {v : AVisit} (hpre : ∀ j, A (.visit c.addr j) ↔ j < k)
    (hout : ∀ a ∈ v.outputs, ∃ x, AttrIn S c.type x ∧ x.syn = true ∧ x.addr = a) {B : Values}
    (hB : ∀ m ks ws, kids c.addr = .node m ks → P.visits m.addr = some ws →
      Sim S P En St (kids c.addr) (min (k + 1) ws.length) B ∧
      ∀ b ∈ m.attrs, b.inh = true → (B ([], b.addr) ↔ K ([c.addr], b.addr)))
    (hnode : ∀ m ks, kids c.addr = .node m ks → ∃ ws, P.visits m.addr = some ws) :
    SimS S P (En n) n kids (fun c => Sim S P En St (kids c))
      (fun y => A y ∨ y = .visit c.addr k ∨ ∃ a p, a ∈ v.outputs ∧ At (En n) c.addr a p ∧ y = .node p) (replace c.addr B K) ∧
    OwnK (En n) n (fun y => A y ∨ y = .visit c.addr k ∨ ∃ a p, a ∈ v.outputs ∧ At (En n) c.addr a p ∧ y = .node p)
      (replace c.addr B K) ∧
    ∀ b ∈ n.attrs, b.inh = true → (replace c.addr B K ([], b.addr) ↔ K ([], b.addr)) := by
  have f := w.node n hn
  have pc : part c.addr (replace c.addr B K) = B := by
    funext u; simp [part, replace]
  have po : ∀ d, d ≠ c.addr → part d (replace c.addr B K) = part d K := by
    intro d hd; funext u; simp [part, replace, hd]
  refine ⟨⟨?_, ?_, ?_⟩, ?_, fun b _ _ => Iff.rfl⟩
  · intro y hy hys
    show K ([], y.addr) ↔ _
    rw [si.own y hy hys]
    constructor
    · rintro ⟨p, h1, h2⟩
      exact ⟨p, h1, Or.inl h2⟩
    · rintro ⟨p, h1, h2 | h2 | ⟨a, p', _, h3, h2⟩⟩
      · exact ⟨p, h1, h2⟩
      · cases h2
      · cases h2
        have := h1.symm.trans h3
        simp only [Option.some.injEq, Prod.mk.injEq] at this
        exact absurd this.1 (node_child w.checked hn hn hc)
  · intro c' hc' m ks ws h1 h2
    obtain ⟨d, h3, h4⟩ := si.kid c' hc' m ks ws h1 h2
    by_cases hcc : c'.addr = c.addr
    · have := child_inj w.checked hn hn hc' hc hcc
      subst this
      refine ⟨k + 1, fun i => ?_, ?_⟩
      · constructor
        · rintro (h | h | ⟨_, _, _, _, h⟩)
          · have := (hpre i).1 h; omega
          · cases h; omega
          · cases h
        · intro hi
          by_cases hik : i = k
          · subst hik; exact Or.inr (Or.inl rfl)
          · exact Or.inl ((hpre i).2 (by omega))
      · rw [pc]
        exact (hB m ks ws h1 h2).1
    · refine ⟨d, fun i => ?_, ?_⟩
      · rw [← h3 i]
        constructor
        · rintro (h | h | ⟨_, _, _, _, h⟩)
          · exact h
          · simp only [Item.visit.injEq] at h; exact absurd h.1 hcc
          · cases h
        · exact Or.inl
      · rw [po _ hcc]
        exact h4
  · intro c' hc' m ks h1 b hb hbi
    have old : replace c.addr B K ([c'.addr], b.addr) ↔ K ([c'.addr], b.addr) := by
      by_cases hcc : c'.addr = c.addr
      · obtain ⟨ws, hw⟩ := hnode m ks (by rw [← hcc]; exact h1)
        have := (hB m ks ws (by rw [← hcc]; exact h1) hw).2 b hb hbi
        simp only [replace, hcc, if_true]
        exact this
      · simp [replace, hcc]
    rw [old, si.inh c' hc' m ks h1 b hb hbi]
    constructor
    · rintro ⟨y, p, k1, k2, k3, k4, k5⟩
      exact ⟨y, p, k1, k2, k3, k4, Or.inl k5⟩
    · rintro ⟨y, p, k1, k2, k3, k4, k5 | k5 | ⟨a, p', ha, h3, k5⟩⟩
      · exact ⟨y, p, k1, k2, k3, k4, k5⟩
      · cases k5
      · cases k5
        have := k4.symm.trans h3
        simp only [Option.some.injEq, Prod.mk.injEq] at this
        obtain ⟨x, x1, x2, x3⟩ := hout a ha
        have e := addr_inj w (attrIn_mem k1) (attrIn_mem x1) (this.2.trans x3.symm)
        subst e
        have := not_syn w k1 k3
        rw [x2] at this
        cases this
  · intro y hy hyi p hp hA
    show K ([], y.addr)
    rcases hA with hA | hA | ⟨a, p', _, h3, hA⟩
    · exact ow y hy hyi p hp hA
    · cases hA
    · cases hA
      have := hp.symm.trans h3
      simp only [Option.some.injEq, Prod.mk.injEq] at this
      exact absurd this.1 (node_child w.checked hn hn hc)

omit w in
theorem lookup_some {α β : Type} [BEq α] [LawfulBEq α] {a : α} : ∀ {l : List (α × β)}, a ∈ l.map (·.1) →
    ∃ b, l.lookup a = some b ∧ (a, b) ∈ l
  | [], h => by simp at h
  | (x, y) :: l, h => by
    by_cases e : a = x
    · subst e
      exact ⟨y, by simp, by simp⟩
    · have h' : a ∈ l.map (·.1) := by
        simp only [List.map_cons, List.mem_cons] at h
        exact h.resolve_left e
      obtain ⟨b, h1, h2⟩ := lookup_some h'
      exact ⟨b, by rw [List.lookup_cons, beq_false_of_ne e]; exact h1, by simp [h2]⟩

/-- One element of a sequence. -/
theorem step_sim {n : INode} (hn : n ∈ S.nodes) {kids : Nat → Tree}
    (hk : ∀ c ∈ n.children, OfType S c.type (kids c.addr) ∧ Fits S (kids c.addr))
    (ih : ∀ c ∈ n.children, Claim S P En St Vs (kids c.addr)) {A B : Known} {ev : Ev} (st : Step (En n) A ev B) {K : Values}
    (ei : EInv (En n) A) (si : SimS S P (En n) n kids (fun c => Sim S P En St (kids c)) A K) (ow : OwnK (En n) n A K)
    (hni : ∀ x ∈ n.attrs, x.inh = true → act (En n).g ev ≠ .eval (n.addr, x.addr)) :
    ∃ K', (∀ rest K'', Done P n kids rest K' K'' → Done P n kids (act (En n).g ev :: rest) K K'') ∧
      SimS S P (En n) n kids (fun c => Sim S P En St (kids c)) B K' ∧ OwnK (En n) n B K' ∧
      ∀ b ∈ n.attrs, b.inh = true → (K' ([], b.addr) ↔ K ([], b.addr)) := by
  have f := w.node n hn
  cases st with
  | @eval i o a hat ho hd hnew =>
    have ha : act (En n).g (.eval i) = .eval (o, a) := by
      simp only [act]
      rw [show (En n).g.nodes[i]? = some (o, a) from hat]
      rfl
    rw [ha]
    have args : ∀ q, For n (o, a) q → ∀ d ∈ q.args, (d.attr.inh = true ∨ d.attr.syn = true) → ∀ u, Means n kids d u → K u := by
      intro q hq d hdq hc u hu
      obtain ⟨j, hj, hdep⟩ := f.dep q hq.1 d hdq hc i (by rw [hq.2]; exact hat)
      exact arg_known w hn hk ei si ow (w.checked.args n hn q hq.1 d hdq hc) hc hj (hd j hdep) hu
    rcases f.only o a i hat with ⟨rfl, x, hx, hc, rfl⟩ | ⟨c, hc, rfl, x, hx, hcx, rfl⟩
    · have hs : x.syn = true := by
        rcases hc with hc | hc
        · exact absurd ha (hni x hx hc)
        · exact hc
      obtain ⟨q0, hq0⟩ := w.equipped.own n hn x hx hs
      have hK : ∀ v, (K v ∨ ∃ q, For n (n.addr, x.addr) q ∧ Means n kids q.rule v) ↔ K v ∨ v = ([], x.addr) := by
        intro v
        constructor
        · rintro (h | ⟨q, hq, hm⟩)
          · exact Or.inl h
          · exact Or.inr ((for_own w hn hq v).1 hm)
        · rintro (h | h)
          · exact Or.inl h
          · exact Or.inr ⟨q0, hq0, (for_own w hn hq0 v).2 h⟩
      obtain ⟨h1, h2, h3, h4⟩ := eval_own w hn si ow hx hs hat hnew hK
      refine ⟨_, fun rest K'' hr => .eval ⟨q0, hq0⟩ args ?_ hr, h2, h3, h4⟩
      intro q hq v hv
      rw [(for_own w hn hq v).1 hv]
      exact h1
    · have hs : x.inh = true := by
        have hne : c.addr ≠ (En n).self := by rw [f.self]; exact (node_child w.checked hn hn hc).symm
        have := ho.resolve_left hne
        rw [f.syn _ _ hx] at this
        rcases hcx with h | h
        · exact h
        · rw [this] at h; cases h
      obtain ⟨q0, hq0⟩ : ∃ q, For n (c.addr, x.addr) q := by
        rcases hx with ⟨m, hm, e, hx⟩ | ⟨s, hss, e, hx⟩
        · exact (w.equipped.child n hn c hc).1 m hm e x hx hs
        · exact (w.equipped.child n hn c hc).2 s hss e x hx hs
      have hK : ∀ v, (K v ∨ ∃ q, For n (c.addr, x.addr) q ∧ Means n kids q.rule v) ↔
          K v ∨ ∃ m ks b, kids c.addr = .node m ks ∧ b ∈ m.attrs ∧ b.name = x.name ∧ v = ([c.addr], b.addr) := by
        intro v
        constructor
        · rintro (h | ⟨q, hq, hm⟩)
          · exact Or.inl h
          · exact Or.inr ((for_kid w hn hc hx hq v).1 hm)
        · rintro (h | h)
          · exact Or.inl h
          · exact Or.inr ⟨q0, hq0, (for_kid w hn hc hx hq0 v).2 h⟩
      obtain ⟨h1, h2, h3, h4⟩ := eval_kid w hn hk si ow hc hx hs hat hnew hK
      refine ⟨_, fun rest K'' hr => .eval ⟨q0, hq0⟩ args ?_ hr, h2, h3, h4⟩
      intro q hq v hv
      obtain ⟨m, ks, b, e1, e2, e3, rfl⟩ := (for_kid w hn hc hx hq v).1 hv
      exact h1 m ks b e1 e2 e3
  | @visit ca k alts v hca hv halt hne hpre hin hnew =>
    obtain ⟨c, hc, rfl⟩ := (f.kids _).1 hca
    have hpk : ∀ j, A (.visit c.addr j) ↔ j < k := by
      obtain ⟨d, h1, _⟩ := ei.pre _ hca
      have a1 : ¬ k < d := fun hlt => hnew ((h1 k).2 hlt)
      have a2 : ¬ d < k := fun hlt => absurd ((h1 d).1 (hpre d hlt)) (Nat.lt_irrefl _)
      have : d = k := by omega
      subst this
      exact h1
    have hv' := hv
    obtain ⟨vs, hvs, hvk⟩ := hv
    rw [f.typ c hc, f.vis] at hvs
    have hheld := w.held _ _ hvs k v hvk
    have hnode : ∀ m ks, kids c.addr = .node m ks → ∃ ws, P.visits m.addr = some ws := by
      intro m ks e
      have := (hk c hc).2
      rw [e, Fits] at this
      exact ⟨_, (w.node m this.1).own⟩
    show ∃ K', (∀ rest K'', Done P n kids rest K' K'' → Done P n kids (.visit c.addr k alts :: rest) K K'') ∧ _
    have same : replace c.addr (part c.addr K) K = K := by
      funext u
      obtain ⟨u1, u2⟩ := u
      cases u1 with
      | nil => rfl
      | cons d path =>
        by_cases e : d = c.addr
        · subst e; simp [replace, part]
        · simp [replace, e]
    cases hT : kids c.addr with
    | null =>
      have := sim_visit w hn si ow hc hpk hheld.2 (B := part c.addr K) (by intro m ks ws e; rw [hT] at e; cases e) hnode
      rw [same] at this
      exact ⟨K, fun rest K'' hr => .missing hT hr, this⟩
    | node m ks =>
      obtain ⟨ot, ft⟩ := hk c hc
      rw [hT] at ot ft
      rw [Fits] at ft
      have hm := ft.1
      have hw := (w.node m hm).own
      have hfit := fit w hm ot hvs hw
      obtain ⟨o, hlook, hko, hno⟩ : ∃ o, alts.lookup m.addr = some o ∧ (o = some k ↔ k < (Vs m).length) ∧
          (o = none ↔ (Vs m).length ≤ k) := by
        have al := halt
        unfold Alternatives at al
        rw [f.typ c hc] at al
        rcases f.mem c hc m ks hm ot with ⟨e1, e2⟩ | ⟨ms, e1, e2⟩
        · rw [e1] at al
          simp only at al
          subst al
          refine ⟨some k, by simp [e2], ?_, ?_⟩
          · rw [e2, hw] at hvs
            cases hvs
            simp only [true_iff]
            exact (List.getElem?_eq_some_iff.1 hvk).1
          · rw [e2, hw] at hvs
            cases hvs
            have := (List.getElem?_eq_some_iff.1 hvk).1
            constructor
            · intro h; cases h
            · intro h; omega
        · rw [e1] at al
          simp only at al
          obtain ⟨a1, a2⟩ := al
          obtain ⟨o, l1, l2⟩ := lookup_some (a := m.addr) (l := alts) (by rw [a1]; exact e2)
          obtain ⟨vs', b1, b2, b3⟩ := a2 _ _ l2
          rw [f.vis, hw] at b1
          cases b1
          exact ⟨o, l1, b2, b3⟩
      obtain ⟨d, hd1, hd2⟩ := si.kid c hc m ks _ hT hw
      have hdk : d = k := by
        have a1 : ¬ k < d := fun hlt => absurd ((hpk k).1 ((hd1 k).2 hlt)) (Nat.lt_irrefl _)
        have a2 : ¬ d < k := fun hlt => absurd ((hd1 d).1 ((hpk d).2 hlt)) (Nat.lt_irrefl _)
        omega
      subst hdk
      by_cases hlt : d < (Vs m).length
      · have hmin : min d (Vs m).length = d := by omega
        rw [hmin] at hd2
        have ins : ∀ i, i ≤ d → ∀ u, (Vs m)[i]? = some u → ∀ a ∈ u.inputs, part c.addr K ([], a) := by
          intro i hi u hu a hau
          obtain ⟨b, b1, b2, rfl⟩ := (w.held _ _ hw i u hu).1 a hau
          have hb := attrIn_node w.checked hm b1
          obtain ⟨j, v', hj, hjv, x, x1, x2, x3, x4⟩ := hfit.2.1 i u hu b hb hau
          obtain ⟨p, hp, hA⟩ : ∃ p, At (En n) c.addr x.addr p ∧ A (.node p) := by
            by_cases hjd : j = d
            · subst hjd
              rw [hvk] at hjv
              cases hjv
              exact hin _ x4
            · exact ei.ins _ hca j v' ⟨vs, by rw [f.typ c hc, f.vis]; exact hvs, hjv⟩ ((hpk j).2 (by omega)) _ x4
          exact (si.inh c hc m ks hT b hb b2).2 ⟨x, p, x1, x2, x3, hp, hA⟩
        obtain ⟨B, hB1, hB2, hB3⟩ := ih c hc m ks hT d (part c.addr K) hlt hd2 ins
        have := sim_visit w hn si ow hc hpk hheld.2 (B := B) (by
          intro m' ks' ws' e1 e2
          rw [hT] at e1
          cases e1
          rw [hw] at e2
          cases e2
          rw [show min (d + 1) (Vs m).length = d + 1 by omega]
          exact ⟨hB2, hB3⟩) hnode
        rw [hko.2 hlt] at hlook
        rw [hT] at hB1
        exact ⟨_, fun rest K'' hr => .visit hT hlook hB1 hr, this⟩
      · have := sim_visit w hn si ow hc hpk hheld.2 (B := part c.addr K) (by
          intro m' ks' ws' e1 e2
          rw [hT] at e1
          cases e1
          rw [hw] at e2
          cases e2
          rw [show min (d + 1) (Vs m).length = min d (Vs m).length by omega]
          exact ⟨hd2, fun _ _ _ => Iff.rfl⟩) hnode
        rw [same] at this
        rw [hno.2 (by omega)] at hlook
        exact ⟨K, fun rest K'' hr => .skip hT hlook hr, this⟩

theorem run_sim {n : INode} (hn : n ∈ S.nodes) {kids : Nat → Tree}
    (hk : ∀ c ∈ n.children, OfType S c.type (kids c.addr) ∧ Fits S (kids c.addr))
    (ih : ∀ c ∈ n.children, Claim S P En St Vs (kids c.addr)) {A B : Known} {evs : List Ev} (r : Runs (En n) A evs B) :
    ∀ {K : Values}, EInv (En n) A → SimS S P (En n) n kids (fun c => Sim S P En St (kids c)) A K → OwnK (En n) n A K →
    (∀ ev ∈ evs, ∀ x ∈ n.attrs, x.inh = true → act (En n).g ev ≠ .eval (n.addr, x.addr)) →
    ∃ K', Done P n kids (evs.map (act (En n).g)) K K' ∧
      SimS S P (En n) n kids (fun c => Sim S P En St (kids c)) B K' ∧
      ∀ b ∈ n.attrs, b.inh = true → (K' ([], b.addr) ↔ K ([], b.addr)) := by
  induction r with
  | nil => intro K _ si _ _; exact ⟨K, .nil, si, fun _ _ _ => Iff.rfl⟩
  | cons s _ ihr =>
    intro K ei si ow hni
    obtain ⟨K1, h1, h2, h3, h4⟩ := step_sim w hn hk ih s ei si ow (hni _ (by simp))
    obtain ⟨K2, g1, g2, g3⟩ := ihr (einv_step (self_not_kid w hn) ei s) h2 h3
      fun ev hev => hni ev (List.mem_cons_of_mem _ hev)
    exact ⟨K2, h1 _ _ g1, g2, fun b hb hi => (g3 b hb hi).trans (h4 b hb hi)⟩

theorem no_own {n : INode} (hn : n ∈ S.nodes) {k : Nat} {seq : List Ev} (hq : (Sq n)[k]? = some seq) :
    ∀ ev ∈ seq, ∀ x ∈ n.attrs, x.inh = true → act (En n).g ev ≠ .eval (n.addr, x.addr) := by
  intro ev hev x hx hi e
  refine w.noInh n hn _ (w.node n hn).plan (seq.map (act (En n).g)) ?_ x hx hi ?_
  · exact List.mem_map.2 ⟨seq, List.mem_of_getElem? hq, rfl⟩
  · rw [← e]
    exact List.mem_map.2 ⟨ev, hev, rfl⟩

theorem einv_st {n : INode} (hn : n ∈ S.nodes) : ∀ {j : Nat}, j ≤ (Vs n).length → EInv (En n) (St n j)
  | 0, _ => by rw [(w.node n hn).start]; exact einv_empty _
  | j + 1, hj => by
    obtain ⟨v, seq, hv, hs⟩ := st_seq w hn (k := j) (by omega)
    have sn := self_not_kid w hn
    exact einv_runs sn ((w.node n hn).step j v seq hv hs).1 (einv_inputs sn (einv_st hn (by omega)) v)

theorem runs_own {n : INode} (hn : n ∈ S.nodes) {x : Attr} (hx : x ∈ n.attrs) (hi : x.inh = true) {p : Nat}
    (hp : At (En n) n.addr x.addr p) {A B : Known} {evs : List Ev} (r : Runs (En n) A evs B)
    (hni : ∀ ev ∈ evs, ∀ x ∈ n.attrs, x.inh = true → act (En n).g ev ≠ .eval (n.addr, x.addr)) (hB : B (.node p)) :
    A (.node p) := by
  induction r with
  | nil => exact hB
  | cons s _ ih =>
    have h := ih (fun ev hev => hni ev (List.mem_cons_of_mem _ hev)) hB
    cases s with
    | eval hat =>
      rcases h with h | h
      · exact h
      · cases h
        refine absurd ?_ (hni (.eval p) (by simp) x hx hi)
        simp only [act]
        rw [show (En n).g.nodes[p]? = _ from hp]
        rfl
    | visit hc =>
      rcases h with h | h | ⟨a, p', _, h3, h⟩
      · exact h
      · cases h
      · cases h
        have := hp.symm.trans h3
        simp only [Option.some.injEq, Prod.mk.injEq] at this
        rw [← this.1, ← (w.node n hn).self] at hc
        exact absurd hc (self_not_kid w hn)

/-- An inherited attribute of the node is known as an input. -/
theorem st_inh {n : INode} (hn : n ∈ S.nodes) {x : Attr} (hx : x ∈ n.attrs) (hi : x.inh = true) {p : Nat}
    (hp : At (En n) n.addr x.addr p) : ∀ {j : Nat}, j ≤ (Vs n).length → St n j (.node p) →
    ∃ i v, i < j ∧ (Vs n)[i]? = some v ∧ x.addr ∈ v.inputs
  | 0, _, h => by rw [(w.node n hn).start] at h; exact h.elim
  | j + 1, hj, h => by
    obtain ⟨v, seq, hv, hs⟩ := st_seq w hn (k := j) (by omega)
    have f := w.node n hn
    rcases runs_own w hn hx hi hp (f.step j v seq hv hs).1 (no_own w hn hs) h with h | ⟨a, p', ha, h3, h⟩
    · obtain ⟨i, u, h1, h2⟩ := st_inh hn hx hi hp (by omega) h
      exact ⟨i, u, by omega, h2⟩
    · cases h
      have := hp.symm.trans h3
      simp only [Option.some.injEq, Prod.mk.injEq] at this
      rw [← this.2] at ha
      exact ⟨j, v, by omega, hv, ha⟩

theorem visit_claim : ∀ T, Fits S T → Claim S P En St Vs T := by
  intro T
  induction T with
  | null => intro _ n kids e; cases e
  | node n kids ih =>
    intro hf n' kids' e j K hj hs hin
    cases e
    rw [Fits] at hf
    obtain ⟨hn, hk⟩ := hf
    have f := w.node n hn
    obtain ⟨v, seq, hv, hq⟩ := st_seq w hn hj
    rw [Sim] at hs
    have inputs : ∀ a ∈ v.inputs, ∃ x, x ∈ n.attrs ∧ x.inh = true ∧ x.addr = a := by
      intro a ha
      obtain ⟨x, h1, h2, h3⟩ := (w.held _ _ f.own j v hv).1 a ha
      exact ⟨x, attrIn_node w.checked hn h1, h2, h3⟩
    have si : SimS S P (En n) n kids (fun c => Sim S P En St (kids c)) (withInputs (En n) v (St n j)) K := by
      refine ⟨?_, ?_, ?_⟩
      · intro x hx hxs
        rw [hs.own x hx hxs]
        constructor
        · rintro ⟨p, h1, h2⟩
          exact ⟨p, h1, Or.inl h2⟩
        · rintro ⟨p, h1, h2 | ⟨a, p', ha, h3, h2⟩⟩
          · exact ⟨p, h1, h2⟩
          · cases h2
            have := h1.symm.trans h3
            simp only [Option.some.injEq, Prod.mk.injEq] at this
            obtain ⟨y, y1, y2, y3⟩ := inputs a ha
            have e := addr_inj w (attrIn_mem (own_attrIn hn y1)) (attrIn_mem (own_attrIn hn hx)) (y3.trans this.2.symm)
            subst e
            exact absurd ⟨y2, hxs⟩ (w.equipped.kinds y (attrIn_mem (own_attrIn hn hx)))
      · intro c hc m ks ws h1 h2
        obtain ⟨d, h3, h4⟩ := hs.kid c hc m ks ws h1 h2
        refine ⟨d, fun i => ?_, h4⟩
        rw [← h3 i]
        constructor
        · rintro (h | ⟨_, _, _, _, h⟩)
          · exact h
          · cases h
        · exact Or.inl
      · intro c hc m ks h1 b hb hbi
        rw [hs.inh c hc m ks h1 b hb hbi]
        constructor
        · rintro ⟨y, p, k1, k2, k3, k4, k5⟩
          exact ⟨y, p, k1, k2, k3, k4, Or.inl k5⟩
        · rintro ⟨y, p, k1, k2, k3, k4, k5 | ⟨a, p', ha, h3, k5⟩⟩
          · exact ⟨y, p, k1, k2, k3, k4, k5⟩
          · cases k5
            have := k4.symm.trans h3
            simp only [Option.some.injEq, Prod.mk.injEq] at this
            rw [f.self] at this
            exact absurd this.1.symm (node_child w.checked hn hn hc)
    have ow : OwnK (En n) n (withInputs (En n) v (St n j)) K := by
      intro x hx hxi p hp hA
      rcases hA with hA | ⟨a, p', ha, h3, hA⟩
      · obtain ⟨i, u, h1, h2, h3⟩ := st_inh w hn hx hxi hp (by omega) hA
        exact hin i (by omega) u h2 _ h3
      · cases hA
        have := hp.symm.trans h3
        simp only [Option.some.injEq, Prod.mk.injEq] at this
        rw [← this.2] at ha
        exact hin j (Nat.le_refl _) v hv _ ha
    have ei := einv_inputs (self_not_kid w hn) (einv_st w hn (j := j) (by omega)) v
    obtain ⟨K', h1, h2, h3⟩ := run_sim w hn hk (fun c hc => ih c.addr (hk c hc).2) (f.step j v seq hv hq).1 ei si ow
      (no_own w hn hq)
    refine ⟨K', .node f.plan (seq := seq.map (act (En n).g)) ?_ h1, ?_, h3⟩
    · rw [List.getElem?_map, hq]
      rfl
    · rw [Sim]
      exact h2

theorem sim_zero : ∀ (T : Tree), Fits S T → ∀ K : Values,
    (∀ v, K v → ∀ n kids, T = .node n kids → ∃ b ∈ n.attrs, b.inh = true ∧ v = ([], b.addr)) → Sim S P En St T 0 K := by
  intro T
  induction T with
  | null => intros; trivial
  | node n kids ih =>
    intro hf K hK
    rw [Fits] at hf
    obtain ⟨hn, hk⟩ := hf
    have f := w.node n hn
    rw [Sim, f.start]
    refine ⟨?_, ?_, ?_⟩
    · intro x hx hs
      constructor
      · intro h
        obtain ⟨b, hb, hi, e⟩ := hK _ h n kids rfl
        simp only [Prod.mk.injEq, true_and] at e
        have := addr_inj w (attrIn_mem (own_attrIn hn hx)) (attrIn_mem (own_attrIn hn hb)) e
        subst this
        exact absurd ⟨hi, hs⟩ (w.equipped.kinds x (attrIn_mem (own_attrIn hn hx)))
      · rintro ⟨_, _, h⟩
        exact h.elim
    · intro c hc m ks ws h1 h2
      refine ⟨0, fun i => ⟨False.elim, fun h => absurd h (Nat.not_lt_zero i)⟩, ?_⟩
      rw [Nat.zero_min]
      refine ih c.addr (hk c hc).2 _ fun v hv => ?_
      obtain ⟨b, _, _, e⟩ := hK _ hv n kids rfl
      simp at e
    · intro c hc m ks h1 b hb hi
      constructor
      · intro h
        obtain ⟨b, _, _, e⟩ := hK _ h n kids rfl
        simp at e
      · rintro ⟨_, _, _, _, _, _, h⟩
        exact h.elim

/-- After all visits everything is computed. -/
theorem sim_all : ∀ (T : Tree), Fits S T → ∀ n kids, T = .node n kids → ∀ K : Values, Sim S P En St T (Vs n).length K →
    (∀ b ∈ n.attrs, b.inh = true → K ([], b.addr)) → ∀ v, InTree T v → K v := by
  intro T
  induction T with
  | null => intro _ n kids e; cases e
  | node n kids ih =>
    intro hf n' kids' e K hs hi v hv
    cases e
    rw [Fits] at hf
    obtain ⟨hn, hk⟩ := hf
    have f := w.node n hn
    have hs' := hs
    rw [Sim] at hs
    generalize hT : Tree.node n kids = T at hv
    cases hv with
    | root hx hc =>
      cases hT
      rename_i x
      rcases hc with hc | hc
      · exact hi _ hx hc
      · obtain ⟨k, u, h1, h2⟩ := (w.all _ _ f.own x (own_attrIn hn hx)).2 hc
        exact sim_outputs w hn (Nat.le_refl _) hs' (List.getElem?_eq_some_iff.1 h1).1 h1 hx hc h2
    | @deeper _ _ c v hc hv =>
      cases hT
      cases hkc : kids c.addr with
      | null => rw [hkc] at hv; cases hv
      | node m ks =>
        obtain ⟨ot, ft⟩ := hk c hc
        rw [hkc] at ot ft
        have hm : m ∈ S.nodes := by rw [Fits] at ft; exact ft.1
        have fm := w.node m hm
        obtain ⟨d, hd1, hd2⟩ := hs.kid c hc m ks _ hkc fm.own
        obtain ⟨ws, hws⟩ := f.child c hc
        have hfit := fit w hm ot hws fm.own
        have hdone : ∀ j, j < ws.length → St n (Vs n).length (.visit c.addr j) := by
          intro j hj
          by_cases he : Vs n = []
          · have := f.none he c hc ws hws
            subst this
            exact absurd hj (Nat.not_lt_zero _)
          · exact f.last he c hc ws hws j hj
        have hd : (Vs m).length ≤ d := by
          have : ws.length ≤ d := by
            rcases Nat.lt_or_ge d ws.length with h | h
            · exact absurd ((hd1 d).1 (hdone d h)) (Nat.lt_irrefl _)
            · exact h
          have := hfit.1
          omega
        rw [Nat.min_eq_right hd] at hd2
        refine ih c.addr (hk c hc).2 m ks hkc _ hd2 ?_ v hv
        intro b hb hbi
        obtain ⟨k, u, h1, h2⟩ := (w.all _ _ fm.own b (own_attrIn hm hb)).1 hbi
        obtain ⟨j, v', hj, hjv, x, x1, x2, x3, x4⟩ := hfit.2.1 k u h1 b hb h2
        obtain ⟨p, hp, hA⟩ := (einv_st w hn (Nat.le_refl _)).ins c.addr ((f.kids _).2 ⟨c, hc, rfl⟩) j v'
          ⟨ws, by rw [f.typ c hc, f.vis]; exact hws, hjv⟩ (hdone j (List.getElem?_eq_some_iff.1 hjv).1) _ x4
        exact (hs.inh c hc m ks hkc b hb hbi).2 ⟨x, p, x1, x2, x3, hp, hA⟩

theorem evaluates (T : Tree) (hf : Fits S T) : Evaluates P T := by
  cases T with
  | null => exact ⟨_, .done, fun v hv => by cases hv⟩
  | node n kids =>
    have hn : n ∈ S.nodes := by
      have := hf
      rw [Fits] at this
      exact this.1
    have f := w.node n hn
    have hlen : numVisits P (.node n kids) = (Vs n).length := by simp [numVisits, f.own]
    have key : ∀ r k K, k + r = (Vs n).length → Sim S P En St (.node n kids) k K →
        (∀ b ∈ n.attrs, b.inh = true → K ([], b.addr)) →
        ∃ K', AllVisited P (.node n kids) k r K K' ∧ Sim S P En St (.node n kids) (Vs n).length K' ∧
          ∀ b ∈ n.attrs, b.inh = true → K' ([], b.addr) := by
      intro r
      induction r with
      | zero =>
        intro k K e hs hi
        have : k = (Vs n).length := by omega
        subst this
        exact ⟨K, .done, hs, hi⟩
      | succ r ih =>
        intro k K e hs hi
        obtain ⟨K1, h1, h2, h3⟩ := visit_claim w (.node n kids) hf n kids rfl k K (by omega) hs (by
          intro i _ v hv a ha
          obtain ⟨x, x1, x2, rfl⟩ := (w.held _ _ f.own i v hv).1 a ha
          exact hi x (attrIn_node w.checked hn x1) x2)
        obtain ⟨K2, g1, g2, g3⟩ := ih (k + 1) K1 (by omega) h2 fun b hb hbi => (h3 b hb hbi).2 (hi b hb hbi)
        exact ⟨K2, .more h1 g1, g2, g3⟩
    obtain ⟨K, h1, h2, h3⟩ := key (Vs n).length 0 (given (.node n kids)) (by omega)
      (sim_zero w _ hf _ (by
        intro v hv n' kids' e
        cases e
        obtain ⟨h1, x, hx, hi, e⟩ := hv
        exact ⟨x, hx, hi, Prod.ext h1 e.symm⟩))
      (fun b hb hbi => ⟨rfl, b, hb, hbi, rfl⟩)
    rw [← hlen] at h1
    exact ⟨K, h1, sim_all w _ hf n kids rfl K h2 h3⟩

end

/-! ## One result -/

mutual
/-- There is one way only to execute a visit. -/
theorem visited_det {P : Plan} : ∀ {T k K K1}, Visited P T k K K1 → ∀ {K2}, Visited P T k K K2 → K1 = K2
  | _, _, _, _, .node h1 h2 h3, _, .node g1 g2 g3 => by
    rw [h1] at g1
    cases g1
    rw [h2] at g2
    cases g2
    exact done_det h3 g3
theorem done_det {P : Plan} : ∀ {n kids acts K K1}, Done P n kids acts K K1 → ∀ {K2}, Done P n kids acts K K2 → K1 = K2
  | _, _, _, _, _, .nil, _, .nil => rfl
  | _, _, _, _, _, .eval _ _ _ h, _, .eval _ _ _ g => done_det h g
  | _, _, _, _, _, .missing _ h, _, .missing _ g => done_det h g
  | _, _, _, _, _, .missing e _, _, .skip e' _ _ => by rw [e] at e'; cases e'
  | _, _, _, _, _, .missing e _, _, .visit e' _ _ _ => by rw [e] at e'; cases e'
  | _, _, _, _, _, .skip e _ _, _, .missing e' _ => by rw [e] at e'; cases e'
  | _, _, _, _, _, .skip _ _ h, _, .skip _ _ g => done_det h g
  | _, _, _, _, _, .skip e l _, _, .visit e' l' _ _ => by rw [e] at e'; cases e'; rw [l] at l'; cases l'
  | _, _, _, _, _, .visit e _ _ _, _, .missing e' _ => by rw [e] at e'; cases e'
  | _, _, _, _, _, .visit e l _ _, _, .skip e' l' _ => by rw [e] at e'; cases e'; rw [l] at l'; cases l'
  | _, _, _, _, _, .visit e l v h, _, .visit e' l' v' g => by
    rw [e] at e'
    cases e'
    rw [l] at l'
    cases l'
    have := visited_det v v'
    subst this
    exact done_det h g
end

theorem all_det {P : Plan} {T : Tree} {k r K K1 K2} (h : AllVisited P T k r K K1) (g : AllVisited P T k r K K2) : K1 = K2 := by
  induction h with
  | done => cases g; rfl
  | more h1 _ ih =>
    cases g with
    | more g1 g2 =>
      have := visited_det h1 g1
      subst this
      exact ih g2

end Verif.Evaluate
