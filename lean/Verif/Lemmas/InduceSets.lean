import Verif.Lemmas.InduceStart

/-!
# Lemmas about induced dependencies: graphs of nodesets, and the whole
-/

namespace Verif.Induce
open Verif.Graph Verif.Spec.Induce
open Verif.Spec.Graph (Edge Path)

/-- As `Tr`, for steps that add nodes as well. -/
structure Gr (S : Spec) (p : Production) (g g' : Graph) (err err' : Nat) (New : Place → Place → Prop) : Prop where
  ok : GOk S p g'
  sub : ∀ z ∈ g.nodes, z ∈ g'.nodes
  keep : ∀ x y, EdgeP g x y → EdgeP g' x y
  new : ∀ x y, EdgeP g' x y → EdgeP g x y ∨ New x y
  le : err ≤ err'
  circ : err < err' → Circular S
  anti : err' = err → Anti g → Anti g'

theorem Tr.grow {S p g g' e e' New} (h : Tr S p g g' e e' New) : Gr S p g g' e e' New :=
  ⟨h.ok, fun z hz => by rw [h.nodes]; exact hz, h.keep, h.new, h.le, h.circ, h.anti⟩

theorem Gr.trans {S p g1 g2 g3 e1 e2 e3 New} (h : Gr S p g1 g2 e1 e2 New) (h' : Gr S p g2 g3 e2 e3 New) :
    Gr S p g1 g3 e1 e3 New := by
  refine ⟨h'.ok, fun z hz => h'.sub z (h.sub z hz), fun x y k => h'.keep x y (h.keep x y k), ?_,
    Nat.le_trans h.le h'.le, ?_, ?_⟩
  · intro x y hxy
    rcases h'.new x y hxy with k | k
    · exact h.new x y k
    · exact Or.inr k
  · intro hlt
    by_cases h12 : e1 < e2
    · exact h.circ h12
    · exact h'.circ (by omega)
  · intro he ha
    have := h.le
    have := h'.le
    exact h'.anti (by omega) (h.anti (by omega) ha)

theorem Gr.weaken {S p g g' e e' New New'} (h : Gr S p g g' e e' New) (hw : ∀ x y, New x y → New' x y) :
    Gr S p g g' e e' New' :=
  ⟨h.ok, h.sub, h.keep, fun x y k => (h.new x y k).imp id (hw x y), h.le, h.circ, h.anti⟩

theorem lookupOrAdd_spec {S p g} (ok : GOk S p g) (o a err : Nat) :
    ∃ i g', lookupOrAdd g o a = .ok (i, g') ∧ Gr S p g g' err err (fun _ _ => False) ∧ g'.nodes[i]? = some (o, a) ∧
      (∀ z ∈ g'.nodes, z ∈ g.nodes ∨ z = (o, a)) := by
  cases hl : GRlookup_node g o a with
  | some i =>
    exact ⟨i, g, by simp only [lookupOrAdd, hl], (Tr.refl ok).grow, look_some hl, fun z hz => Or.inl hz⟩
  | none =>
    have hn := look_none hl
    have hb : ∀ i j, Edge g i j → (g.nodes ++ [(o, a)])[i]? = g.nodes[i]? ∧ (g.nodes ++ [(o, a)])[j]? = g.nodes[j]? := by
      intro i j he
      obtain ⟨h1, h2⟩ := ok.wf.bound i j he
      exact ⟨List.getElem?_append_left h1, List.getElem?_append_left h2⟩
    have back : ∀ x y, EdgeP { g with nodes := g.nodes ++ [(o, a)] } x y → EdgeP g x y := by
      rintro x y ⟨i, j, hi, hj, he⟩
      have he' : Edge g i j := he
      obtain ⟨h1, h2⟩ := hb i j he'
      exact ⟨i, j, by rw [← h1]; exact hi, by rw [← h2]; exact hj, he'⟩
    refine ⟨g.nodes.length, { g with nodes := g.nodes ++ [(o, a)] }, by simp only [lookupOrAdd, hl, GRadd_node],
      ⟨⟨ok.inS, ⟨?_, ok.wf.listed, ok.wf.once⟩, ?_, fun x y h => ok.sound x y (back x y h), ok.irrefl, ok.plain⟩, ?_, ?_,
        fun x y h => Or.inl (back x y h), Nat.le_refl _, fun h => absurd h (Nat.lt_irrefl _), fun _ h => h⟩, by simp, ?_⟩
    · intro i j he
      obtain ⟨h1, h2⟩ := ok.wf.bound i j he
      simp only [List.length_append, List.length_singleton]
      omega
    · rw [List.nodup_append]
      refine ⟨ok.nodup, by simp, ?_⟩
      intro x hx y hy hxy
      simp only [List.mem_singleton] at hy
      subst hxy
      subst hy
      exact hn hx
    · intro z hz
      exact List.mem_append_left _ hz
    · rintro x y ⟨i, j, hi, hj, he⟩
      obtain ⟨h1, h2⟩ := hb i j he
      exact ⟨i, j, by simp only [h1]; exact hi, by simp only [h2]; exact hj, he⟩
    · intro z hz
      rcases List.mem_append.1 hz with hz | hz
      · exact Or.inl hz
      · exact Or.inr (by simpa using hz)

theorem edgeIf_spec {S p g} (ok : GOk S p g) (b : Bool) {x y : Place} {i j : Nat} (hi : g.nodes[i]? = some x)
    (hj : g.nodes[j]? = some y) (hd : b = true → Dep S p x y) (hne : x ≠ y) (hn : ¬ EdgeP g x y) (err : Nat) :
    ∃ g' err', edgeIf b g i j err = .ok (g', err') ∧ Tr S p g g' err err' (fun u v => b = true ∧ u = x ∧ v = y) ∧
      (err' = err → b = true → EdgeP g' x y) := by
  cases b with
  | false => exact ⟨g, err, rfl, Tr.refl ok, fun _ h => by cases h⟩
  | true =>
    obtain ⟨e, g', r, t, a⟩ := addDep_spec ok hi hj (hd rfl) hne hn (Or.inl rfl) err
    exact ⟨g', counted err e, by simp only [edgeIf, r, Res.bind_ok], t.weaken fun _ _ h => ⟨rfl, h⟩, fun h _ => a h⟩

theorem equivalent_spec {S} (h : SpecOk S) {s : NSet} (hs : s ∈ S.sets) {m : INode} (hm : m ∈ s.members) {a : Attr}
    (ha : a ∈ s.attrs) (hc : a.inh = true ∨ a.syn = true) :
    ∃ b, get_equivalent_attribute a m = .ok b ∧ b ∈ m.attrs ∧ b.name = a.name := by
  have eq : ∀ c : Attr, Str.STReq (some a.name) (some c.name) = true ↔ c.name = a.name := by
    intro c
    simp only [Str.STReq, Str.strcmpEq, beq_iff_eq]
    exact ⟨Eq.symm, Eq.symm⟩
  unfold get_equivalent_attribute
  cases hf : m.attrs.reverse.find? (fun c => Str.STReq (some a.name) (some c.name)) with
  | none =>
    obtain ⟨b, hb, hbn, _⟩ := h.equivalent s hs m hm a ha hc
    rw [List.find?_eq_none] at hf
    exact absurd ((eq b).2 hbn) (hf b (List.mem_reverse.2 hb))
  | some b =>
    have := List.find?_some hf
    exact ⟨b, rfl, List.mem_reverse.1 (List.mem_of_find?_eq_some hf), (eq b).1 this⟩

theorem linkAttrs_spec {S} (h : SpecOk S) {s : NSet} (hs : s ∈ S.sets) {m : INode} (hm : m ∈ s.members) (as : List Attr) :
    ∀ (g : Graph) (err : Nat), GOk S (.member s m) g → (∀ a ∈ as, a ∈ s.attrs) → (as.map (·.addr)).Nodup →
    (∀ a ∈ as, ∀ z, ¬ EdgeP g (s.addr, a.addr) z ∧ ¬ EdgeP g z (s.addr, a.addr)) →
    ∃ g' err', linkAttrs s.addr m.addr m g err as = .ok (g', err') ∧
      Gr S (.member s m) g g' err err' (Direct (.member s m)) ∧
      (∀ z ∈ g'.nodes, z ∈ g.nodes ∨ (Production.member s m).Has S z.1 z.1 z.2) ∧
      (∀ a ∈ as, (a.inh = true ∨ a.syn = true) → ∀ b ∈ m.attrs, b.name = a.name → (m.addr, b.addr) ∈ g'.nodes) ∧
      (err' = err → ∀ a ∈ as, ∀ b ∈ m.attrs, b.name = a.name →
        (a.inh = true → EdgeP g' (s.addr, a.addr) (m.addr, b.addr)) ∧
        (a.syn = true → EdgeP g' (m.addr, b.addr) (s.addr, a.addr))) := by
  have hmn := h.members s hs m hm
  have hsm : s.addr ≠ m.addr := (node_set h.toChecked hmn hs).symm
  induction as with
  | nil =>
    intro g err ok _ _ _
    exact ⟨g, err, rfl, (Tr.refl ok).grow, fun z hz => Or.inl hz, by simp, by simp⟩
  | cons a as ih =>
    intro g err ok hsub nd hno
    have ha := hsub a (by simp)
    rw [List.map_cons, List.nodup_cons] at nd
    rw [linkAttrs]
    cases hc : computed a with
    | false =>
      have hc' : a.inh = false ∧ a.syn = false := by simpa [computed] using hc
      obtain ⟨g', err', r, t, k1, k2, k3⟩ := ih g err ok (fun a' h' => hsub a' (List.mem_cons_of_mem _ h')) nd.2
        (fun a' h' => hno a' (List.mem_cons_of_mem _ h'))
      refine ⟨g', err', r, t, k1, ?_, ?_⟩
      · intro a' h' hcc
        rcases List.mem_cons.1 h' with rfl | h'
        · rw [hc'.1, hc'.2] at hcc
          simp at hcc
        · exact k2 a' h' hcc
      · intro he a' h'
        rcases List.mem_cons.1 h' with rfl | h'
        · rw [hc'.1, hc'.2]
          exact fun _ _ _ => ⟨(fun h => by cases h), (fun h => by cases h)⟩
        · exact k3 he a' h'
    | true =>
      have hcc : a.inh = true ∨ a.syn = true := by simpa [computed] using hc
      obtain ⟨b, rb, hb, hbn⟩ := equivalent_spec h hs hm ha hcc
      obtain ⟨n1, g1, r1, t1, p1, q1⟩ := lookupOrAdd_spec ok s.addr a.addr err
      obtain ⟨n2, g2, r2, t2, p2, q2⟩ := lookupOrAdd_spec t1.ok m.addr b.addr err
      -- both places in the second graph
      have hi := t2.sub _ (at_mem p1)
      have p1' : g2.nodes[n1]? = some (s.addr, a.addr) := by
        simp only [lookupOrAdd] at r2
        split at r2
        · cases r2; exact p1
        · next hl =>
          simp only [GRadd_node, hl] at r2
          cases r2
          simp only
          rw [List.getElem?_append_left (at_lt p1)]
          exact p1
      have t12 := t1.trans t2
      have hno2 : ∀ a' ∈ a :: as, ∀ z, ¬ EdgeP g2 (s.addr, a'.addr) z ∧ ¬ EdgeP g2 z (s.addr, a'.addr) := by
        intro a' h' z
        constructor
        · intro hE
          rcases t12.new _ _ hE with hE | hE
          · exact (hno a' h' z).1 hE
          · exact hE
        · intro hE
          rcases t12.new _ _ hE with hE | hE
          · exact (hno a' h' z).2 hE
          · exact hE
      have hne : ((s.addr, a.addr) : Place) ≠ (m.addr, b.addr) := fun hh => hsm (Prod.mk.inj hh).1
      have hp : (Production.member s m).In S := ⟨hs, hm⟩
      obtain ⟨g3, e3, r3, t3, a3⟩ := edgeIf_spec t2.ok a.inh p1' p2 (fun hh => .direct hp (.down ha hh hb hbn)) hne
        (hno2 a (by simp) _).1 err
      have p1'' : g3.nodes[n1]? = some (s.addr, a.addr) := by rw [t3.nodes]; exact p1'
      have p2'' : g3.nodes[n2]? = some (m.addr, b.addr) := by rw [t3.nodes]; exact p2
      obtain ⟨g4, e4, r4, t4, a4⟩ := edgeIf_spec t3.ok a.syn p2'' p1'' (fun hh => .direct hp (.up ha hh hb hbn))
        (Ne.symm hne) (by
          intro hE
          rcases t3.new _ _ hE with hE | ⟨_, hE, _⟩
          · exact (hno2 a (by simp) _).2 hE
          · exact hne hE.symm) e3
      have t04 : Gr S (.member s m) g g4 err e4 (Direct (.member s m)) := by
        refine ((t12.weaken fun _ _ h => h.elim).trans (t3.grow.weaken ?_)).trans (t4.grow.weaken ?_)
        · rintro x y ⟨hh, rfl, rfl⟩
          exact .down ha hh hb hbn
        · rintro x y ⟨hh, rfl, rfl⟩
          exact .up ha hh hb hbn
      obtain ⟨g', err', r, t, k1, k2, k3⟩ := ih g4 e4 t4.ok (fun a' h' => hsub a' (List.mem_cons_of_mem _ h')) nd.2 (by
        intro a' h' z
        have hneq : a'.addr ≠ a.addr := fun hh => nd.1 (List.mem_map.2 ⟨a', h', hh⟩)
        have h'' : a' ∈ a :: as := List.mem_cons_of_mem _ h'
        constructor
        · intro hE
          rcases t4.new _ _ hE with hE | ⟨_, hE, _⟩
          · rcases t3.new _ _ hE with hE | ⟨_, hE, _⟩
            · exact (hno2 a' h'' z).1 hE
            · exact hneq (Prod.mk.inj hE).2
          · exact hsm (Prod.mk.inj hE).1
        · intro hE
          rcases t4.new _ _ hE with hE | ⟨_, _, hE⟩
          · rcases t3.new _ _ hE with hE | ⟨_, _, hE⟩
            · exact (hno2 a' h'' z).2 hE
            · exact hsm (Prod.mk.inj hE).1
          · exact hneq (Prod.mk.inj hE).2)
      have l4 := t4.le
      have l3 := t3.le
      have lt := t.le
      refine ⟨g', err', by simp only [r1, rb, r2, r3, r4, Res.bind_ok, r], t04.trans t, ?_, ?_, ?_⟩
      · intro z hz
        rcases k1 z hz with hz | hz
        · rw [t4.nodes, t3.nodes] at hz
          rcases q2 z hz with hz | rfl
          · rcases q1 z hz with hz | rfl
            · exact Or.inl hz
            · exact Or.inr (Or.inl ⟨rfl, rfl, a, ha, hcc, rfl⟩)
          · exact Or.inr (Or.inr ⟨rfl, rfl, a, ha, hcc, b, hb, hbn, rfl⟩)
        · exact Or.inr hz
      · intro a' h' hcc' b' hb' hbn'
        rcases List.mem_cons.1 h' with rfl | h'
        · have : b' = b := name_inj h.toChecked hmn hb' hb (hbn'.trans hbn.symm)
          subst this
          exact t.sub _ (by rw [t4.nodes]; exact at_mem p2'')
        · exact k2 a' h' hcc' b' hb' hbn'
      · intro hee a' h' b' hb' hbn'
        rcases List.mem_cons.1 h' with rfl | h'
        · have : b' = b := name_inj h.toChecked hmn hb' hb (hbn'.trans hbn.symm)
          subst this
          exact ⟨fun hh => t.keep _ _ (t4.keep _ _ (a3 (by omega) hh)), fun hh => t.keep _ _ (a4 (by omega) hh)⟩
        · exact k3 (by omega) a' h' b' hb' hbn'

theorem memberGraph_spec {S} (h : SpecOk S) {s : NSet} (hs : s ∈ S.sets) {m : INode} (hm : m ∈ s.members)
    (edges : List PEdge) (err : Nat) :
    ∃ g new err' N, (∀ fuel, N ≤ fuel → memberGraph fuel s m edges err = .ok (g, new ++ edges, err')) ∧
      Born S (.member s m) g new err err' := by
  have hmn := h.members s hs m hm
  have hsm : s.addr ≠ m.addr := (node_set h.toChecked hmn hs).symm
  have nds := attrNodes_nodup (o := s.addr) (h.setAttrs s hs)
  have nd : (attrNodes s.addr s.attrs ++ attrNodes m.addr s.attrs).Nodup := by
    rw [List.nodup_append]
    refine ⟨nds, attrNodes_nodup (h.setAttrs s hs), ?_⟩
    rintro x hx y hy rfl
    rw [mem_attrNodes] at hx hy
    exact hsm (hx.1.symm.trans hy.1)
  have r0 : add_attributes GRnew s.addr s.attrs = .ok { GRnew with nodes := attrNodes s.addr s.attrs } := by
    have := add_attributes_spec s.addr s.attrs GRnew (by simpa [GRnew] using nds)
    simpa [GRnew] using this
  have r1 := add_attributes_spec m.addr s.attrs { GRnew with nodes := attrNodes s.addr s.attrs } nd
  have ok := bare_ok (S := S) (p := .member s m) ⟨hs, hm⟩ nd
  obtain ⟨g2, e2, r2, t2, k1, k2, k3⟩ := linkAttrs_spec h hs hm s.attrs _ err ok (fun _ h => h) (h.setAttrs s hs)
    (fun _ _ _ => ⟨bare_edge, bare_edge⟩)
  obtain ⟨g3, new, e3, N, r3, t3, k, c3, _⟩ := closeInto_spec t2.ok edges e2
  have hle2 := t2.le
  have hle3 := t3.le
  have pl : Pl S (.member s m) g2 := by
    refine ⟨?_, ?_, ?_, ?_⟩
    · rintro o t a (⟨rfl, rfl, hx⟩ | ⟨rfl, rfl, x, hx, hc, y, hy, hn, rfl⟩)
      · exact t2.sub _ (List.mem_append_left _ (mem_attrNodes.2 ⟨rfl, hx⟩))
      · exact k2 x hx hc y hy hn
    · intro o a hz
      rcases k1 _ hz with hz | hz
      · rcases List.mem_append.1 hz with hz | hz
        · exact ⟨s.addr, Or.inl ⟨(mem_attrNodes.1 hz).1, rfl⟩⟩
        · exact ⟨m.addr, Or.inr ⟨(mem_attrNodes.1 hz).1, rfl⟩⟩
      · exact ⟨_, has_sym hz⟩
    · intro o t a hz hsy hat
      rcases k1 _ hz with hz | hz
      · rcases List.mem_append.1 hz with hz | hz
        · obtain ⟨rfl, hx⟩ := mem_attrNodes.1 hz
          have : t = s.addr := sym_unique h.toChecked (p := .member s m) ⟨hs, hm⟩ hsy (Or.inl ⟨rfl, rfl⟩)
          exact Or.inl ⟨rfl, this, hx⟩
        · obtain ⟨ho, x, hx, _, hxa⟩ := mem_attrNodes.1 hz
          have : t = m.addr := sym_unique h.toChecked (p := .member s m) ⟨hs, hm⟩ hsy (Or.inr ⟨ho, rfl⟩)
          subst this
          obtain ⟨y, hy, _, hya⟩ := attrOf_mem h hat
          rw [attrsOf_node h hmn] at hy
          exact absurd (hxa.trans hya.symm) (h.own s hs m hm x hx y hy)
      · have : t = o := sym_unique h.toChecked (p := .member s m) ⟨hs, hm⟩ hsy (has_sym hz)
        rw [this]
        exact hz
    · intro o a hz ho
      have ho : o = s.addr := ho
      rcases k1 _ hz with hz | hz
      · rcases List.mem_append.1 hz with hz | hz
        · obtain ⟨rfl, hx⟩ := mem_attrNodes.1 hz
          exact ⟨s.addr, Or.inl ⟨rfl, rfl, hx⟩⟩
        · exact absurd (ho.symm.trans (mem_attrNodes.1 hz).1) hsm
      · exact ⟨_, hz⟩
  refine ⟨g3, new, e3, N, ?_, ⟨t3.ok, pl.step t3.nodes, k, by omega, ?_, ?_⟩⟩
  · intro fuel hf
    simp only [memberGraph, r0, r1, r2, Res.bind_ok, r3 fuel hf]
  · intro hlt
    by_cases h2 : err < e2
    · exact t2.circ h2
    · exact t3.circ (by omega)
  · intro hee
    have hE2 : e2 = err := by omega
    refine ⟨c3 (by omega), t3.anti (by omega) (t2.anti hE2 bare_anti), ?_, ?_⟩
    · intro a b hd
      cases hd with
      | down ha hi hb hn => exact t3.keep _ _ ((k3 hE2 _ ha _ hb hn).1 hi)
      | up ha hi hb hn => exact t3.keep _ _ ((k3 hE2 _ ha _ hb hn).2 hi)
    · intro a b hab hE
      rcases t3.new a b hE with h1 | h1
      · rcases t2.new a b h1 with h1 | h1
        · exact absurd h1 bare_edge
        · cases h1 with
          | down => exact absurd hab hsm
          | up => exact absurd hab.symm hsm
      · exact h1 hab

/-! ## All graphs -/

/-- What holds of the graphs made so far; `cov` says where their edges inside a node are. -/
structure Init (S : Spec) (L : List (Production × Graph)) (cov : PEdge → Prop) (err : Nat) : Prop where
  good : ∀ x ∈ L, GOk S x.1 x.2 ∧ Pl S x.1 x.2
  circ : err ≠ 0 → Circular S
  comp : err = 0 → ∀ x ∈ L, Closed x.2 ∧ Anti x.2 ∧ (∀ a b, Direct x.1 a b → EdgeP x.2 a b) ∧
    ∀ a b, a.1 = b.1 → EdgeP x.2 a b → cov (a, b)

theorem Init.add {S L L' cov cov' err err' p g raw} (v : Init S L cov err) (b : Born S p g raw err err')
    (hL : ∀ x ∈ L', x = (p, g) ∨ x ∈ L) (hc : ∀ e, cov e ∨ e ∈ raw → cov' e) : Init S L' cov' err' := by
  have hle := b.le
  refine ⟨?_, ?_, ?_⟩
  · intro x hx
    rcases hL x hx with rfl | hx
    · exact ⟨b.ok, b.pl⟩
    · exact v.good x hx
  · intro hne
    by_cases he : err = 0
    · exact b.circ (by omega)
    · exact v.circ he
  · intro he x hx
    have he0 : err = 0 := by omega
    rcases hL x hx with rfl | hx
    · obtain ⟨h1, h2, h3, h4⟩ := b.comp (by omega)
      exact ⟨h1, h2, h3, fun u w hu hE => hc _ (Or.inr (h4 u w hu hE))⟩
    · obtain ⟨h1, h2, h3, h4⟩ := v.comp he0 x hx
      exact ⟨h1, h2, h3, fun u w hu hE => hc _ (Or.inl (h4 u w hu hE))⟩

/-- What holds between steps of the first two loops. -/
structure Start (S : Spec) (st : Sav) : Prop where
  shape : Shape S st.graphs
  ind : ∀ e ∈ st.induced, IndOk S e
  init : Init S (pairs S st.graphs) (fun e => conv S e ∈ st.induced) st.errors

theorem nodeGraphs_spec {S} (h : SpecOk S) (ns : List INode) : ∀ {st : Sav}, Start S st → (∀ n ∈ ns, n ∈ S.nodes) →
    ∃ st' N, (∀ fuel, N ≤ fuel → nodeGraphs fuel S ns st = .ok st') ∧ Start S st' ∧
      st'.graphs.map (·.1) = st.graphs.map (·.1) ++ ns.map (·.addr) := by
  induction ns with
  | nil => intro st v _; exact ⟨st, 0, fun _ _ => rfl, v, by simp⟩
  | cons n ns ih =>
    intro st v hns
    have hn := hns n (by simp)
    obtain ⟨g, raw, e1, N1, r1, b⟩ := generate_graph_node_spec h hn st.errors
    have v1 : Start S ⟨st.graphs ++ [(n.addr, [g])], combine_edgelists S st.induced raw, e1⟩ := by
      refine ⟨?_, ind_combine h v.ind b.rawOk, v.init.add b ?_ ?_⟩
      · intro e he
        rcases List.mem_append.1 he with he | he
        · exact v.shape e he
        · simp only [List.mem_singleton] at he
          subst he
          simp [prodsOf_node h hn]
      · intro x hx
        simp only [pairs, List.flatMap_append, List.flatMap_cons, List.flatMap_nil, List.append_nil, List.mem_append,
          prodsOf_node h hn, List.zip_cons_cons, List.zip_nil_left, List.mem_singleton] at hx
        exact hx.symm
      · rintro e (he | he)
        · exact (mem_combine _ _ _ _).2 (Or.inl he)
        · exact (mem_combine _ _ _ _).2 (Or.inr ⟨e, he, rfl⟩)
    obtain ⟨st', N2, r2, v2, k2⟩ := ih v1 fun n hn => hns n (List.mem_cons_of_mem _ hn)
    refine ⟨st', max N1 N2, ?_, v2, ?_⟩
    · intro fuel hf
      simp only [nodeGraphs, r1 fuel (by omega), Res.bind_ok, r2 fuel (by omega)]
    · simp [k2]

theorem memberGraphs_spec {S} (h : SpecOk S) {s : NSet} (hs : s ∈ S.sets) {L : List (Production × Graph)}
    {cov : PEdge → Prop} (ms : List INode) : ∀ (ps : List INode) (gs : List Graph) (edges : List PEdge) (err : Nat),
    (∀ m ∈ ms, m ∈ s.members) → ps.length = gs.length → RawOk S edges →
    Init S (L ++ (ps.map (.member s)).zip gs) (fun e => cov e ∨ e ∈ edges) err →
    ∃ gs' edges' err' N, (∀ fuel, N ≤ fuel → memberGraphs fuel s gs edges err ms = .ok (gs', edges', err')) ∧
      (ms.reverse ++ ps).length = gs'.length ∧ RawOk S edges' ∧
      Init S (L ++ ((ms.reverse ++ ps).map (.member s)).zip gs') (fun e => cov e ∨ e ∈ edges') err' := by
  induction ms with
  | nil =>
    intro ps gs edges err _ hl hr v
    exact ⟨gs, edges, err, 0, fun _ _ => rfl, by simpa using hl, hr, by simpa using v⟩
  | cons m ms ih =>
    intro ps gs edges err hms hl hr v
    obtain ⟨g, new, e1, N1, r1, b⟩ := memberGraph_spec h hs (hms m (by simp)) edges err
    obtain ⟨gs', edges', e2, N2, r2, l2, rr2, v2⟩ := ih (m :: ps) (g :: gs) (new ++ edges) e1
      (fun m hm => hms m (List.mem_cons_of_mem _ hm)) (by simp [hl])
      (fun r hr' => (List.mem_append.1 hr').elim (b.rawOk r) (hr r))
      (v.add b (by
        intro x hx
        simp only [List.map_cons, List.zip_cons_cons, List.mem_append, List.mem_cons] at hx ⊢
        rcases hx with hx | hx | hx
        · exact Or.inr (Or.inl hx)
        · exact Or.inl hx
        · exact Or.inr (Or.inr hx)) (by
        rintro e ((he | he) | he)
        · exact Or.inl he
        · exact Or.inr (List.mem_append_right _ he)
        · exact Or.inr (List.mem_append_left _ he)))
    refine ⟨gs', edges', e2, max N1 N2, ?_, by simpa using l2, rr2, ?_⟩
    · intro fuel hf
      simp only [memberGraphs, r1 fuel (by omega), Res.bind_ok, r2 fuel (by omega)]
    · simpa using v2

theorem setGraphs_spec {S} (h : SpecOk S) (ss : List NSet) : ∀ {st : Sav}, Start S st → (∀ s ∈ ss, s ∈ S.sets) →
    ∃ st' N, (∀ fuel, N ≤ fuel → setGraphs fuel S ss st = .ok st') ∧ Start S st' ∧
      st'.graphs.map (·.1) = st.graphs.map (·.1) ++ ss.map (·.addr) := by
  induction ss with
  | nil => intro st v _; exact ⟨st, 0, fun _ _ => rfl, v, by simp⟩
  | cons s ss ih =>
    intro st v hss
    have hs := hss s (by simp)
    obtain ⟨gs, raw, e1, N1, r1, l1, rr1, v1'⟩ := memberGraphs_spec h hs (L := pairs S st.graphs)
      (cov := fun e => conv S e ∈ st.induced) s.members [] [] [] st.errors (fun _ h => h) rfl (fun r hr => by cases hr)
      (by simpa using v.init)
    have v1 : Start S ⟨st.graphs ++ [(s.addr, gs)], combine_edgelists S st.induced raw, e1⟩ := by
      refine ⟨?_, ind_combine h v.ind rr1, ?_⟩
      · intro e he
        rcases List.mem_append.1 he with he | he
        · exact v.shape e he
        · simp only [List.mem_singleton] at he
          subst he
          simpa [prodsOf_set h hs] using l1
      · have e : pairs S (st.graphs ++ [(s.addr, gs)]) =
            pairs S st.graphs ++ (s.members.reverse.map (.member s)).zip gs := by
          simp [pairs, prodsOf_set h hs]
        simp only [List.append_nil] at v1'
        simp only [e]
        refine ⟨v1'.good, v1'.circ, fun he x hx => ?_⟩
        obtain ⟨h1, h2, h3, h4⟩ := v1'.comp he x hx
        refine ⟨h1, h2, h3, fun a b hab hE => ?_⟩
        rcases h4 a b hab hE with h5 | h5
        · exact (mem_combine _ _ _ _).2 (Or.inl h5)
        · exact (mem_combine _ _ _ _).2 (Or.inr ⟨_, h5, rfl⟩)
    obtain ⟨st', N2, r2, v2, k2⟩ := ih v1 fun n hn => hss n (List.mem_cons_of_mem _ hn)
    refine ⟨st', max N1 N2, ?_, v2, ?_⟩
    · intro fuel hf
      simp only [setGraphs, r1 fuel (by omega), Res.bind_ok, r2 fuel (by omega)]
    · simp [k2]

theorem mem_pairs {S} (h : SpecOk S) {T : List (Nat × List Graph)} {p : Production} {g : Graph} (hp : p.In S)
    (hg : GraphIn T p g) : (p, g) ∈ pairs S T := by
  cases p with
  | node n =>
    refine List.mem_flatMap.2 ⟨_, hg, ?_⟩
    simp [prodsOf_node h hp]
  | member s m =>
    obtain ⟨gs, h1, h2⟩ := hg
    refine List.mem_flatMap.2 ⟨_, h1, ?_⟩
    rw [prodsOf_set h hp.1, List.zip_map_left]
    exact List.mem_map.2 ⟨_, h2, rfl⟩

theorem mem_zip_of_left {α β : Type} : ∀ {l : List α} {l' : List β}, l.length = l'.length → ∀ {a}, a ∈ l →
    ∃ b, (a, b) ∈ l.zip l'
  | [], _, _, a, ha => by cases ha
  | x :: l, [], h, _, _ => by simp at h
  | x :: l, y :: l', h, a, ha => by
    rcases List.mem_cons.1 ha with rfl | ha
    · exact ⟨y, by simp⟩
    · obtain ⟨b, hb⟩ := mem_zip_of_left (l := l) (l' := l') (by simpa using h) ha
      exact ⟨b, by simp [hb]⟩

theorem has_graph {S} (h : SpecOk S) {T : List (Nat × List Graph)} (sh : Shape S T)
    (hk : ∀ k ∈ S.nodes.map (·.addr) ++ S.sets.map (·.addr), k ∈ T.map (·.1)) {p : Production} (hp : p.In S) :
    ∃ g, GraphIn T p g := by
  cases p with
  | node n =>
    obtain ⟨⟨k, gs⟩, he, hke⟩ := List.mem_map.1 (hk n.addr (List.mem_append_left _ (List.mem_map.2 ⟨n, hp, rfl⟩)))
    simp only at hke
    subst hke
    have := sh _ he
    rw [prodsOf_node h hp] at this
    match gs, this with
    | [g], _ => exact ⟨g, he⟩
  | member s m =>
    obtain ⟨⟨k, gs⟩, he, hke⟩ := List.mem_map.1 (hk s.addr (List.mem_append_right _ (List.mem_map.2 ⟨s, hp.1, rfl⟩)))
    simp only at hke
    subst hke
    have hl := sh _ he
    rw [prodsOf_set h hp.1, List.length_map] at hl
    obtain ⟨g, hg⟩ := mem_zip_of_left hl (List.mem_reverse.2 hp.2)
    exact ⟨g, gs, he, hg⟩

theorem sav_spec {S} (h : SpecOk S) (order : List (Nat × List Graph) → List (Nat × List Graph))
    (ho : ∀ l, (order l).Perm l) :
    ∃ st N, (∀ fuel, N ≤ fuel → SAVast_graphs fuel order S = .ok st) ∧ SInv S st ∧ st.induced = [] ∧
      (∀ k ∈ S.nodes.map (·.addr) ++ S.sets.map (·.addr), k ∈ st.graphs.map (·.1)) := by
  have v0 : Start S ⟨[], [], 0⟩ :=
    ⟨(fun e he => by cases he), (fun e he => by cases he), (fun x hx => by cases hx), (fun hh => absurd rfl hh),
      (fun _ x hx => by cases hx)⟩
  obtain ⟨st1, N1, r1, v1, k1⟩ := nodeGraphs_spec h S.nodes v0 fun _ h => h
  obtain ⟨st2, N2, r2, v2, k2⟩ := setGraphs_spec h S.sets v1 fun _ h => h
  have hp : ∀ x, x ∈ pairs S (order st2.graphs) ↔ x ∈ pairs S st2.graphs := fun x =>
    ((ho st2.graphs).flatMap_right _).mem_iff
  have v3 : SInv S ⟨order st2.graphs, st2.induced, st2.errors⟩ := by
    refine ⟨fun e he => v2.shape e ((ho _).mem_iff.1 he), ?_, v2.ind, (fun e he => by cases he), v2.init.circ, ?_⟩
    · intro x hx
      exact v2.init.good x ((hp x).1 (by simpa using hx))
    · intro he
      have cm := v2.init.comp he
      refine ⟨?_, (fun e _ x hx => by cases hx), ?_⟩
      · intro x hx
        obtain ⟨h1, h2, h3, _⟩ := cm x ((hp x).1 (by simpa using hx))
        exact ⟨h1, h2, h3⟩
      · intro x hx a b hab hE
        obtain ⟨_, _, _, h4⟩ := cm x ((hp x).1 (by simpa using hx))
        exact Or.inr ⟨(fun x hx => by cases hx), Or.inl (h4 a b hab hE)⟩
  obtain ⟨st, N3, r3, v4, i4, k4⟩ := rounds_spec h _ v3 (Nat.le_refl _)
  refine ⟨st, max N1 (max N2 N3), ?_, v4, i4, ?_⟩
  · intro fuel hf
    simp only [SAVast_graphs, r1 fuel (by omega), r2 fuel (by omega), Res.bind_ok]
    exact r3 fuel fuel (by omega) (by omega)
  · intro k hk
    rw [k4]
    refine (((ho st2.graphs).map _).mem_iff).2 ?_
    rw [k2, k1]
    simpa using hk

end Verif.Induce
