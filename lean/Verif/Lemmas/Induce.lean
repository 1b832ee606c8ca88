import Verif.Spec.Induce
import Verif.Lemmas.Graph
import Verif.Lemmas.Visits

/-!
# Lemmas about induced dependencies: one graph
-/

namespace Verif.Induce
open Verif.Graph Verif.Spec.Induce
open Verif.Spec.Graph (Edge Path)

/-! ## Places -/

theorem look_some {g : Graph} {o a i : Nat} (h : GRlookup_node g o a = some i) : g.nodes[i]? = some (o, a) :=
  Lemmas.Visits.findNode_some h

theorem at_inj {l : List Place} (nd : l.Nodup) {x : Place} {i j : Nat} (hi : l[i]? = some x) (hj : l[j]? = some x) :
    i = j := by
  obtain ⟨hp, h1⟩ := List.getElem?_eq_some_iff.1 hi
  obtain ⟨hq, h2⟩ := List.getElem?_eq_some_iff.1 hj
  exact (List.getElem_inj (h₀ := hp) (h₁ := hq) nd).1 (h1.trans h2.symm)

theorem at_lt {l : List Place} {x : Place} {i : Nat} (hi : l[i]? = some x) : i < l.length :=
  (List.getElem?_eq_some_iff.1 hi).1

theorem at_mem {l : List Place} {x : Place} {i : Nat} (hi : l[i]? = some x) : x ∈ l :=
  List.mem_of_getElem? hi

theorem find_mem {x : Place} : ∀ {l : List Place}, x ∈ l → ∃ i, findNode x l = some i
  | [], h => by cases h
  | m :: l, h => by
    rw [findNode]
    split
    · exact ⟨0, rfl⟩
    · next hne =>
      rcases List.mem_cons.1 h with rfl | h
      · exact absurd rfl hne
      · obtain ⟨i, hi⟩ := find_mem h
        exact ⟨i + 1, by rw [hi]; rfl⟩

theorem mem_look {g : Graph} {o a : Nat} (h : (o, a) ∈ g.nodes) :
    ∃ i, GRlookup_node g o a = some i ∧ g.nodes[i]? = some (o, a) := by
  obtain ⟨i, hi⟩ := find_mem h
  exact ⟨i, hi, Lemmas.Visits.findNode_some hi⟩

theorem look_none {g : Graph} {o a : Nat} (h : GRlookup_node g o a = none) : (o, a) ∉ g.nodes := by
  intro hm
  obtain ⟨i, hi, _⟩ := mem_look hm
  rw [h] at hi
  cases hi

theorem not_mem_look {g : Graph} {o a : Nat} (h : (o, a) ∉ g.nodes) : GRlookup_node g o a = none := by
  cases hi : GRlookup_node g o a with
  | none => rfl
  | some i => exact absurd (at_mem (look_some hi)) h

theorem edgeP_iff {g : Graph} (nd : g.nodes.Nodup) {x y : Place} {i j : Nat} (hi : g.nodes[i]? = some x)
    (hj : g.nodes[j]? = some y) : EdgeP g x y ↔ Edge g i j := by
  constructor
  · rintro ⟨a, b, ha, hb, he⟩
    rw [at_inj nd hi ha, at_inj nd hj hb]
    exact he
  · exact fun he => ⟨i, j, hi, hj, he⟩

/-- An edge has two places. -/
theorem edge_places {g : Graph} (w : Wf g) {i j : Nat} (h : Edge g i j) :
    ∃ x y, g.nodes[i]? = some x ∧ g.nodes[j]? = some y := by
  obtain ⟨h1, h2⟩ := w.bound i j h
  exact ⟨_, _, List.getElem?_eq_getElem h1, List.getElem?_eq_getElem h2⟩

/-! ## Measure -/

theorem missing_le {g g' : Graph} (hn : g'.nodes = g.nodes) (hk : ∀ i j, Edge g i j → Edge g' i j) :
    missing g' ≤ missing g := by
  unfold missing
  rw [hn]
  refine length_flatMap_le _ _ _ fun i _ => length_filter_le' _ _ _ fun j _ h => ?_
  cases he : g.edge i j with
  | none => rfl
  | some t =>
    obtain ⟨t', ht⟩ := hk i j ⟨t, he⟩
    rw [ht] at h
    cases h

theorem missing_lt {g g' : Graph} (hn : g'.nodes = g.nodes) (hk : ∀ i j, Edge g i j → Edge g' i j) {a b : Nat}
    (ha : a < g.nodes.length) (hb : b < g.nodes.length) (h : Edge g' a b) (h' : ¬ Edge g a b) :
    missing g' < missing g := by
  have mono : ∀ i j, (g'.edge i j).isNone = true → (g.edge i j).isNone = true := by
    intro i j h
    cases he : g.edge i j with
    | none => rfl
    | some t =>
      obtain ⟨t', ht⟩ := hk i j ⟨t, he⟩
      rw [ht] at h
      cases h
  unfold missing
  rw [hn]
  refine length_flatMap_lt _ _ _ (fun i _ => length_filter_le' _ _ _ fun j _ => mono i j) (a := a) (by simpa using ha) ?_
  obtain ⟨t, ht⟩ := h
  exact length_filter_lt' _ _ _ (fun j _ => mono a j) (a := b) (by simpa using hb) (by simp [none_edge h']) (by simp [ht])

/-! ## Graphs of productions -/

/-- The graph has only dependencies of the production. -/
structure GOk (S : Spec) (p : Production) (g : Graph) : Prop where
  inS : p.In S
  wf : Wf g
  nodup : g.nodes.Nodup
  sound : ∀ x y, EdgeP g x y → Dep S p x y
  irrefl : ∀ i, ¬ Edge g i i
  plain : ∀ i j t, g.edge i j = some t → t = .normal ∨ t = .induced

/-- The graph has all attributes of `o`, and no others: of a member of a nodeset it has only some. -/
def _root_.Verif.Spec.Induce.Production.Whole : Production → Nat → Prop
  | .node _, _ => True
  | .member s _, o => o = s.addr

/-- The graph has the places of the production. -/
structure Pl (S : Spec) (p : Production) (g : Graph) : Prop where
  has : ∀ o t a, p.Has S o t a → (o, a) ∈ g.nodes
  sym : ∀ o a, (o, a) ∈ g.nodes → ∃ t, p.Sym o t
  back : ∀ o t a, (o, a) ∈ g.nodes → p.Sym o t → AttrOf S t a → p.Has S o t a
  only : ∀ o a, (o, a) ∈ g.nodes → p.Whole o → ∃ t, p.Has S o t a

/-- What a step does to a graph and the number of errors; `New` limits the new edges. -/
structure Tr (S : Spec) (p : Production) (g g' : Graph) (err err' : Nat) (New : Place → Place → Prop) : Prop where
  ok : GOk S p g'
  nodes : g'.nodes = g.nodes
  keep : ∀ x y, EdgeP g x y → EdgeP g' x y
  new : ∀ x y, EdgeP g' x y → EdgeP g x y ∨ New x y
  le : err ≤ err'
  circ : err < err' → Circular S
  anti : err' = err → Anti g → Anti g'
  miss : missing g' ≤ missing g

theorem Tr.refl {S p g err New} (ok : GOk S p g) : Tr S p g g err err New :=
  ⟨ok, rfl, fun _ _ h => h, fun _ _ h => Or.inl h, Nat.le_refl _, fun h => absurd h (Nat.lt_irrefl _), fun _ h => h,
    Nat.le_refl _⟩

theorem Tr.trans {S p g1 g2 g3 e1 e2 e3 New} (h : Tr S p g1 g2 e1 e2 New) (h' : Tr S p g2 g3 e2 e3 New) :
    Tr S p g1 g3 e1 e3 New := by
  refine ⟨h'.ok, h'.nodes.trans h.nodes, fun x y k => h'.keep x y (h.keep x y k), ?_, Nat.le_trans h.le h'.le, ?_, ?_,
    Nat.le_trans h'.miss h.miss⟩
  · intro x y hxy
    rcases h'.new x y hxy with k | k
    · exact h.new x y k
    · exact Or.inr k
  · intro hlt
    by_cases h12 : e1 < e2
    · exact h.circ h12
    · exact h'.circ (by omega)
  · intro he ha
    have := h.le
    have := h'.le
    exact h'.anti (by omega) (h.anti (by omega) ha)

theorem Tr.weaken {S p g g' e e' New New'} (h : Tr S p g g' e e' New) (hw : ∀ x y, New x y → New' x y) :
    Tr S p g g' e e' New' :=
  ⟨h.ok, h.nodes, h.keep, fun x y k => (h.new x y k).imp id (hw x y), h.le, h.circ, h.anti, h.miss⟩

theorem Pl.step {S p g g'} (h : Pl S p g) (hn : g'.nodes = g.nodes) : Pl S p g' := by
  refine ⟨?_, ?_, ?_, ?_⟩
  · rw [hn]; exact h.has
  · rw [hn]; exact h.sym
  · rw [hn]; exact h.back
  · rw [hn]; exact h.only

theorem counted_eq {err : Nat} {e : Option GErr} (h : counted err e = err) : e = none := by
  cases e with
  | none => rfl
  | some e => simp [counted] at h

/-- Adding a dependency that is not yet in the graph. -/
theorem addDep_spec {S p g} (ok : GOk S p g) {x y : Place} {i j : Nat} (hi : g.nodes[i]? = some x)
    (hj : g.nodes[j]? = some y) (hd : Dep S p x y) (hne : x ≠ y) (hn : ¬ EdgeP g x y) {t : EdgeType}
    (ht : t = .normal ∨ t = .induced) (err : Nat) :
    ∃ e g', GRadd_edge g i j t = .ok (e, g') ∧ Tr S p g g' err (counted err e) (fun a b => a = x ∧ b = y) ∧
      (counted err e = err → EdgeP g' x y) := by
  have hn' : ¬ Edge g i j := fun h => hn ((edgeP_iff ok.nodup hi hj).2 h)
  rcases GRadd_edge_weak (t := t) ok.wf (at_lt hi) (at_lt hj) hn' with ⟨hr, he⟩ | ⟨hr, g', he, w, ha, hN, hE, hm⟩
  · refine ⟨_, g, he, ⟨ok, rfl, fun _ _ h => h, fun _ _ h => Or.inl h, by simp [counted], fun _ => ?_, by simp [counted],
      Nat.le_refl _⟩, by simp [counted]⟩
    exact ⟨p, x, hd.trans (ok.sound _ _ ((edgeP_iff ok.nodup hj hi).2 hr))⟩
  · have eE := edge_upd hE
    have nd : g'.nodes.Nodup := by rw [hN]; exact ok.nodup
    have hi' : g'.nodes[i]? = some x := by rw [hN]; exact hi
    have hj' : g'.nodes[j]? = some y := by rw [hN]; exact hj
    have new : ∀ a b, EdgeP g' a b → EdgeP g a b ∨ (a = x ∧ b = y) := by
      rintro a b ⟨k, l, hk, hl, hkl⟩
      rcases (eE k l).1 hkl with ⟨rfl, rfl⟩ | h
      · rw [hi'] at hk
        rw [hj'] at hl
        cases hk
        cases hl
        exact Or.inr ⟨rfl, rfl⟩
      · rw [hN] at hk hl
        exact Or.inl ⟨k, l, hk, hl, h⟩
    refine ⟨_, g', he, ⟨⟨ok.inS, w, nd, ?_, ?_, ?_⟩, hN, ?_, new, Nat.le_refl _, fun h => absurd h (Nat.lt_irrefl _),
      fun _ => ha, Nat.le_of_lt hm⟩, fun _ => ⟨i, j, hi', hj', (eE i j).2 (Or.inl ⟨rfl, rfl⟩)⟩⟩
    · intro a b hab
      rcases new a b hab with h | ⟨rfl, rfl⟩
      · exact ok.sound a b h
      · exact hd
    · intro k hk
      rcases (eE k k).1 hk with ⟨rfl, h⟩ | h
      · rw [← h, hi] at hj
        cases hj
        exact hne rfl
      · exact ok.irrefl k h
    · intro a b t' hab
      rw [hE] at hab
      split at hab
      · cases hab
        exact ht
      · exact ok.plain a b t' hab
    · rintro a b ⟨k, l, hk, hl, hkl⟩
      exact ⟨k, l, by rw [hN]; exact hk, by rw [hN]; exact hl, (eE k l).2 (Or.inr hkl)⟩

/-! ## Closing -/

/-- Edges inside a node that some production has. -/
def RawOk (S : Spec) (l : List PEdge) : Prop :=
  ∀ r ∈ l, r.1.1 = r.2.1 ∧ r.1.2 ≠ r.2.2 ∧ ∃ p, Dep S p r.1 r.2

theorem path_dep {S p g} (ok : GOk S p g) {i j : Nat} (h : Path (Edge g) i j) :
    ∀ {x y : Place}, g.nodes[i]? = some x → g.nodes[j]? = some y → Dep S p x y := by
  induction h with
  | edge e => exact fun hi hj => ok.sound _ _ ⟨_, _, hi, hj, e⟩
  | @step i k j e _ ih =>
    intro x y hi hj
    obtain ⟨_, z, _, hz⟩ := edge_places ok.wf e
    exact (ok.sound _ _ ⟨_, _, hi, hz, e⟩).trans (ih hz hj)

theorem path_at {g} (w : Wf g) {i j : Nat} (h : Path (Edge g) i j) : ∃ x, g.nodes[i]? = some x := by
  cases h with
  | edge e =>
    obtain ⟨x, _, hx, _⟩ := edge_places w e
    exact ⟨x, hx⟩
  | step e _ =>
    obtain ⟨x, _, hx, _⟩ := edge_places w e
    exact ⟨x, hx⟩

theorem closeInto_spec {S p g} (ok : GOk S p g) (edges : List PEdge) (err : Nat) :
    ∃ g' new err' N, (∀ fuel, N ≤ fuel → closeInto fuel g edges err = .ok (g', new ++ edges, err')) ∧
      Tr S p g g' err err' (fun x y => x.1 = y.1 → (x, y) ∈ new) ∧ RawOk S new ∧ (err' = err → Closed g') ∧
      (new ≠ [] → missing g' < missing g) := by
  obtain ⟨st, N, hc, v, hcl⟩ := close_weak ok.wf []
  obtain ⟨nw, n1, n2, n3⟩ := v.edges
  have nd : st.graph.nodes.Nodup := by rw [v.nodes]; exact ok.nodup
  have keepE : ∀ i j, Edge g i j → Edge st.graph i j := fun i j ⟨t, ht⟩ => ⟨t, v.keep i j t ht⟩
  have snd : ∀ x y, EdgeP st.graph x y → Dep S p x y := by
    rintro x y ⟨i, j, hi, hj, he⟩
    rw [v.nodes] at hi hj
    exact path_dep ok (v.path he) hi hj
  -- the pairs in the list
  have hadd : ∀ i j, (i, j) ∈ st.added → ∃ t, (i, j, t) ∈ nw ∧ owner g i = owner g j := by
    intro i j h
    rw [n3, List.append_nil, List.mem_reverse, List.mem_filter, List.mem_map] at h
    obtain ⟨⟨⟨a, b, t⟩, h1, h2⟩, h3⟩ := h
    cases h2
    exact ⟨t, h1, by simpa using h3⟩
  have hnw : ∀ i j t, (i, j, t) ∈ nw → Edge st.graph i j ∧ ¬ Edge g i j := by
    intro i j t h
    have hin : (i, j, t) ∈ st.graph.edges := by rw [n1]; exact List.mem_append_right _ h
    refine ⟨⟨t, (v.wf.listed _ _ _).2 hin⟩, ?_⟩
    rintro ⟨t', ht'⟩
    have h1 := (ok.wf.listed _ _ _).1 ht'
    have ho := v.wf.once
    rw [n1, List.pairwise_append] at ho
    exact ho.2.2 _ h1 _ h ⟨rfl, rfl⟩
  have hpl : ∀ i j x y, st.graph.nodes[i]? = some x → st.graph.nodes[j]? = some y → placed st.graph (i, j) = (x, y) := by
    intro i j x y hi hj
    simp [placed, hi, hj]
  refine ⟨st.graph, st.added.map (placed st.graph), counted err st.err, N, ?_, ⟨⟨ok.inS, v.wf, nd, snd, ?_, ?_⟩, v.nodes,
    ?_, ?_, ?_, ?_, ?_, missing_le v.nodes keepE⟩, ?_, ?_, ?_⟩
  · intro fuel hf
    simp only [closeInto, hc fuel hf, Res.bind_ok]
  · intro i hi
    rcases v.sound i i hi with h | h
    · exact ok.irrefl i h
    · exact h.1 rfl
  · intro i j t ht
    have := (v.wf.listed _ _ _).1 ht
    rw [n1] at this
    rcases List.mem_append.1 this with h | h
    · exact ok.plain i j t ((ok.wf.listed _ _ _).2 h)
    · exact Or.inr (n2 _ h).1
  · rintro x y ⟨i, j, hi, hj, he⟩
    exact ⟨i, j, by rw [v.nodes]; exact hi, by rw [v.nodes]; exact hj, keepE i j he⟩
  · rintro x y ⟨i, j, hi, hj, t, ht⟩
    have := (v.wf.listed _ _ _).1 ht
    rw [n1] at this
    rcases List.mem_append.1 this with h | h
    · exact Or.inl ⟨i, j, by rw [← v.nodes]; exact hi, by rw [← v.nodes]; exact hj, t, (ok.wf.listed _ _ _).2 h⟩
    · refine Or.inr fun hxy => List.mem_map.2 ⟨(i, j), ?_, hpl i j x y hi hj⟩
      rw [n3, List.append_nil, List.mem_reverse, List.mem_filter, List.mem_map]
      rw [v.nodes] at hi hj
      exact ⟨⟨_, h, rfl⟩, by simp [owner, hi, hj, hxy]⟩
  · cases st.err <;> simp [counted]
  · intro hlt
    cases he : st.err with
    | none => rw [he] at hlt; exact absurd hlt (Nat.lt_irrefl _)
    | some e =>
      obtain ⟨_, _, h1, h2⟩ := v.cyc e he
      have hp := Graph.Path.trans h1 h2
      obtain ⟨x, hx⟩ := path_at ok.wf hp
      exact ⟨p, x, path_dep ok hp hx hx⟩
  · intro he ha
    exact v.anti ha (counted_eq he)
  · intro r hr
    obtain ⟨⟨i, j⟩, hij, rfl⟩ := List.mem_map.1 hr
    obtain ⟨t, h1, h2⟩ := hadd i j hij
    have hE := (hnw i j t h1).1
    obtain ⟨x, y, hx, hy⟩ := edge_places v.wf hE
    rw [hpl i j x y hx hy]
    have hxy : x.1 = y.1 := by
      rw [v.nodes] at hx hy
      simpa [owner, hx, hy] using h2
    refine ⟨hxy, ?_, p, snd x y ⟨i, j, hx, hy, hE⟩⟩
    intro h2'
    have : x = y := Prod.ext hxy h2'
    subst this
    exact (n2 _ h1).2 (at_inj nd hx hy)
  · intro he
    exact hcl (counted_eq he)
  · intro hne
    cases ha : st.added with
    | nil => simp [ha] at hne
    | cons q l =>
      obtain ⟨i, j⟩ := q
      obtain ⟨t, h1, _⟩ := hadd i j (by rw [ha]; simp)
      obtain ⟨h3, h4⟩ := hnw i j t h1
      obtain ⟨hb1, hb2⟩ := v.wf.bound i j h3
      rw [v.nodes] at hb1 hb2
      exact missing_lt v.nodes keepE hb1 hb2 h3 h4

/-! ## Types -/

theorem inj_of_nodup {α β : Type} {f : α → β} : ∀ {l : List α}, (l.map f).Nodup → ∀ {a b}, a ∈ l → b ∈ l → f a = f b → a = b
  | [], _, _, _, ha, _, _ => by cases ha
  | x :: l, h, a, b, ha, hb, he => by
    rw [List.map_cons, List.nodup_cons] at h
    rcases List.mem_cons.1 ha with rfl | ha'
    · rcases List.mem_cons.1 hb with rfl | hb
      · rfl
      · exact absurd (List.mem_map.2 ⟨b, hb, he.symm⟩) h.1
    · rcases List.mem_cons.1 hb with rfl | hb
      · exact (h.1 (List.mem_map.2 ⟨a, ha', he⟩)).elim
      · exact inj_of_nodup h.2 ha' hb he

section Types
variable {S : Spec} (h : Checked S)
include h

theorem node_inj {n n' : INode} (hn : n ∈ S.nodes) (hn' : n' ∈ S.nodes) (he : n.addr = n'.addr) : n = n' :=
  inj_of_nodup ((List.nodup_append.1 (List.nodup_append.1 h.distinct).1).1) hn hn' he

theorem set_inj {s s' : NSet} (hs : s ∈ S.sets) (hs' : s' ∈ S.sets) (he : s.addr = s'.addr) : s = s' :=
  inj_of_nodup ((List.nodup_append.1 (List.nodup_append.1 h.distinct).1).2.1) hs hs' he

theorem node_set {n : INode} {s : NSet} (hn : n ∈ S.nodes) (hs : s ∈ S.sets) : n.addr ≠ s.addr :=
  (List.nodup_append.1 (List.nodup_append.1 h.distinct).1).2.2 _ (List.mem_map.2 ⟨n, hn, rfl⟩) _ (List.mem_map.2 ⟨s, hs, rfl⟩)

theorem child_inj {n n' : INode} {c c' : Child} (hn : n ∈ S.nodes) (hn' : n' ∈ S.nodes) (hc : c ∈ n.children)
    (hc' : c' ∈ n'.children) (he : c.addr = c'.addr) : c = c' :=
  inj_of_nodup (List.nodup_append.1 h.distinct).2.1 (List.mem_flatMap.2 ⟨n, hn, hc⟩) (List.mem_flatMap.2 ⟨n', hn', hc'⟩) he

theorem node_child {n n' : INode} {c : Child} (hn : n ∈ S.nodes) (hn' : n' ∈ S.nodes) (hc : c ∈ n'.children) :
    n.addr ≠ c.addr :=
  (List.nodup_append.1 h.distinct).2.2 _ (List.mem_append_left _ (List.mem_map.2 ⟨n, hn, rfl⟩)) _
    (List.mem_map.2 ⟨c, List.mem_flatMap.2 ⟨n', hn', hc⟩, rfl⟩)

theorem set_child {s : NSet} {n' : INode} {c : Child} (hs : s ∈ S.sets) (hn' : n' ∈ S.nodes) (hc : c ∈ n'.children) :
    s.addr ≠ c.addr :=
  (List.nodup_append.1 h.distinct).2.2 _ (List.mem_append_right _ (List.mem_map.2 ⟨s, hs, rfl⟩)) _
    (List.mem_map.2 ⟨c, List.mem_flatMap.2 ⟨n', hn', hc⟩, rfl⟩)

omit h in
theorem type_self {o : Nat} (ho : ∀ n ∈ S.nodes, ∀ c ∈ n.children, o ≠ c.addr) : get_node_type S o = o := by
  unfold get_node_type
  split
  · next c hc =>
    obtain ⟨n, hn, hcn⟩ := List.mem_flatMap.1 (List.mem_of_find?_eq_some hc)
    have := List.find?_some hc
    exact absurd (by simpa using this : c.addr = o).symm (ho n hn c hcn)
  · rfl

/-- `get_node_type` finds the type of what occurs in a production. -/
theorem type_sym {p : Production} (hp : p.In S) {o t : Nat} (hs : p.Sym o t) : get_node_type S o = t := by
  cases p with
  | node n =>
    rcases hs with ⟨rfl, rfl⟩ | ⟨c, hc, rfl, rfl⟩
    · exact type_self fun n' hn' c hc => node_child h hp hn' hc
    · unfold get_node_type
      split
      · next c' hc' =>
        obtain ⟨n', hn', hcn⟩ := List.mem_flatMap.1 (List.mem_of_find?_eq_some hc')
        have := List.find?_some hc'
        rw [child_inj h hn' hp hcn hc (by simpa using this)]
      · next hc' =>
        rw [List.find?_eq_none] at hc'
        exact absurd (hc' c (List.mem_flatMap.2 ⟨n, hp, hc⟩)) (by simp)
  | member s m =>
    rcases hs with ⟨rfl, rfl⟩ | ⟨rfl, rfl⟩
    · exact type_self fun n' hn' c hc => set_child h hp.1 hn' hc
    · exact type_self fun n' hn' c hc => node_child h (h.members s hp.1 m hp.2) hn' hc

theorem sym_unique {p : Production} (hp : p.In S) {o t t' : Nat} (hs : p.Sym o t) (hs' : p.Sym o t') : t = t' :=
  (type_sym h hp hs).symm.trans (type_sym h hp hs')

omit h in
theorem has_sym {p : Production} {o t a : Nat} (hh : p.Has S o t a) : p.Sym o t := by
  cases p with
  | node n => exact hh.1
  | member s m =>
    rcases hh with ⟨h1, h2, _⟩ | ⟨h1, h2, _⟩
    · exact Or.inl ⟨h1, h2⟩
    · exact Or.inr ⟨h1, h2⟩

/-- Attributes of the same name are the same attribute. -/
theorem name_inj {n : INode} (hn : n ∈ S.nodes) {a b : Attr} (ha : a ∈ n.attrs) (hb : b ∈ n.attrs) (he : a.name = b.name) :
    a = b := inj_of_nodup (h.names n hn) ha hb he

theorem has_attr {p : Production} (hp : p.In S) {o t a : Nat} (hh : p.Has S o t a) : AttrOf S t a := by
  cases p with
  | node n => exact hh.2
  | member s m =>
    have hm := h.members s hp.1 m hp.2
    rcases hh with ⟨_, h2, x, hx, hc, rfl⟩ | ⟨_, h2, x, hx, hc, y, hy, hn, rfl⟩
    · exact Or.inr ⟨s, hp.1, h2.symm, x, hx, hc, rfl⟩
    · obtain ⟨b, hb, hbn, hbc⟩ := h.equivalent s hp.1 m hp.2 x hx hc
      have := name_inj h hm hy hb (hn.trans hbn.symm)
      subst this
      exact Or.inl ⟨m, hm, h2.symm, y, hy, by rw [hbc.1, hbc.2]; exact hc, rfl⟩

omit h in
theorem dep_in {p : Production} {x y : Place} (hd : Dep S p x y) : p.In S := by
  induction hd with
  | direct hp _ => exact hp
  | trans _ _ ih _ => exact ih
  | induced _ _ hq _ _ _ => exact hq

omit h in
theorem resolved_has {n : INode} (hn : n ∈ S.nodes) {r : Ref} (hr : Resolved S n r) (hc : r.attr.inh = true ∨ r.attr.syn = true) :
    ∃ t, (Production.node n).Has S (place n r).1 t (place n r).2 := by
  unfold Resolved at hr
  unfold place
  split at hr
  · next he =>
    rw [he]
    exact ⟨n.addr, Or.inl ⟨rfl, rfl⟩, Or.inl ⟨n, hn, rfl, r.attr, hr, hc, rfl⟩⟩
  · next c he =>
    rw [he]
    obtain ⟨ch, hch, rfl, hr⟩ := hr
    refine ⟨ch.type, Or.inr ⟨ch, hch, rfl, rfl⟩, ?_⟩
    rcases hr with ⟨m, hm, h1, h2⟩ | ⟨s, hs, h1, h2⟩
    · exact Or.inl ⟨m, hm, h1, r.attr, h2, hc, rfl⟩
    · exact Or.inr ⟨s, hs, h1, r.attr, h2, hc, rfl⟩

theorem args_has {n : INode} (hn : n ∈ S.nodes) {e : Eqn} (he : e ∈ n.eqs) {d : Ref} (hd : d ∈ e.args)
    (hc : d.attr.inh = true ∨ d.attr.syn = true) : ∃ t, (Production.node n).Has S (place n d).1 t (place n d).2 :=
  resolved_has hn (h.args n hn e he d hd hc) hc

theorem rules_has {n : INode} (hn : n ∈ S.nodes) {e : Eqn} (he : e ∈ n.eqs) :
    ∃ t, (Production.node n).Has S (place n e.rule).1 t (place n e.rule).2 := by
  obtain ⟨h1, h2⟩ := h.rules n hn e he
  unfold RuleKind at h2
  refine resolved_has hn h1 ?_
  split at h2
  · exact Or.inr h2
  · exact Or.inl h2

/-- Dependencies are between places of the production. -/
theorem dep_has {p : Production} {x y : Place} (hd : Dep S p x y) :
    (∃ t, p.Has S x.1 t x.2) ∧ (∃ t, p.Has S y.1 t y.2) := by
  induction hd with
  | @direct p x y hp hd =>
    cases hd with
    | @eqn n e d he hdm hc => exact ⟨args_has h hp he hdm hc, rules_has h hp he⟩
    | @down s m a b ha hi hb hn =>
      exact ⟨⟨s.addr, Or.inl ⟨rfl, rfl, a, ha, Or.inl hi, rfl⟩⟩,
        ⟨m.addr, Or.inr ⟨rfl, rfl, a, ha, Or.inl hi, b, hb, hn, rfl⟩⟩⟩
    | @up s m a b ha hi hb hn =>
      exact ⟨⟨m.addr, Or.inr ⟨rfl, rfl, a, ha, Or.inr hi, b, hb, hn, rfl⟩⟩,
        ⟨s.addr, Or.inl ⟨rfl, rfl, a, ha, Or.inr hi, rfl⟩⟩⟩
  | trans _ _ ih1 ih2 => exact ⟨ih1.1, ih2.2⟩
  | induced _ _ _ h1 h2 _ => exact ⟨⟨_, h1⟩, ⟨_, h2⟩⟩

end Types

/-! ## Lists of induced edges -/

/-- An edge with the types of its AST nodes. -/
def conv (S : Spec) (e : PEdge) : PEdge := ((get_node_type S e.1.1, e.1.2), (get_node_type S e.2.1, e.2.2))

theorem mem_combine (S : Spec) (raw : List PEdge) : ∀ (l : List PEdge) (e : PEdge),
    e ∈ combine_edgelists S l raw ↔ e ∈ l ∨ ∃ r ∈ raw, e = conv S r := by
  induction raw with
  | nil => intro l e; simp [combine_edgelists]
  | cons r raw ih =>
    intro l e
    rw [combine_edgelists]
    split
    · next hc =>
      have hc' : conv S r ∈ l := by simpa [conv] using hc
      rw [ih]
      constructor
      · rintro (h | ⟨r', h, he⟩)
        · exact Or.inl h
        · exact Or.inr ⟨r', List.mem_cons_of_mem _ h, he⟩
      · rintro (h | ⟨r', h, he⟩)
        · exact Or.inl h
        · rcases List.mem_cons.1 h with rfl | h
          · exact Or.inl (he ▸ hc')
          · exact Or.inr ⟨r', h, he⟩
    · next hc =>
      rw [ih, List.mem_cons]
      constructor
      · rintro ((h | h) | ⟨r', h, he⟩)
        · exact Or.inr ⟨r, by simp, h⟩
        · exact Or.inl h
        · exact Or.inr ⟨r', List.mem_cons_of_mem _ h, he⟩
      · rintro (h | ⟨r', h, he⟩)
        · exact Or.inl (Or.inr h)
        · rcases List.mem_cons.1 h with rfl | h
          · exact Or.inl (Or.inl he)
          · exact Or.inr ⟨r', h, he⟩

theorem combine_nil {S : Spec} {l raw : List PEdge} (hl : l = []) (hr : raw = []) : combine_edgelists S l raw = [] := by
  subst hl hr
  rfl

/-- An edge between attributes of a type that some production has. -/
def IndOk (S : Spec) (e : PEdge) : Prop :=
  e.1.1 = e.2.1 ∧ e.1.2 ≠ e.2.2 ∧ ∃ p o, p.In S ∧ p.Sym o e.1.1 ∧ Dep S p (o, e.1.2) (o, e.2.2)

theorem conv_ok {S} (h : SpecOk S) {r : PEdge} (h1 : r.1.1 = r.2.1) (h2 : r.1.2 ≠ r.2.2) {p} (hd : Dep S p r.1 r.2) :
    IndOk S (conv S r) := by
  obtain ⟨⟨t, ht⟩, _⟩ := dep_has h.toChecked hd
  have hp := dep_in hd
  refine ⟨by simp [conv, h1], h2, p, r.1.1, hp, ?_, ?_⟩
  · have := has_sym ht
    simp only [conv]
    rw [type_sym h.toChecked hp this]
    exact this
  · have : (r.1.1, r.2.2) = r.2 := by rw [h1]
    simp only [conv]
    rw [this]
    exact hd

theorem ind_combine {S} (h : SpecOk S) {l raw : List PEdge} (hl : ∀ e ∈ l, IndOk S e) (hr : RawOk S raw) :
    ∀ e ∈ combine_edgelists S l raw, IndOk S e := by
  intro e he
  rcases (mem_combine S raw l e).1 he with he | ⟨r, hrm, rfl⟩
  · exact hl e he
  · obtain ⟨h1, h2, p, hd⟩ := hr r hrm
    exact conv_ok h h1 h2 hd

/-! ## Adding induced edges to one graph -/

/-- The edge comes from one of the list. -/
def From (S : Spec) (C : List PEdge) (x y : Place) : Prop :=
  ∃ e ∈ C, x.1 = y.1 ∧ get_node_type S x.1 = e.1.1 ∧ x.2 = e.1.2 ∧ y.2 = e.2.2

/-- The edge is in the graph wherever its type occurs. -/
def AppliedTo (S : Spec) (e : PEdge) (g : Graph) (l : List Place) : Prop :=
  ∀ z ∈ l, get_node_type S z.1 = e.1.1 → (z.1, e.1.2) ∈ g.nodes → (z.1, e.2.2) ∈ g.nodes →
    EdgeP g (z.1, e.1.2) (z.1, e.2.2)

theorem AppliedTo.step {S p e g g' l err err' New} (ha : AppliedTo S e g l) (tr : Tr S p g g' err err' New) :
    AppliedTo S e g' l := by
  intro z hz ht h1 h2
  rw [tr.nodes] at h1 h2
  exact tr.keep _ _ (ha z hz ht h1 h2)

theorem addInducedAt_spec {S} (h : SpecOk S) {p g} (ok : GOk S p g) (pl : Pl S p g) {C : List PEdge} {e : PEdge}
    (he : e ∈ C) (ie : IndOk S e) {z : Place} (hz : z ∈ g.nodes) (err : Nat) :
    ∃ g' err', addInducedAt S e z g err = .ok (g', err') ∧ Tr S p g g' err err' (From S C) ∧
      (err' = err → AppliedTo S e g' [z]) := by
  unfold addInducedAt
  split
  · next hd =>
    refine ⟨g, err, rfl, Tr.refl ok, fun _ z' hz' ht => ?_⟩
    simp only [List.mem_singleton] at hz'
    subst hz'
    exact absurd ht.symm (by simpa using hd)
  · next hd =>
    have hd : e.1.1 = get_node_type S z.1 := by simpa using hd
    split
    · next i j hi hj =>
      have hi' := look_some hi
      have hj' := look_some hj
      split
      · next hl =>
        refine ⟨g, err, rfl, Tr.refl ok, fun _ z' hz' _ _ _ => ?_⟩
        simp only [List.mem_singleton] at hz'
        subst hz'
        refine ⟨i, j, hi', hj', ?_⟩
        unfold GRlookup_edge at hl
        split at hl
        · cases hl
        · next hh => exact ⟨_, hh⟩
        · next hh => exact ⟨_, hh⟩
        · next hh => exact ⟨_, hh⟩
      · next hl =>
        have hn : ¬ Edge g i j := by
          rintro ⟨t, ht⟩
          rcases ok.plain i j t ht with rfl | rfl <;> simp [GRlookup_edge, ht] at hl
        obtain ⟨ie1, ie2, q, o, hq, hs, hdep⟩ := ie
        obtain ⟨t, hsz⟩ := pl.sym z.1 z.2 hz
        have ht : t = e.1.1 := (type_sym h.toChecked ok.inS hsz).symm.trans hd.symm
        subst ht
        have hat : AttrOf S e.1.1 e.1.2 ∧ AttrOf S e.1.1 e.2.2 := by
          obtain ⟨⟨t1, h1⟩, ⟨t2, h2⟩⟩ := dep_has h.toChecked hdep
          have e1 := sym_unique h.toChecked hq (has_sym h1) hs
          have e2 := sym_unique h.toChecked hq (has_sym h2) hs
          rw [e1] at h1
          rw [e2] at h2
          exact ⟨has_attr h.toChecked hq h1, has_attr h.toChecked hq h2⟩
        have hD : Dep S p (z.1, e.1.2) (z.1, e.2.2) :=
          .induced hdep hs ok.inS (pl.back _ _ _ (at_mem hi') hsz hat.1) (pl.back _ _ _ (at_mem hj') hsz hat.2)
        obtain ⟨er, g', hg, tr, hE⟩ := addDep_spec ok hi' hj' hD (fun hh => ie2 (Prod.mk.inj hh).2)
          (fun hh => hn ((edgeP_iff ok.nodup hi' hj').1 hh)) (Or.inr rfl) err
        refine ⟨g', counted err er, by simp only [hg, Res.bind_ok], tr.weaken ?_, fun hc z' hz' _ _ _ => ?_⟩
        · rintro x y ⟨rfl, rfl⟩
          exact ⟨e, he, rfl, hd.symm, rfl, rfl⟩
        · simp only [List.mem_singleton] at hz'
          subst hz'
          exact hE hc
    · next hno =>
      refine ⟨g, err, rfl, Tr.refl ok, fun _ z' hz' _ h1 h2 => ?_⟩
      simp only [List.mem_singleton] at hz'
      subst hz'
      obtain ⟨i, hi, _⟩ := mem_look h1
      obtain ⟨j, hj, _⟩ := mem_look h2
      exact (hno i j hi hj).elim

theorem addInducedNodes_spec {S} (h : SpecOk S) {p} {C : List PEdge} {e : PEdge} (he : e ∈ C) (ie : IndOk S e)
    (l : List Place) : ∀ {g : Graph} (err : Nat), GOk S p g → Pl S p g → (∀ z ∈ l, z ∈ g.nodes) →
    ∃ g' err', addInducedNodes S e g err l = .ok (g', err') ∧ Tr S p g g' err err' (From S C) ∧
      (err' = err → AppliedTo S e g' l) := by
  induction l with
  | nil => intro g err ok pl _; exact ⟨g, err, rfl, Tr.refl ok, fun _ z hz => by cases hz⟩
  | cons z l ih =>
    intro g err ok pl hl
    obtain ⟨g1, e1, r1, t1, a1⟩ := addInducedAt_spec h ok pl he ie (hl z (by simp)) err
    obtain ⟨g2, e2, r2, t2, a2⟩ := ih e1 t1.ok (pl.step t1.nodes)
      (fun z hz => by rw [t1.nodes]; exact hl z (List.mem_cons_of_mem _ hz))
    refine ⟨g2, e2, by simp only [addInducedNodes, r1, Res.bind_ok, r2], t1.trans t2, fun hh => ?_⟩
    have l1 := t1.le
    have l2 := t2.le
    have b1 := (a1 (by omega)).step t2
    have b2 := a2 (by omega)
    intro z' hz'
    rcases List.mem_cons.1 hz' with rfl | hz'
    · exact b1 _ (by simp)
    · exact b2 z' hz'

theorem addInducedAll_spec {S} (h : SpecOk S) {p} {C : List PEdge} (l : List PEdge) : ∀ {g : Graph} (err : Nat),
    (∀ e ∈ l, e ∈ C ∧ IndOk S e) → GOk S p g → Pl S p g →
    ∃ g' err', addInducedAll S g err l = .ok (g', err') ∧ Tr S p g g' err err' (From S C) ∧
      (err' = err → ∀ e ∈ l, AppliedTo S e g' g'.nodes) := by
  induction l with
  | nil => intro g err _ ok pl; exact ⟨g, err, rfl, Tr.refl ok, fun _ z hz => by cases hz⟩
  | cons e l ih =>
    intro g err hl ok pl
    obtain ⟨g1, e1, r1, t1, a1⟩ := addInducedNodes_spec h (hl e (by simp)).1 (hl e (by simp)).2 g.nodes err ok pl
      (fun z hz => hz)
    obtain ⟨g2, e2, r2, t2, a2⟩ := ih e1 (fun e he => hl e (List.mem_cons_of_mem _ he)) t1.ok (pl.step t1.nodes)
    refine ⟨g2, e2, by simp only [addInducedAll, r1, Res.bind_ok, r2], t1.trans t2, fun hh => ?_⟩
    have l1 := t1.le
    have l2 := t2.le
    have b1 := (a1 (by omega)).step t2
    have b2 := a2 (by omega)
    intro e' he'
    rcases List.mem_cons.1 he' with rfl | he'
    · rw [t2.nodes, t1.nodes]; exact b1
    · exact b2 e' he'

theorem add_induced_edges_spec {S} (h : SpecOk S) {p} {C : List PEdge} (hC : ∀ e ∈ C, IndOk S e) {g : Graph} (err : Nat)
    (ok : GOk S p g) (pl : Pl S p g) :
    ∃ g' raw err' N, (∀ fuel, N ≤ fuel → add_induced_edges fuel S g C err = .ok (g', raw, err')) ∧
      Tr S p g g' err err' (fun x y => From S C x y ∨ (x.1 = y.1 → (x, y) ∈ raw)) ∧ RawOk S raw ∧
      (err' = err → Closed g' ∧ ∀ e ∈ C, AppliedTo S e g' g'.nodes) ∧ (raw ≠ [] → missing g' < missing g) := by
  obtain ⟨g1, e1, r1, t1, a1⟩ := addInducedAll_spec h (C := C) C err (fun e he => ⟨he, hC e he⟩) ok pl
  obtain ⟨g2, raw, e2, N, r2, t2, k2, c2, m2⟩ := closeInto_spec t1.ok [] e1
  refine ⟨g2, raw, e2, N, ?_, (t1.weaken fun _ _ => Or.inl).trans (t2.weaken fun _ _ => Or.inr), k2, ?_, ?_⟩
  · intro fuel hf
    simp only [add_induced_edges, r1, Res.bind_ok, r2 fuel hf, List.append_nil]
  · intro hh
    have l1 := t1.le
    have l2 := t2.le
    refine ⟨c2 (by omega), fun e he => ?_⟩
    rw [t2.nodes]
    exact (a1 (by omega) e he).step t2
  · intro hr
    exact Nat.lt_of_lt_of_le (m2 hr) t1.miss

end Verif.Induce
