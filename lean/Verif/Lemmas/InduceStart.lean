import Verif.Lemmas.InduceRounds

/-!
# Lemmas about induced dependencies: the graphs at the start
-/

namespace Verif.Induce
open Verif.Graph Verif.Spec.Induce
open Verif.Spec.Graph (Edge Path)

/-! ## Nodes of the graphs -/

/-- The places of the computed attributes of an owner. -/
def attrNodes (o : Nat) (as : List Attr) : List Place := (as.filter computed).map fun a => (o, a.addr)

theorem mem_attrNodes {o : Nat} {as : List Attr} {z : Place} :
    z ∈ attrNodes o as ↔ z.1 = o ∧ ∃ x ∈ as, (x.inh ∨ x.syn) ∧ x.addr = z.2 := by
  obtain ⟨z1, z2⟩ := z
  simp only [attrNodes, List.mem_map, List.mem_filter, computed, Bool.or_eq_true, Prod.mk.injEq]
  constructor
  · rintro ⟨x, ⟨h1, h2⟩, h3, h4⟩
    exact ⟨h3.symm, x, h1, h2, h4⟩
  · rintro ⟨h3, x, h1, h2, h4⟩
    exact ⟨x, ⟨h1, h2⟩, h3.symm, h4⟩

theorem attrNodes_nodup {o : Nat} {as : List Attr} (h : (as.map (·.addr)).Nodup) : (attrNodes o as).Nodup := by
  unfold attrNodes
  rw [List.Nodup, List.pairwise_map] at h ⊢
  exact (h.filter _).imp fun h1 h2 => h1 (Prod.mk.inj h2).2

theorem add_attributes_spec (o : Nat) (as : List Attr) : ∀ (g : Graph), (g.nodes ++ attrNodes o as).Nodup →
    add_attributes g o as = .ok { g with nodes := g.nodes ++ attrNodes o as } := by
  induction as with
  | nil => intro g _; simp [add_attributes, attrNodes]
  | cons a as ih =>
    intro g nd
    rw [add_attributes]
    cases hc : computed a with
    | false =>
      have e : attrNodes o (a :: as) = attrNodes o as := by simp [attrNodes, hc]
      rw [e] at nd ⊢
      exact ih g nd
    | true =>
      have e : attrNodes o (a :: as) = (o, a.addr) :: attrNodes o as := by simp [attrNodes, hc]
      rw [e] at nd ⊢
      have hn : (o, a.addr) ∉ g.nodes := fun hm => (List.nodup_append.1 nd).2.2 _ hm _ (by simp) rfl
      have := ih { g with nodes := g.nodes ++ [(o, a.addr)] } (by simpa using nd)
      simp only [GRadd_node, not_mem_look hn, Res.bind_ok, this]
      simp

/-- The attributes of a type. -/
def attrsOf (S : Spec) (t : Nat) : List Attr :=
  match S.nodes.find? fun n => n.addr == t with
  | some n => n.attrs
  | none =>
    match S.sets.find? fun s => s.addr == t with
    | some s => s.attrs
    | none => []

theorem find_node {S} (h : SpecOk S) {n : INode} (hn : n ∈ S.nodes) :
    S.nodes.find? (fun m => m.addr == n.addr) = some n := by
  cases hf : S.nodes.find? (fun m => m.addr == n.addr) with
  | none =>
    rw [List.find?_eq_none] at hf
    exact absurd (hf n hn) (by simp)
  | some m =>
    have h1 := List.mem_of_find?_eq_some hf
    have h2 := List.find?_some hf
    rw [node_inj h.toChecked h1 hn (by simpa using h2)]

theorem find_node_set {S} (h : SpecOk S) {s : NSet} (hs : s ∈ S.sets) :
    S.nodes.find? (fun m => m.addr == s.addr) = none := by
  rw [List.find?_eq_none]
  intro n hn
  simpa using node_set h.toChecked hn hs

theorem find_set {S} (h : SpecOk S) {s : NSet} (hs : s ∈ S.sets) :
    S.sets.find? (fun m => m.addr == s.addr) = some s := by
  cases hf : S.sets.find? (fun m => m.addr == s.addr) with
  | none =>
    rw [List.find?_eq_none] at hf
    exact absurd (hf s hs) (by simp)
  | some m =>
    have h1 := List.mem_of_find?_eq_some hf
    have h2 := List.find?_some hf
    rw [set_inj h.toChecked h1 hs (by simpa using h2)]

theorem attrsOf_node {S} (h : SpecOk S) {n : INode} (hn : n ∈ S.nodes) : attrsOf S n.addr = n.attrs := by
  simp only [attrsOf, find_node h hn]

theorem attrsOf_set {S} (h : SpecOk S) {s : NSet} (hs : s ∈ S.sets) : attrsOf S s.addr = s.attrs := by
  simp only [attrsOf, find_node_set h hs, find_set h hs]

theorem prodsOf_node {S} (h : SpecOk S) {n : INode} (hn : n ∈ S.nodes) : prodsOf S n.addr = [.node n] := by
  simp only [prodsOf, find_node h hn]

theorem prodsOf_set {S} (h : SpecOk S) {s : NSet} (hs : s ∈ S.sets) :
    prodsOf S s.addr = s.members.reverse.map (.member s) := by
  simp only [prodsOf, find_node_set h hs, find_set h hs]

theorem attributes_ok {S} (h : SpecOk S) {t : Nat} (ht : t ∈ S.nodes.map (·.addr) ++ S.sets.map (·.addr)) :
    get_node_attributes S t = .ok (attrsOf S t) := by
  rcases List.mem_append.1 ht with ht | ht
  · obtain ⟨n, hn, rfl⟩ := List.mem_map.1 ht
    simp only [get_node_attributes, find_node h hn, attrsOf_node h hn]
  · obtain ⟨s, hs, rfl⟩ := List.mem_map.1 ht
    simp only [get_node_attributes, find_node_set h hs, find_set h hs, attrsOf_set h hs]

theorem attrsOf_nodup {S} (h : SpecOk S) {t : Nat} (ht : t ∈ S.nodes.map (·.addr) ++ S.sets.map (·.addr)) :
    ((attrsOf S t).map (·.addr)).Nodup := by
  rcases List.mem_append.1 ht with ht | ht
  · obtain ⟨n, hn, rfl⟩ := List.mem_map.1 ht
    rw [attrsOf_node h hn]
    exact h.nodeAttrs n hn
  · obtain ⟨s, hs, rfl⟩ := List.mem_map.1 ht
    rw [attrsOf_set h hs]
    exact h.setAttrs s hs

theorem attrOf_mem {S} (h : SpecOk S) {t a : Nat} (ha : AttrOf S t a) :
    ∃ x ∈ attrsOf S t, (x.inh ∨ x.syn) ∧ x.addr = a := by
  rcases ha with ⟨n, hn, rfl, hx⟩ | ⟨s, hs, rfl, hx⟩
  · rw [attrsOf_node h hn]; exact hx
  · rw [attrsOf_set h hs]; exact hx

/-- The places of the children. -/
def childNodes (S : Spec) (cs : List Child) : List Place := cs.flatMap fun c => attrNodes c.addr (attrsOf S c.type)

theorem addChildren_spec {S} (h : SpecOk S) (cs : List Child) : ∀ (g : Graph),
    (∀ c ∈ cs, c.type ∈ S.nodes.map (·.addr) ++ S.sets.map (·.addr)) → (g.nodes ++ childNodes S cs).Nodup →
    addChildren S g cs = .ok { g with nodes := g.nodes ++ childNodes S cs } := by
  induction cs with
  | nil => intro g _ _; simp [addChildren, childNodes]
  | cons c cs ih =>
    intro g ht nd
    have e : childNodes S (c :: cs) = attrNodes c.addr (attrsOf S c.type) ++ childNodes S cs := by simp [childNodes]
    rw [e] at nd ⊢
    rw [← List.append_assoc] at nd
    simp only [addChildren, attributes_ok h (ht c (by simp)), Res.bind_ok,
      add_attributes_spec c.addr _ g (List.nodup_append.1 nd).1,
      ih { g with nodes := g.nodes ++ attrNodes c.addr (attrsOf S c.type) } (fun c hc => ht c (List.mem_cons_of_mem _ hc)) nd]
    simp

theorem node_nodup {S} (h : SpecOk S) {n : INode} (hn : n ∈ S.nodes) :
    (attrNodes n.addr n.attrs ++ childNodes S n.children).Nodup := by
  rw [List.nodup_append]
  refine ⟨attrNodes_nodup (h.nodeAttrs n hn), ?_, ?_⟩
  · unfold childNodes
    rw [List.Nodup, List.pairwise_flatMap]
    refine ⟨fun c hc => attrNodes_nodup (attrsOf_nodup h (h.types n hn c hc)), ?_⟩
    have h1 := (List.nodup_append.1 h.distinct).2.1
    rw [List.Nodup, List.pairwise_map, List.pairwise_flatMap] at h1
    refine (h1.1 n hn).imp fun {c c'} hne x hx y hy hxy => hne ?_
    rw [mem_attrNodes] at hx hy
    rw [← hx.1, ← hy.1, hxy]
  · intro x hx y hy hxy
    subst hxy
    obtain ⟨c, hc, hx'⟩ := List.mem_flatMap.1 hy
    rw [mem_attrNodes] at hx hx'
    exact node_child h.toChecked hn hn hc (hx.1.symm.trans hx'.1)

/-- A graph without edges. -/
theorem bare_ok {S p} (hp : Production.In S p) {l : List Place} (hl : l.Nodup) : GOk S p { GRnew with nodes := l } := by
  refine ⟨hp, ⟨?_, ?_, ?_⟩, hl, ?_, ?_, ?_⟩
  · rintro i j ⟨t, ht⟩; cases ht
  · intro i j t; simp [GRnew]
  · simp [GRnew]
  · rintro x y ⟨i, j, _, _, t, ht⟩; cases ht
  · rintro i ⟨t, ht⟩; cases ht
  · intro i j t ht; cases ht

theorem bare_edge {l : List Place} {x y : Place} : ¬ EdgeP { GRnew with nodes := l } x y := by
  rintro ⟨i, j, _, _, t, ht⟩; cases ht

theorem bare_anti {l : List Place} : Anti { GRnew with nodes := l } := by
  rintro i j _ ⟨t, ht⟩; cases ht

theorem node_pl {S} (h : SpecOk S) {n : INode} (hn : n ∈ S.nodes) {g : Graph}
    (hg : g.nodes = attrNodes n.addr n.attrs ++ childNodes S n.children) : Pl S (.node n) g := by
  refine ⟨?_, ?_, fun o t a _ hs ha => ⟨hs, ha⟩, ?_⟩
  · rintro o t a ⟨hs, ha⟩
    rw [hg, List.mem_append]
    have hx := attrOf_mem h ha
    rcases hs with ⟨rfl, rfl⟩ | ⟨c, hc, rfl, rfl⟩
    · rw [attrsOf_node h hn] at hx
      exact Or.inl (mem_attrNodes.2 ⟨rfl, hx⟩)
    · exact Or.inr (List.mem_flatMap.2 ⟨c, hc, mem_attrNodes.2 ⟨rfl, hx⟩⟩)
  · intro o a hm
    rw [hg, List.mem_append] at hm
    rcases hm with hm | hm
    · exact ⟨n.addr, Or.inl ⟨(mem_attrNodes.1 hm).1, rfl⟩⟩
    · obtain ⟨c, hc, hm⟩ := List.mem_flatMap.1 hm
      exact ⟨c.type, Or.inr ⟨c, hc, (mem_attrNodes.1 hm).1.symm, rfl⟩⟩
  · intro o a hm _
    rw [hg, List.mem_append] at hm
    rcases hm with hm | hm
    · obtain ⟨rfl, hx⟩ := mem_attrNodes.1 hm
      exact ⟨n.addr, Or.inl ⟨rfl, rfl⟩, Or.inl ⟨n, hn, rfl, hx⟩⟩
    · obtain ⟨c, hc, hm⟩ := List.mem_flatMap.1 hm
      obtain ⟨rfl, hx⟩ := mem_attrNodes.1 hm
      refine ⟨c.type, Or.inr ⟨c, hc, rfl, rfl⟩, ?_⟩
      rcases List.mem_append.1 (h.types n hn c hc) with ht | ht
      · obtain ⟨m, hm, e⟩ := List.mem_map.1 ht
        rw [← e, attrsOf_node h hm] at hx
        exact Or.inl ⟨m, hm, e, hx⟩
      · obtain ⟨s, hs, e⟩ := List.mem_map.1 ht
        rw [← e, attrsOf_set h hs] at hx
        exact Or.inr ⟨s, hs, e, hx⟩

/-! ## Equations -/

/-- What adding a list of dependencies does. -/
structure Added (S : Spec) (p : Production) (g g' : Graph) (err err' : Nat) (ds raw : List PEdge) : Prop where
  tr : Tr S p g g' err err' (fun x y => (x, y) ∈ ds)
  raw : ∀ r, r ∈ raw ↔ r ∈ ds ∧ r.1.1 = r.2.1
  all : err' = err → ∀ d ∈ ds, EdgeP g' d.1 d.2

theorem Added.trans {S p g1 g2 g3 e1 e2 e3 d1 d2 r1 r2} (h1 : Added S p g1 g2 e1 e2 d1 r1)
    (h2 : Added S p g2 g3 e2 e3 d2 r2) : Added S p g1 g3 e1 e3 (d1 ++ d2) (r2 ++ r1) := by
  refine ⟨(h1.tr.weaken fun _ _ h => List.mem_append_left _ h).trans (h2.tr.weaken fun _ _ h => List.mem_append_right _ h),
    ?_, ?_⟩
  · intro r
    rw [List.mem_append, List.mem_append, h1.raw, h2.raw]
    constructor
    · rintro (⟨h, h'⟩ | ⟨h, h'⟩)
      · exact ⟨Or.inr h, h'⟩
      · exact ⟨Or.inl h, h'⟩
    · rintro ⟨h | h, h'⟩
      · exact Or.inr ⟨h, h'⟩
      · exact Or.inl ⟨h, h'⟩
  · intro he d hd
    have l1 := h1.tr.le
    have l2 := h2.tr.le
    rcases List.mem_append.1 hd with hd | hd
    · exact h2.tr.keep _ _ (h1.all (by omega) d hd)
    · exact h2.all (by omega) d hd

theorem place_eq (n : INode) (r : Ref) : place n r = (refOwner n r, r.attr.addr) := by
  unfold place refOwner
  cases r.child <;> rfl

/-- The dependencies of some arguments of an equation. -/
def argDeps (n : INode) (rule : Ref) (ds : List Ref) : List PEdge :=
  (ds.filter fun d => d.attr.inh || d.attr.syn).map fun d => (place n d, place n rule)

theorem addArgs_spec {S} (h : SpecOk S) {n : INode} (hn : n ∈ S.nodes) {e : Eqn} (he : e ∈ n.eqs) {n2 : Nat}
    (ds : List Ref) : ∀ (g : Graph) (edges : List PEdge) (err : Nat), GOk S (.node n) g → Pl S (.node n) g →
    g.nodes[n2]? = some (place n e.rule) → (∀ d ∈ ds, d ∈ e.args) → (argDeps n e.rule ds).Nodup →
    (∀ d ∈ argDeps n e.rule ds, ¬ EdgeP g d.1 d.2) →
    ∃ g' raw err', addArgs n n2 g edges err ds = .ok (g', raw ++ edges, err') ∧
      Added S (.node n) g g' err err' (argDeps n e.rule ds) raw := by
  induction ds with
  | nil =>
    intro g edges err ok _ _ _ _ _
    exact ⟨g, [], err, rfl, Tr.refl ok, by simp [argDeps], by simp [argDeps]⟩
  | cons d ds ih =>
    intro g edges err ok pl h2 hd nd hno
    have tl : ∀ d ∈ ds, d ∈ e.args := fun d' h' => hd d' (List.mem_cons_of_mem _ h')
    rw [addArgs]
    cases hc : computed d.attr with
    | false =>
      have ee : argDeps n e.rule (d :: ds) = argDeps n e.rule ds := by
        have : (d.attr.inh || d.attr.syn) = false := hc
        simp only [argDeps, List.filter_cons, this, Bool.false_eq_true, if_false]
      rw [ee] at nd hno ⊢
      exact ih g edges err ok pl h2 tl nd hno
    | true =>
      have hcc : d.attr.inh = true ∨ d.attr.syn = true := by simpa [computed] using hc
      have ee : argDeps n e.rule (d :: ds) = [(place n d, place n e.rule)] ++ argDeps n e.rule ds := by
        have : (d.attr.inh || d.attr.syn) = true := hc
        simp only [argDeps, List.filter_cons, this, if_true, List.map_cons, List.singleton_append]
      rw [ee] at nd hno ⊢
      obtain ⟨t, ht⟩ := args_has h.toChecked hn he (hd d (by simp)) hcc
      have hm := pl.has _ _ _ ht
      rw [place_eq] at hm
      obtain ⟨n1, hl, h1⟩ := mem_look hm
      rw [← place_eq] at h1
      have hD : Dep S (.node n) (place n d) (place n e.rule) := .direct hn (.eqn he (hd d (by simp)) hcc)
      have hdd : (place n d, place n e.rule) ∈ deps n := by
        refine List.mem_flatMap.2 ⟨e, he, List.mem_map.2 ⟨d, List.mem_filter.2 ⟨hd d (by simp), ?_⟩, rfl⟩⟩
        exact hc
      obtain ⟨er, g1, r1, t1, a1⟩ := addDep_spec ok h1 h2 hD (h.noSelf n hn _ hdd)
        (hno (place n d, place n e.rule) (by simp)) (Or.inl rfl) err
      have h1' : g1.nodes[n1]? = some (place n d) := by rw [t1.nodes]; exact h1
      have h2' : g1.nodes[n2]? = some (place n e.rule) := by rw [t1.nodes]; exact h2
      have nd' := List.nodup_append.1 nd
      have hno' : ∀ d' ∈ argDeps n e.rule ds, ¬ EdgeP g1 d'.1 d'.2 := by
        intro d' hd' hE
        rcases t1.new _ _ hE with hE | ⟨e1, e2⟩
        · exact hno d' (List.mem_append_right _ hd') hE
        · exact nd'.2.2 (place n d, place n e.rule) (by simp) d' hd' (Prod.ext e1.symm e2.symm)
      have add1 : ∀ raw1, raw1 = (if (place n d).1 = (place n e.rule).1 then [(place n d, place n e.rule)] else []) →
          Added S (.node n) g g1 err (counted err er) [(place n d, place n e.rule)] raw1 := by
        rintro _ rfl
        refine ⟨t1.weaken (by rintro x y ⟨rfl, rfl⟩; simp), ?_, ?_⟩
        · intro r
          split
          · next ho =>
            simp only [List.mem_singleton]
            constructor
            · rintro rfl; exact ⟨rfl, ho⟩
            · exact fun h => h.1
          · next ho =>
            simp only [List.mem_singleton, List.not_mem_nil, false_iff]
            rintro ⟨rfl, h'⟩
            exact ho h'
        · intro hh d' hd'
          simp only [List.mem_singleton] at hd'
          subst hd'
          exact a1 hh
      simp only [hl, r1, Res.bind_ok]
      by_cases ho : (place n d).1 = (place n e.rule).1
      · have hod : decide (owner g1 n1 = owner g1 n2) = true := by simp [owner, h1', h2', ho]
        have hpl : placed g1 (n1, n2) = (place n d, place n e.rule) := by simp [placed, h1', h2']
        obtain ⟨g2, raw, e2, r2, A2⟩ := ih g1 ((place n d, place n e.rule) :: edges) (counted err er) t1.ok
          (pl.step t1.nodes) h2' tl nd'.2.1 hno'
        refine ⟨g2, raw ++ [(place n d, place n e.rule)], e2, ?_, (add1 _ (by simp [ho])).trans A2⟩
        simp only [hod, hpl, r2, List.append_assoc, List.singleton_append]
      · have hod : decide (owner g1 n1 = owner g1 n2) = false := by simp [owner, h1', h2', ho]
        obtain ⟨g2, raw, e2, r2, A2⟩ := ih g1 edges (counted err er) t1.ok (pl.step t1.nodes) h2' tl nd'.2.1 hno'
        refine ⟨g2, raw ++ [], e2, ?_, (add1 [] (by simp [ho])).trans A2⟩
        simp only [hod, r2, List.append_nil]

/-- The dependencies of some equations. -/
def eqnDeps (n : INode) (es : List Eqn) : List PEdge := es.flatMap fun e => argDeps n e.rule e.args

theorem addEqns_spec {S} (h : SpecOk S) {n : INode} (hn : n ∈ S.nodes) (es : List Eqn) : ∀ (g : Graph)
    (edges : List PEdge) (err : Nat), GOk S (.node n) g → Pl S (.node n) g → (∀ e ∈ es, e ∈ n.eqs) → (eqnDeps n es).Nodup →
    (∀ d ∈ eqnDeps n es, ¬ EdgeP g d.1 d.2) →
    ∃ g' raw err', addEqns n g edges err es = .ok (g', raw ++ edges, err') ∧
      Added S (.node n) g g' err err' (eqnDeps n es) raw := by
  induction es with
  | nil =>
    intro g edges err ok _ _ _ _
    exact ⟨g, [], err, rfl, Tr.refl ok, by simp [eqnDeps], by simp [eqnDeps]⟩
  | cons e es ih =>
    intro g edges err ok pl he nd hno
    have ee : eqnDeps n (e :: es) = argDeps n e.rule e.args ++ eqnDeps n es := by simp [eqnDeps]
    rw [ee] at nd hno ⊢
    have nd' := List.nodup_append.1 nd
    obtain ⟨t, ht⟩ := rules_has h.toChecked hn (he e (by simp))
    have hm := pl.has _ _ _ ht
    rw [place_eq] at hm
    obtain ⟨n2, hl, h2⟩ := mem_look hm
    rw [← place_eq] at h2
    obtain ⟨g1, raw1, e1, r1, A1⟩ := addArgs_spec h hn (he e (by simp)) e.args g edges err ok pl h2 (fun _ h => h) nd'.1
      (fun d hd => hno d (List.mem_append_left _ hd))
    obtain ⟨g2, raw2, e2, r2, A2⟩ := ih g1 (raw1 ++ edges) e1 A1.tr.ok (pl.step A1.tr.nodes)
      (fun e' h' => he e' (List.mem_cons_of_mem _ h')) nd'.2.1 (by
        intro d hd hE
        rcases A1.tr.new _ _ hE with hE | hE
        · exact hno d (List.mem_append_right _ hd) hE
        · exact nd'.2.2 _ hE d hd rfl)
    refine ⟨g2, raw2 ++ raw1, e2, ?_, A1.trans A2⟩
    simp only [addEqns, hl, r1, Res.bind_ok, r2, List.append_assoc]

/-! ## The graph of a node -/

/-- A new graph: what it has, and that its edges inside a node are in the list. -/
structure Born (S : Spec) (p : Production) (g : Graph) (raw : List PEdge) (err err' : Nat) : Prop where
  ok : GOk S p g
  pl : Pl S p g
  rawOk : RawOk S raw
  le : err ≤ err'
  circ : err < err' → Circular S
  comp : err' = err → Closed g ∧ Anti g ∧ (∀ a b, Direct p a b → EdgeP g a b) ∧
    ∀ a b, a.1 = b.1 → EdgeP g a b → (a, b) ∈ raw

theorem generate_graph_node_spec {S} (h : SpecOk S) {n : INode} (hn : n ∈ S.nodes) (err : Nat) :
    ∃ g raw err' N, (∀ fuel, N ≤ fuel → generate_graph_node fuel S n err = .ok (g, raw, err')) ∧
      Born S (.node n) g raw err err' := by
  have nd := node_nodup h hn
  have r0 : add_attributes GRnew n.addr n.attrs = .ok { GRnew with nodes := attrNodes n.addr n.attrs } := by
    have := add_attributes_spec n.addr n.attrs GRnew (by simpa [GRnew] using attrNodes_nodup (h.nodeAttrs n hn))
    simpa [GRnew] using this
  have r1 := addChildren_spec h n.children { GRnew with nodes := attrNodes n.addr n.attrs } (h.types n hn) nd
  have ok := bare_ok (S := S) (p := .node n) hn nd
  have pl := node_pl h hn (g := { GRnew with nodes := attrNodes n.addr n.attrs ++ childNodes S n.children }) rfl
  have ed : eqnDeps n n.eqs = deps n := rfl
  obtain ⟨g2, raw2, e2, r2, A2⟩ := addEqns_spec h hn n.eqs _ [] err ok pl (fun _ h => h) (by rw [ed]; exact h.once n hn)
    (fun _ _ => bare_edge)
  rw [ed] at A2
  obtain ⟨g3, new, e3, N, r3, t3, k3, c3, _⟩ := closeInto_spec A2.tr.ok (raw2 ++ []) e2
  have hle2 := A2.tr.le
  have hle3 := t3.le
  refine ⟨g3, new ++ (raw2 ++ []), e3, N, ?_, ⟨t3.ok, (pl.step A2.tr.nodes).step t3.nodes, ?_, by omega, ?_, ?_⟩⟩
  · intro fuel hf
    simp only [generate_graph_node, r0, r1, r2, Res.bind_ok, r3 fuel hf]
  · intro r hr
    rw [List.append_nil] at hr
    rcases List.mem_append.1 hr with hr | hr
    · exact k3 r hr
    · obtain ⟨hr1, hr2⟩ := (A2.raw r).1 hr
      refine ⟨hr2, fun hh => h.noSelf n hn r hr1 (Prod.ext hr2 hh), .node n, .direct hn ?_⟩
      obtain ⟨e, he, hr1⟩ := List.mem_flatMap.1 hr1
      obtain ⟨d, hd, rfl⟩ := List.mem_map.1 hr1
      obtain ⟨hd1, hd2⟩ := List.mem_filter.1 hd
      exact .eqn he hd1 (by simpa using hd2)
  · intro hlt
    by_cases h2 : err < e2
    · exact A2.tr.circ h2
    · exact t3.circ (by omega)
  · intro hee
    have hE2 : e2 = err := by omega
    refine ⟨c3 (by omega), t3.anti (by omega) (A2.tr.anti hE2 bare_anti), ?_, ?_⟩
    · intro a b hd
      cases hd with
      | @eqn n e d he hd hc =>
        refine t3.keep _ _ (A2.all hE2 (place n d, place n e.rule) ?_)
        refine List.mem_flatMap.2 ⟨e, he, List.mem_map.2 ⟨d, List.mem_filter.2 ⟨hd, ?_⟩, rfl⟩⟩
        simpa using hc
    · intro a b hab hE
      rw [List.append_nil]
      rcases t3.new a b hE with h1 | h1
      · rcases A2.tr.new a b h1 with h1 | h1
        · exact absurd h1 bare_edge
        · exact List.mem_append_right _ ((A2.raw _).2 ⟨h1, hab⟩)
      · exact List.mem_append_left _ (h1 hab)

end Verif.Induce
