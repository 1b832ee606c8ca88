import Verif.Model.Targets
import Verif.Spec.Targets
import Verif.Lemmas.Compiled
import Verif.Props.Tables

/-!
# Lemmas about the dispatch tables of a description
-/

namespace Verif.Targets
open Verif.Str Verif.Ids Verif.Grammar Verif.Reach Verif.Tables Verif.Semantic
open Verif.Spec.Str (lowerB upperB SameName)
open Verif.Spec.Semantic Verif.Spec.Targets
open Verif.Propagate (Entry)
open Verif.Spec.Sets (elems Has NoDup)
open Verif.Spec.Unwrap (Den)
open Verif.Spec.Graph (Path)

variable {A : Parse.Ast} {tab : List (Ste Decl)}

/-! ### Numbers of nodes -/

theorem nodeOf_index (hn : Numbered A) {k : Nat} {n : Parse.Node} (h : A.nodes[k]? = some n) : nodeOf A n.index = some n := by
  have hd := hn.nodesOnce
  have hm := List.mem_of_getElem? h
  rw [nodeOf]
  generalize A.nodes = l at hd hm
  induction l with
  | nil => cases hm
  | cons x l ih =>
    rw [List.map_cons, List.nodup_cons] at hd
    rw [List.find?_cons]
    rcases List.mem_cons.1 hm with rfl | hm
    · simp
    · have : x.index ≠ n.index := fun e => hd.1 (e ▸ List.mem_map_of_mem hm)
      simp only [this, decide_false]
      exact ih hd.2 hm

theorem index_inj (hn : Numbered A) {k j : Nat} {n m : Parse.Node} (h : A.nodes[k]? = some n) (h' : A.nodes[j]? = some m)
    (e : n.index = m.index) : k = j := by
  have h1 : (A.nodes.map (·.index))[k]? = some n.index := by rw [List.getElem?_map, h]; rfl
  have h2 : (A.nodes.map (·.index))[j]? = some n.index := by rw [List.getElem?_map, h', e]; rfl
  have hlt := (List.getElem?_eq_some_iff.1 h1).1
  exact (List.getElem?_inj hlt hn.nodesOnce).1 (h1.trans h2.symm)

theorem index_at {k : Nat} {n : Parse.Node} (h : A.nodes[k]? = some n) : indexAt A k = n.index := by rw [indexAt, h]

/-! ### Literals -/

theorem literals_node (h : Right A tab) (hn : Numbered A) {e : Parse.SetE} {t : Sets.Tree} (ht : IsTree A e t) {k : Nat}
    {n : Parse.Node} (hk : A.nodes[k]? = some n) (he : Spec.CheckExist.ExprOk (progOf A) (exprOf e)) :
    Entry.node n.index ∈ literals A tab t ↔ Has t n.name.orig := by
  have key : Entry.node n.index ∈ literals A tab t ↔ Entry.node k ∈ (preorder t).map (entryOf tab) := by
    simp only [literals, List.mem_map]
    constructor
    · rintro ⟨i, hi, e1⟩
      obtain ⟨j, m, f1, f2, _⟩ := entries_nodes h he ht hi
      rw [literal, f1] at e1
      simp only [Entry.node.injEq] at e1
      rw [index_at f2] at e1
      have := index_inj hn f2 hk e1
      exact ⟨i, hi, by rw [f1, this]⟩
    · rintro ⟨i, hi, e1⟩
      exact ⟨i, hi, by rw [literal, e1]; simp only [index_at hk]⟩
  rw [key, member_entry h ht k]
  constructor
  · rintro ⟨m, h1, h2⟩
    rw [hk] at h1
    cases h1
    exact h2
  · exact fun h1 => ⟨n, hk, h1⟩

theorem literals_mem (h : Right A tab) {e : Parse.SetE} {t : Sets.Tree} (ht : IsTree A e t)
    (he : Spec.CheckExist.ExprOk (progOf A) (exprOf e)) {x : Entry} (hx : x ∈ literals A tab t) :
    ∃ (k : Nat) (n : Parse.Node), A.nodes[k]? = some n ∧ x = .node n.index := by
  obtain ⟨i, hi, rfl⟩ := List.mem_map.1 hx
  obtain ⟨j, m, f1, f2, _⟩ := entries_nodes h he ht hi
  exact ⟨j, m, f2, by rw [literal, f1]; simp only [index_at f2]⟩

theorem has_iff (h : Right A tab) {e : Parse.SetE} {t : Sets.Tree} (ht : IsTree A e t) (s : CStr) :
    Has t s ↔ ∃ D, Means A e D ∧ D s := by
  obtain ⟨D, h1, h2⟩ := ht.means
  rw [h2]
  constructor
  · exact fun h3 => ⟨D, den_means h1 e rfl, h3⟩
  · rintro ⟨D', h3, h4⟩
    exact (Unwrap.Den.unique h.checked.unique (means_den h3) h1 s).1 h4

/-! ### Resolution -/

/-- What a traversal has after resolution. -/
def Aims (A : Parse.Ast) (tab : List (Ste Decl)) (t : Parse.Traversal) (x : Nat × List Entry) : Prop :=
  x.1 = t.index ∧ (t.nodes = none → x.2 = []) ∧ ∀ e, t.nodes = some e → ∃ tr, IsTree A e tr ∧ x.2 = literals A tab tr

theorem travsOf_ok {st : Unwrap.St} : ∀ (ts : List Parse.Traversal) (qs : List (Option Nat)),
    (∀ (j : Nat) e, (ts.filterMap (·.nodes))[j]? = some e → ∃ q t, qs[j]? = some q ∧ Unwrap.litAt st q = .ok t ∧ IsTree A e t) →
    ∃ l, travsOf A tab st ts qs = .ok l ∧ Pairs (Aims A tab) ts l
  | [], _, _ => ⟨[], rfl, .nil⟩
  | t :: ts, qs, H => by
    cases hn : t.nodes with
    | none =>
      obtain ⟨l, h1, h2⟩ := travsOf_ok ts qs (by simpa [List.filterMap_cons, hn] using H)
      refine ⟨(t.index, []) :: l, ?_, .cons ⟨rfl, fun _ => rfl, (fun e he => by rw [hn] at he; cases he)⟩ h2⟩
      rw [travsOf.eq_def]
      simp only [hn, h1, Res.bind_ok]
    | some e =>
      simp only [List.filterMap_cons, hn] at H
      obtain ⟨q, tr, h1, h2, h3⟩ := H 0 e rfl
      cases qs with
      | nil => cases h1
      | cons q' qs =>
        simp only [List.getElem?_cons_zero, Option.some.injEq] at h1
        subst h1
        obtain ⟨l, h4, h5⟩ := travsOf_ok ts qs fun j e he => by
          obtain ⟨q, tr, g1, g2⟩ := H (j + 1) e he
          exact ⟨q, tr, g1, g2⟩
        refine ⟨(t.index, literals A tab tr) :: l, ?_, .cons ⟨rfl, (fun hc => by rw [hn] at hc; cases hc), fun e' he => ?_⟩ h5⟩
        · rw [travsOf.eq_def]
          simp only [hn, h2, h4, Res.bind_ok]
        · rw [hn] at he
          cases he
          exact ⟨tr, h3, rfl⟩

theorem unwrap_sets (h : Right A tab) (he : Earlier A) :
    ∃ qs st trees N, (∀ fuel, N ≤ fuel → Unwrap.USEast tab fuel (A.nodesets.map fun s => exprOf s.expr)
        (A.traversals.filterMap fun t => t.nodes.map exprOf) = .ok (qs, st)) ∧
      treesOf st (List.range A.nodesets.length) = .ok trees ∧ Pairs (fun s t => IsTree A s.expr t) A.nodesets trees ∧
      ∀ (j : Nat) e, (A.traversals.filterMap (·.nodes))[j]? = some e → ∃ q t, qs[j]? = some q ∧ Unwrap.litAt st q = .ok t ∧
        IsTree A e t := by
  obtain ⟨qs, st, N, h1, h2, h3⟩ := Props.C23_resolve_partial _ tab (defs A) (travs A) h.checked (ordered_of he)
  obtain ⟨st', trees, N', h4, h5, h6⟩ := unwrap_ok h he
  rw [defs_expr] at h1
  have hst : st' = st := by
    obtain ⟨qs', g⟩ := h4 (max N N') (Nat.le_max_right _ _)
    rw [h1 (max N N') (Nat.le_max_left _ _)] at g
    cases g
    rfl
  subst hst
  refine ⟨qs, st', trees, N, fun fuel hf => h1 fuel hf, h5, ?_, fun j e hj => ?_⟩
  · have hlen : trees.length = A.nodesets.length := by
      have key : ∀ (l : List Nat) trees, treesOf st' l = .ok trees → trees.length = l.length := by
        intro l
        induction l with
        | nil => intro trees ht; cases ht; rfl
        | cons k l ih =>
          intro trees ht
          rw [treesOf] at ht
          split at ht
          · cases ht
          · obtain ⟨t, _, ht⟩ := Res.bind_eq_ok.1 ht
            obtain ⟨ts, g, ht⟩ := Res.bind_eq_ok.1 ht
            cases ht
            simp [ih _ g]
      simpa using key _ _ h5
    have build : ∀ (l : List Parse.NodeSet) (m : List Sets.Tree), m.length = l.length →
        (∀ (k : Nat) s, l[k]? = some s → ∃ t, m[k]? = some t ∧ IsTree A s.expr t) → Pairs (fun s t => IsTree A s.expr t) l m := by
      intro l
      induction l with
      | nil =>
        intro m hm _
        rw [List.length_eq_zero_iff.1 hm]
        exact .nil
      | cons s l ih =>
        intro m hm H
        cases m with
        | nil => cases hm
        | cons t m =>
          obtain ⟨t', g1, g2⟩ := H 0 s rfl
          cases g1
          exact .cons g2 (ih m (by simpa using hm) fun k s hk => H (k + 1) s hk)
    exact build _ _ hlen h6
  · have ht : (travs A)[j]? = some (exprOf e) := by
      have : travs A = (A.traversals.filterMap (·.nodes)).map exprOf := by
        rw [travs, List.map_filterMap]
      rw [this, List.getElem?_map, hj]
      rfl
    obtain ⟨q, t, S, g1, g2, g3, g4, g5, g6⟩ := h2 j _ ht
    exact ⟨q, t, g1, g2, ⟨S, g3, g4⟩, g5, g6⟩

theorem unwrap_both (h : Right A tab) (he : Earlier A) :
    ∃ qs st trees l N, (∀ fuel, N ≤ fuel → Unwrap.USEast tab fuel (A.nodesets.map fun s => exprOf s.expr)
        (A.traversals.filterMap fun t => t.nodes.map exprOf) = .ok (qs, st)) ∧
      treesOf st (List.range A.nodesets.length) = .ok trees ∧ Pairs (fun s t => IsTree A s.expr t) A.nodesets trees ∧
      travsOf A tab st A.traversals qs = .ok l ∧ Pairs (Aims A tab) A.traversals l := by
  obtain ⟨qs, st, trees, N, h1, h2, h3, h4⟩ := unwrap_sets h he
  obtain ⟨l, h7, h8⟩ := travsOf_ok (A := A) (tab := tab) (st := st) A.traversals qs h4
  exact ⟨qs, st, trees, l, N, h1, h2, h3, h7, h8⟩

/-! ### The grammar -/

theorem kid_cases (h : Right A tab) {k : Nat} {n : Parse.Node} (hk : A.nodes[k]? = some n) {c : Parse.Child} (hc : c ∈ n.children) :
    (∃ (j : Nat) (m : Parse.Node), A.nodes[j]? = some m ∧ SameName m.name.orig c.type.orig ∧ kidOf A tab c = .node m.index) ∨
      ∃ (j : Nat) (s : Parse.NodeSet), A.nodesets[j]? = some s ∧ SameName s.name.orig c.type.orig ∧ kidOf A tab c = .set j := by
  have := (h.sound.fields ⟨idOf n.name, n.root, n.children.map childOf, n.attrs.map attrOf⟩
    (List.mem_map.2 ⟨n, List.mem_of_getElem? hk, rfl⟩)).2.2 (childOf c) (List.mem_map.2 ⟨c, hc, rfl⟩) (idOf c.type) rfl
  rcases this with hd | hd
  · obtain ⟨j, m, h1, h2⟩ := denotes_node hd
    have h3 := (h.table.node c.type.orig j).2 ⟨m, h1, h2⟩
    refine Or.inl ⟨j, m, h1, h2, ?_⟩
    rw [kidOf]
    have : stFind (idOf c.type).lwr tab = some ⟨.node, j⟩ := h3
    simp only [this, index_at h1]
  · obtain ⟨j, m, h1, h2⟩ := denotes_set hd
    have h3 := (h.table.set c.type.orig j).2 ⟨m, h1, h2⟩
    refine Or.inr ⟨j, m, h1, h2, ?_⟩
    rw [kidOf]
    have : stFind (idOf c.type).lwr tab = some ⟨.nodeset, j⟩ := h3
    simp only [this]

theorem kids_index (hn : Numbered A) (trees : List Sets.Tree) {k : Nat} {n : Parse.Node} (hk : A.nodes[k]? = some n) :
    (envOf A tab trees).kids n.index = n.children.map (kidOf A tab) := by
  simp only [envOf, nodeOf_index hn hk]

theorem resolved_of (h : Right A tab) (hn : Numbered A) {trees : List Sets.Tree}
    (ht : Pairs (fun s t => IsTree A s.expr t) A.nodesets trees) : Spec.Reach.Resolved (envOf A tab trees) := by
  refine ⟨fun i => ?_, fun i hi c hc => ?_, fun l hl x hx => ?_⟩
  · show i ∈ A.nodes.map (·.index) ↔ i < A.numNodes
    rw [← hn.nodes i, List.mem_map]
  · obtain ⟨n, hm, rfl⟩ := (hn.nodes i).2 hi
    obtain ⟨k, hk⟩ := List.getElem?_of_mem hm
    rw [kids_index hn trees hk] at hc
    obtain ⟨c, hc', rfl⟩ := List.mem_map.1 hc
    rcases kid_cases h hk hc' with ⟨j, m, h1, _, h3⟩ | ⟨j, s, h1, _, h3⟩
    · exact Or.inl ⟨_, h3, (hn.nodes _).1 ⟨m, List.mem_of_getElem? h1, rfl⟩⟩
    · obtain ⟨t, h4, _⟩ := ht.left h1
      exact Or.inr ⟨j, literals A tab t, h3, by simp [envOf, h4]⟩
  · obtain ⟨t, hm, rfl⟩ := List.mem_map.1 hl
    obtain ⟨s, hs, hi⟩ := ht.mem_right hm
    obtain ⟨k, n, h1, rfl⟩ := literals_mem h hi (h.expr hs) hx
    exact ⟨_, rfl, (hn.nodes _).1 ⟨n, List.mem_of_getElem? h1, rfl⟩⟩

theorem hasChild_iff (h : Right A tab) (hn : Numbered A) {trees : List Sets.Tree}
    (ht : Pairs (fun s t => IsTree A s.expr t) A.nodesets trees) {k j : Nat} {n m : Parse.Node} (hk : A.nodes[k]? = some n)
    (hj : A.nodes[j]? = some m) : Spec.Reach.HasChild (envOf A tab trees) n.index m.index ↔ ∃ c ∈ n.children, Allows A c m := by
  rw [Spec.Reach.HasChild, kids_index hn trees hk]
  simp only [List.mem_map]
  constructor
  · rintro (⟨c, hc, e⟩ | ⟨q, l, ⟨c, hc, e⟩, h1, h2⟩)
    · rcases kid_cases h hk hc with ⟨q, m', g1, g2, g3⟩ | ⟨q, s, g1, g2, g3⟩
      · rw [g3] at e
        simp only [CType.node.injEq] at e
        have := index_inj hn g1 hj e
        subst this
        rw [hj] at g1
        cases g1
        exact ⟨c, hc, Or.inl g2⟩
      · rw [g3] at e; cases e
    · rcases kid_cases h hk hc with ⟨q', m', g1, g2, g3⟩ | ⟨q', s, g1, g2, g3⟩
      · rw [g3] at e; cases e
      · rw [g3] at e
        cases e
        obtain ⟨t, f1, f2⟩ := ht.left g1
        simp only [envOf, List.getElem?_map, f1, Option.map_some, Option.some.injEq] at h1
        subst h1
        have := (literals_node h hn f2 hj (h.expr (List.mem_of_getElem? g1))).1 h2
        exact ⟨c, hc, Or.inr ⟨s, List.mem_of_getElem? g1, g2, (has_iff h f2 _).1 this⟩⟩
  · rintro ⟨c, hc, h1 | ⟨s, hs, h1, h2⟩⟩
    · rcases kid_cases h hk hc with ⟨q, m', g1, g2, g3⟩ | ⟨q, s, g1, g2, g3⟩
      · have := h.table.node_inj g1 hj (Eq.trans g2 (Eq.symm h1))
        subst this
        rw [hj] at g1
        cases g1
        exact Or.inl ⟨c, hc, g3⟩
      · have f1 := (h.table.node c.type.orig j).2 ⟨m, hj, h1⟩
        have f2 := (h.table.set c.type.orig q).2 ⟨s, g1, g2⟩
        rw [f1] at f2
        cases f2
    · obtain ⟨q, hq⟩ := List.getElem?_of_mem hs
      rcases kid_cases h hk hc with ⟨q', m', g1, g2, g3⟩ | ⟨q', s', g1, g2, g3⟩
      · have f1 := (h.table.node c.type.orig q').2 ⟨m', g1, g2⟩
        have f2 := (h.table.set c.type.orig q).2 ⟨s, hq, h1⟩
        rw [f1] at f2
        cases f2
      · have := h.table.set_inj g1 hq (Eq.trans g2 (Eq.symm h1))
        subst this
        rw [hq] at g1
        cases g1
        obtain ⟨t, f1, f2⟩ := ht.left hq
        exact Or.inr ⟨q', literals A tab t, ⟨c, hc, g3⟩, by simp [envOf, f1],
          (literals_node h hn f2 hj (h.expr hs)).2 ((has_iff h f2 _).2 h2)⟩

theorem path_below (h : Right A tab) (hn : Numbered A) {trees : List Sets.Tree}
    (ht : Pairs (fun s t => IsTree A s.expr t) A.nodesets trees) {k j : Nat} (p : Path (Below A) k j) :
    ∀ n m, A.nodes[k]? = some n → A.nodes[j]? = some m → Path (Spec.Reach.HasChild (envOf A tab trees)) n.index m.index := by
  induction p with
  | edge e =>
    intro n m h1 h2
    obtain ⟨n', m', h3, h4, h5⟩ := e
    rw [h1] at h3; cases h3
    rw [h2] at h4; cases h4
    exact .edge ((hasChild_iff h hn ht h1 h2).2 h5)
  | step e _ ih =>
    intro n m h1 h2
    obtain ⟨n', m', h3, h4, h5⟩ := e
    rw [h1] at h3; cases h3
    exact .step ((hasChild_iff h hn ht h1 h4).2 h5) (ih m' m h4 h2)

/-! ### The tables -/

theorem tables_ok (h : Right A tab) (he : Earlier A) (hn : Numbered A) (ha : Aimed A) :
    ∃ N, ∀ fuel, N ≤ fuel → ∃ hs, tables fuel A tab = .ok (DGTVast (nameOf A) (Compiled.declsOf A).travs hs ++
        DGSTast (Compiled.declsOf A).nodes) ∧ hs.length = A.traversals.length ∧
      ∀ (j : Nat) t, A.traversals[j]? = some t → ∃ es, hs[j]? = some (.error :: es) ∧ es.length = A.nodes.length ∧
        ∀ (k : Nat) n, A.nodes[k]? = some n → ∃ f, es[k]? = some f ∧
          Spec.Targets.Entry A t k n (render (idOf t.uid).upr (nameOf A) f) := by
  obtain ⟨qs, st, trees, l, N, h1, h2, h3, h4, h5⟩ := unwrap_both h he
  have r := resolved_of h hn h3
  have hl : l.map (·.1) = A.traversals.map (·.index) := h5.map_eq _ _ fun a b hab => hab.1
  have hlm : ∀ i x, (i, x) ∈ l → ∃ t ∈ A.traversals, i = t.index ∧ Aims A tab t (i, x) := fun i x hx => by
    obtain ⟨t, g1, g2⟩ := h5.mem_right hx
    exact ⟨t, g1, g2.1, g2⟩
  refine ⟨max N (A.numNodes + 1), fun fuel hf => ?_⟩
  obtain ⟨rows, hs, g1, g2, g3, g4⟩ := Props.C28_tables_partial (envOf A tab trees) r fuel
    (by show A.numNodes < fuel; have := Nat.le_max_right N (A.numNodes + 1); omega) A.numTraversals l (by rw [hl]; exact hn.travsOnce)
    (fun i x hx => by
      obtain ⟨t, f1, f2, _⟩ := hlm i x hx
      rw [f2]
      exact hn.travs t f1)
    (fun i x hx y hy => by
      obtain ⟨t, f1, _, f3⟩ := hlm i x hx
      cases hc : t.nodes with
      | none =>
        have := f3.2.1 hc
        simp only at this
        rw [this] at hy
        cases hy
      | some e =>
        obtain ⟨tr, f4, f5⟩ := f3.2.2 e hc
        simp only at f5
        rw [f5] at hy
        obtain ⟨k, n, f6, rfl⟩ := literals_mem h f4 (h.travExpr f1 hc) hy
        exact ⟨_, rfl, (hn.nodes _).1 ⟨n, List.mem_of_getElem? f6, rfl⟩⟩)
    ⟨fun _ => false, false⟩
  refine ⟨hs, ?_, by rw [g3, h5.length], fun j t hj => ?_⟩
  · rw [hl] at g2
    simp only [tables, h1 fuel (Nat.le_trans (Nat.le_max_left _ _) hf), h2, h4, g1, g2, Res.bind_ok]
  · obtain ⟨⟨i, x⟩, f1, f2, f3, f4⟩ := h5.left hj
    obtain ⟨es, f5, f6, f7⟩ := g4 j i x f1
    refine ⟨es, f5, by rw [f6]; simp [envOf], fun k n hk => ?_⟩
    obtain ⟨f, f8, f9, f10⟩ := f7 k n.index (by simp [envOf, hk])
    refine ⟨f, f8, ?_⟩
    have hname : render (idOf t.uid).upr (nameOf A) (.user n.index) = .named (handler t n) := by
      simp only [render, nameOf, nodeOf_index hn hk]
      rfl
    cases hc : t.nodes with
    | none =>
      rw [f10 (f3 hc), hname]
      have : Target t A n := by rw [Target, hc]; trivial
      exact ⟨fun _ => rfl, fun hx => absurd this hx, fun hx => absurd this hx⟩
    | some e =>
      obtain ⟨tr, e1, e2⟩ := f4 e hc
      simp only at e2
      have ok := h.travExpr (List.mem_of_getElem? hj) hc
      have tgt : ∀ {q : Nat} {m : Parse.Node}, A.nodes[q]? = some m → (Entry.node m.index ∈ x ↔ Target t A m) := fun hq => by
        rw [e2, literals_node h hn e1 hq ok, has_iff h e1, Target, hc]
      have hne : x ≠ [] := fun hx => by
        obtain ⟨m, hm, ht⟩ := ha t (List.mem_of_getElem? hj) (by rw [hc]; simp)
        obtain ⟨q, hq⟩ := List.getElem?_of_mem hm
        have := (tgt hq).2 ht
        rw [hx] at this
        cases this
      have te := f9 hne
      refine ⟨fun ht => ?_, fun ht => ?_, fun ht ⟨q, m, hq, hm, hp⟩ => ?_⟩
      · rw [(te.user n.index).2 ⟨rfl, (tgt hk).2 ht⟩, hname]
      · cases hfc : f with
        | error => exact absurd hfc te.notError
        | user i => exact absurd ((tgt hk).1 ((te.user i).1 hfc).2) ht
        | children => exact .inl rfl
        | nop => exact .inr rfl
      · rw [te.through (fun hx => ht ((tgt hk).1 hx)) ⟨m.index, (tgt hq).2 hm, path_below h hn h3 hp n m hk hq⟩]
        rfl

end Verif.Targets
