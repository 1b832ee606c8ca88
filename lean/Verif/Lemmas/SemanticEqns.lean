import Verif.Lemmas.SemanticRun
import Verif.Props.ProductRules

/-!
# Lemmas about the phase `semantic`: equations, and what the scheduler reads
-/

namespace Verif.Semantic
open Verif.Str Verif.Ids Verif.Grammar
open Verif.Spec.Str (lowerB upperB SameName)
open Verif.Spec.Ids Verif.Spec.CheckExist Verif.Spec.Semantic
open Verif.Propagate (Target Entry)
open Verif.Spec.ProductRules

/-! ### What the check of equations reads -/

theorem cpr_node {A tab attrs} {k : Nat} {nd : ProductRules.NodeD} : (cprEnv A tab attrs).nodes[k]? = some nd ↔
    ∃ n, A.nodes[k]? = some n ∧ nd = ⟨n.children.map fun c => ⟨code (idOf c.name).lwr, code (idOf c.type).lwr⟩, attrs (.node k),
      n.equations.map eqnOf⟩ := by
  simp only [cprEnv, List.getElem?_mapIdx, Option.map_eq_some_iff]
  exact ⟨fun ⟨n, h1, h2⟩ => ⟨n, h1, h2.symm⟩, fun ⟨n, h1, h2⟩ => ⟨n, h1, h2.symm⟩⟩

theorem cpr_set {A tab attrs} {k : Nat} {l : List Propagate.Attr} : (cprEnv A tab attrs).sets[k]? = some l ↔
    k < A.nodesets.length ∧ l = attrs (.set k) := by
  simp only [cprEnv, List.getElem?_mapIdx, Option.map_eq_some_iff]
  constructor
  · rintro ⟨n, h1, h2⟩
    exact ⟨(List.getElem?_eq_some_iff.1 h1).1, h2.symm⟩
  · rintro ⟨h1, h2⟩
    exact ⟨_, List.getElem?_eq_getElem h1, h2.symm⟩

theorem sym_eq (tab : List (Ste Decl)) (n : Parse.Name) : symOf tab (code (idOf n).lwr) =
    match stFind (n.orig.map lowerB) tab with
    | none => none
    | some ⟨.node, k⟩ => some (.node k)
    | some ⟨.nodeset, k⟩ => some (.set k)
    | some _ => some .other := by
  rw [symOf, decode_code]; rfl

theorem Right.symNode {A tab} (h : Right A tab) (n : Parse.Name) (k : Nat) : symOf tab (code (idOf n).lwr) = some (.node k) ↔
    ∃ m, A.nodes[k]? = some m ∧ SameName m.name.orig n.orig := by
  rw [← h.table.node n.orig k, sym_eq]
  split
  · rename_i h1; rw [h1]; simp
  · rename_i j h1; rw [h1]; simp
  · rename_i j h1; rw [h1]; simp
  · rename_i d h1 h2 h3
    rw [h3]
    simp only [Option.some.injEq, reduceCtorEq, false_iff]
    rintro rfl
    exact h1 k rfl

theorem Right.symSet {A tab} (h : Right A tab) (n : Parse.Name) (k : Nat) : symOf tab (code (idOf n).lwr) = some (.set k) ↔
    ∃ m, A.nodesets[k]? = some m ∧ SameName m.name.orig n.orig := by
  rw [← h.table.set n.orig k, sym_eq]
  split
  · rename_i h1; rw [h1]; simp
  · rename_i j h1; rw [h1]; simp
  · rename_i j h1; rw [h1]; simp
  · rename_i d h1 h2 h3
    rw [h3]
    simp only [Option.some.injEq, reduceCtorEq, false_iff]
    rintro rfl
    exact h2 k rfl

theorem Right.childType {A tab} (h : Right A tab) {i : Nat} {n : Parse.Node} (hn : A.nodes[i]? = some n) {c : Parse.Child}
    (hc : c ∈ n.children) : (∃ k, symOf tab (code (idOf c.type).lwr) = some (.node k) ∧ k < A.nodes.length) ∨
      ∃ k, symOf tab (code (idOf c.type).lwr) = some (.set k) ∧ k < A.nodesets.length := by
  have := (h.sound.fields ⟨idOf n.name, n.root, n.children.map childOf, n.attrs.map attrOf⟩
    (List.mem_map.2 ⟨n, List.mem_of_getElem? hn, rfl⟩)).2.2 (childOf c) (List.mem_map.2 ⟨c, hc, rfl⟩) (idOf c.type) rfl
  rcases this with hd | hd
  · obtain ⟨k, m, h1, h2⟩ := denotes_node hd
    exact Or.inl ⟨k, (h.symNode _ k).2 ⟨m, h1, h2⟩, (List.getElem?_eq_some_iff.1 h1).1⟩
  · obtain ⟨k, m, h1, h2⟩ := denotes_set hd
    exact Or.inr ⟨k, (h.symSet _ k).2 ⟨m, h1, h2⟩, (List.getElem?_eq_some_iff.1 h1).1⟩

theorem typed_of {A tab attrs} (h : Right A tab) : Typed (cprEnv A tab attrs) := by
  intro nd hnd c hc
  obtain ⟨i, hi⟩ := List.getElem?_of_mem hnd
  obtain ⟨n, hn, rfl⟩ := cpr_node.1 hi
  obtain ⟨d, hd, rfl⟩ := List.mem_map.1 hc
  rcases h.childType hn hd with ⟨k, h1, h2⟩ | ⟨k, h1, h2⟩
  · exact ⟨_, .node h1 (cpr_node.2 ⟨_, List.getElem?_eq_getElem h2, rfl⟩) rfl⟩
  · exact ⟨_, .set h1 (cpr_set.2 ⟨h2, rfl⟩)⟩

theorem named_of {A tab attrs} (h : Right A tab) (hd : ∀ t, Spec.Propagate.Distinct (attrs t)) : Named (cprEnv A tab attrs) := by
  constructor
  · intro nd hnd
    obtain ⟨i, hi⟩ := List.getElem?_of_mem hnd
    obtain ⟨n, hn, rfl⟩ := cpr_node.1 hi
    simpa [List.map_map, Function.comp_def] using (h.nodeNames hn).2
  · intro nd hnd
    obtain ⟨i, hi⟩ := List.getElem?_of_mem hnd
    obtain ⟨n, hn, rfl⟩ := cpr_node.1 hi
    exact hd _
  · intro l hl
    obtain ⟨i, hi⟩ := List.getElem?_of_mem hl
    obtain ⟨_, rfl⟩ := cpr_set.1 hi
    exact hd _

/-! ### References -/

/-- What the scheduler reads for a reference. -/
inductive RefSt (addr : Loc → Nat) (env : ProductRules.Env) (i : Nat) (nd : ProductRules.NodeD) (r : ProductRules.ARef) :
    Induce.Ref → Prop where
  | this {a : Propagate.Attr} : RefersTo env nd r none a → RefSt addr env i nd r ⟨none, iAttr addr (.node i) a⟩
  | child {c : ProductRules.Child} {t : Target} {a : Propagate.Attr} : RefersTo env nd r (some c) a → targetOf env c.type = some t →
      RefSt addr env i nd r ⟨some (addr (.child i c.name)), iAttr addr t a⟩

/-- The children as the scheduler reads them. -/
def ChildSt (addr : Loc → Nat) (env : ProductRules.Env) (i : Nat) (c : ProductRules.Child) (x : Induce.Child) : Prop :=
  ∃ t, targetOf env c.type = some t ∧ x = ⟨addr (.child i c.name), addrOf addr t⟩

/-- A node as the scheduler reads it. -/
structure NodeSt (addr : Loc → Nat) (env : ProductRules.Env) (i : Nat) (nd : ProductRules.NodeD) (x : Induce.INode) : Prop where
  self : x.addr = addr (.node i)
  attrs : x.attrs = nd.attrs.map (iAttr addr (.node i))
  children : Pairs (ChildSt addr env i) nd.children x.children
  eqs : Pairs (fun e y => RefSt addr env i nd e.rule y.rule ∧ Pairs (RefSt addr env i nd) e.args y.args) nd.eqns x.eqs

theorem target_some {env : ProductRules.Env} {type : Nat} {l : List Propagate.Attr} (h : TypeAttrs env type l) :
    ∃ t, targetOf env type = some t := by
  cases h with
  | @node i _ h1 _ _ => exact ⟨.node i, by simp only [targetOf, h1]⟩
  | @set i h1 _ => exact ⟨.set i, by simp only [targetOf, h1]⟩

theorem iRef_ok {addr env i nd r y} (h : Stored env (nd, r) y) (hr : ∃ c a, RefersTo env nd r c a) :
    ∃ x, iRef addr env i y = .ok x ∧ RefSt addr env i nd r x := by
  cases ha : y.attr with
  | none => exact absurd hr (h.2 ha)
  | some a =>
    have h1 := h.1 a ha
    cases hc : y.child with
    | none =>
      rw [hc] at h1
      exact ⟨⟨none, iAttr addr (.node i) a⟩, by simp only [iRef, ha, hc], .this h1⟩
    | some c =>
      rw [hc] at h1
      obtain ⟨t, ht⟩ : ∃ t, targetOf env c.type = some t := by
        cases h1 with
        | child _ _ h2 _ _ => exact target_some h2
      exact ⟨⟨some (addr (.child i c.name)), iAttr addr t a⟩, by simp only [iRef, ha, hc, ht], .child h1 ht⟩

theorem iArgs_ok {addr env i nd rest} : ∀ {args log}, AllStored env (args.map (fun r => (nd, r)) ++ rest) log →
    (∀ r ∈ args, ∃ c a, RefersTo env nd r c a) →
    ∃ rs log', iArgs addr env i args log = .ok (rs, log') ∧ AllStored env rest log' ∧ Pairs (RefSt addr env i nd) args rs
  | [], log, h, _ => ⟨[], log, by rw [iArgs], h, .nil⟩
  | r :: args, log, h, hr => by
    cases h with
    | @cons _ y _ ys h1 h2 =>
      obtain ⟨x, h3, h4⟩ := iRef_ok (addr := addr) (i := i) h1 (hr r List.mem_cons_self)
      obtain ⟨rs, log', h5, h6, h7⟩ := iArgs_ok h2 fun r hr' => hr r (List.mem_cons_of_mem _ hr')
      exact ⟨x :: rs, log', by simp only [iArgs, h3, h5, Res.bind_ok], h6, .cons h4 h7⟩

theorem iEqns_ok {addr env i nd rest} : ∀ {es : List ProductRules.Eqn} {log},
    AllStored env ((es.flatMap fun e => e.rule :: e.args).map (fun r => (nd, r)) ++ rest) log →
    (∀ e ∈ es, (∃ c a, RefersTo env nd e.rule c a) ∧ ∀ r ∈ e.args, ∃ c a, RefersTo env nd r c a) →
    ∃ ys log', iEqns addr env i es log = .ok (ys, log') ∧ AllStored env rest log' ∧
      Pairs (fun e y => RefSt addr env i nd e.rule y.rule ∧ Pairs (RefSt addr env i nd) e.args y.args) es ys
  | [], log, h, _ => ⟨[], log, by rw [iEqns], h, .nil⟩
  | e :: es, log, h, hr => by
    rw [List.flatMap_cons, List.map_append, List.append_assoc, List.map_cons, List.cons_append] at h
    cases h with
    | @cons _ y _ ys h1 h2 =>
      obtain ⟨x, h3, h4⟩ := iRef_ok (addr := addr) (i := i) h1 (hr e List.mem_cons_self).1
      obtain ⟨as, log1, h5, h6, h7⟩ := iArgs_ok (addr := addr) (i := i) h2 (hr e List.mem_cons_self).2
      obtain ⟨qs, log2, h8, h9, h10⟩ := iEqns_ok h6 fun e he => hr e (List.mem_cons_of_mem _ he)
      exact ⟨⟨x, as⟩ :: qs, log2, by simp only [iEqns, h3, h5, h8, Res.bind_ok], h9, .cons ⟨h4, h7⟩ h10⟩

theorem iChildren_ok {addr env i} : ∀ {cs : List ProductRules.Child}, (∀ c ∈ cs, ∃ l, TypeAttrs env c.type l) →
    ∃ xs, iChildren addr env i cs = .ok xs ∧ Pairs (ChildSt addr env i) cs xs
  | [], _ => ⟨[], by rw [iChildren], .nil⟩
  | c :: cs, h => by
    obtain ⟨l, hl⟩ := h c List.mem_cons_self
    obtain ⟨t, ht⟩ := target_some hl
    obtain ⟨xs, h1, h2⟩ := iChildren_ok (addr := addr) (i := i) fun c hc => h c (List.mem_cons_of_mem _ hc)
    exact ⟨⟨addr (.child i c.name), addrOf addr t⟩ :: xs, by simp only [iChildren, ht, h1, Res.bind_ok], .cons ⟨t, ht, rfl⟩ h2⟩

theorem iNodes_ok {addr : Loc → Nat} {env : ProductRules.Env} : ∀ {nds : List ProductRules.NodeD} {i : Nat} {log : List ProductRules.Resolution},
    AllStored env (nds.flatMap fun nd => (refs nd).map fun r => (nd, r)) log →
    (∀ nd ∈ nds, (∀ c ∈ nd.children, ∃ l, TypeAttrs env c.type l) ∧ NodeOk env nd) →
    ∃ xs, iNodes addr env i nds log = .ok xs ∧ xs.length = nds.length ∧
      ∀ (k : Nat) nd, nds[k]? = some nd → ∃ x, xs[k]? = some x ∧ NodeSt addr env (i + k) nd x
  | [], _, _, _, _ => ⟨[], by rw [iNodes], rfl, fun k nd h => by cases h⟩
  | nd :: nds, i, log, h, hr => by
    obtain ⟨hc, ho⟩ := hr nd List.mem_cons_self
    rw [List.flatMap_cons] at h
    obtain ⟨cs, h1, h2⟩ := iChildren_ok (addr := addr) (i := i) hc
    obtain ⟨es, log', h3, h4, h5⟩ := iEqns_ok (addr := addr) (i := i) h fun e he => by
      refine ⟨?_, ho.args e he⟩
      cases hn : e.rule.inode with
      | none => obtain ⟨a, ha, _⟩ := ho.this e he hn; exact ⟨_, a, ha⟩
      | some c => obtain ⟨c, a, ha, _⟩ := ho.child e he (by rw [hn]; exact fun h => by cases h); exact ⟨_, a, ha⟩
    obtain ⟨xs, h6, h7, h8⟩ := iNodes_ok (addr := addr) (i := i + 1) h4 fun nd hnd => hr nd (List.mem_cons_of_mem _ hnd)
    refine ⟨⟨addr (.node i), nd.attrs.map (iAttr addr (.node i)), cs, es⟩ :: xs, by simp only [iNodes, h1, h3, h6, Res.bind_ok], by simp [h7], fun k md hk => ?_⟩
    cases k with
    | zero =>
      cases hk
      exact ⟨_, rfl, rfl, rfl, h2, h5⟩
    | succ k =>
      obtain ⟨x, g1, g2⟩ := h8 k md hk
      exact ⟨x, g1, by rw [show i + (k + 1) = i + 1 + k by omega]; exact g2⟩

theorem iMembers_ok {nodes : List Induce.INode} : ∀ {l : List Entry}, (∀ x ∈ l, ∃ k, x = .node k ∧ k < nodes.length) →
    ∃ ms, iMembers nodes l = .ok ms ∧ Pairs (fun e m => ∃ k, e = Entry.node k ∧ nodes[k]? = some m) l ms
  | [], _ => ⟨[], by rw [iMembers], .nil⟩
  | x :: l, h => by
    obtain ⟨k, rfl, hk⟩ := h x List.mem_cons_self
    obtain ⟨ms, h1, h2⟩ := iMembers_ok fun x hx => h x (List.mem_cons_of_mem _ hx)
    have := List.getElem?_eq_getElem hk
    exact ⟨nodes[k] :: ms, by simp only [iMembers, this, h1, Res.bind_ok], .cons ⟨k, rfl, this⟩ h2⟩

/-- A nodeset as the scheduler reads it. -/
structure SetSt (addr : Loc → Nat) (nodes : List Induce.INode) (members : List Entry) (i : Nat) (l : List Propagate.Attr)
    (x : Induce.NSet) : Prop where
  self : x.addr = addr (.set i)
  attrs : x.attrs = l.map (iAttr addr (.set i))
  all : Pairs (fun e m => ∃ k, e = Entry.node k ∧ nodes[k]? = some m) members x.members.reverse

theorem iSets_ok {addr : Loc → Nat} {nodes : List Induce.INode} {members : Nat → List Entry} : ∀ {ls : List (List Propagate.Attr)} {i : Nat},
    (∀ j, i ≤ j → j < i + ls.length → ∀ x ∈ members j, ∃ k, x = .node k ∧ k < nodes.length) →
    ∃ xs, iSets addr nodes members i ls = .ok xs ∧ xs.length = ls.length ∧
      ∀ (k : Nat) l, ls[k]? = some l → ∃ x, xs[k]? = some x ∧ SetSt addr nodes (members (i + k)) (i + k) l x
  | [], _, _ => ⟨[], by rw [iSets], rfl, fun k l h => by cases h⟩
  | l :: ls, i, h => by
    obtain ⟨ms, h1, h2⟩ := iMembers_ok (h i (Nat.le_refl _) (by simp))
    obtain ⟨xs, h3, h4, h5⟩ := iSets_ok (addr := addr) (ls := ls) (i := i + 1) (nodes := nodes) (members := members)
      fun j hj hj' => h j (by omega) (by simp only [List.length_cons]; omega)
    refine ⟨⟨addr (.set i), l.map (iAttr addr (.set i)), ms.reverse⟩ :: xs, by simp only [iSets, h1, h3, Res.bind_ok], by simp [h4], fun k md hk => ?_⟩
    cases k with
    | zero =>
      cases hk
      exact ⟨_, rfl, rfl, rfl, by rw [List.reverse_reverse]; exact h2⟩
    | succ k =>
      obtain ⟨x, g1, g2⟩ := h5 k md hk
      exact ⟨x, g1, by rw [show i + (k + 1) = i + 1 + k by omega]; exact g2⟩

end Verif.Semantic
