import Verif.Lemmas.SemanticEqns
import Verif.Spec.Evaluate
import Verif.Spec.Evaluator

/-!
# Lemmas about the phase `semantic`: what the scheduler relies on
-/

namespace Verif.Semantic
open Verif.Str Verif.Ids Verif.Grammar
open Verif.Spec.Str (lowerB upperB SameName)
open Verif.Spec.Ids Verif.Spec.CheckExist Verif.Spec.Semantic
open Verif.Propagate (Target Entry)
open Verif.Spec.ProductRules

theorem pairs_map_left {α β γ : Type} {R : β → γ → Prop} {f : α → β} : ∀ {l : List α} {m : List γ}, Pairs R (l.map f) m →
    Pairs (fun a b => R (f a) b) l m
  | [], _, h => by cases h; exact .nil
  | a :: l, _, h => by
    cases h with
    | cons h1 h2 => exact .cons h1 (pairs_map_left h2)

theorem refersTo_unique {env : ProductRules.Env} (hn : Named env) {nd : ProductRules.NodeD} (hnd : nd ∈ env.nodes)
    {r : ProductRules.ARef} {c d : Option ProductRules.Child} {a b : Propagate.Attr} (h1 : RefersTo env nd r c a)
    (h2 : RefersTo env nd r d b) : c = d ∧ a = b := by
  cases h1 with
  | this i1 m1 n1 =>
    cases h2 with
    | this i2 m2 n2 => exact ⟨rfl, ProductRules.nodup_eq (hn.attrs nd hnd) m1 m2 (n1.trans n2.symm)⟩
    | child i2 _ _ _ _ => rw [i1] at i2; cases i2
  | child i1 c1 t1 m1 n1 =>
    cases h2 with
    | this i2 _ _ => rw [i1] at i2; cases i2
    | child i2 c2 t2 m2 n2 =>
      rw [i1] at i2
      obtain rfl := ProductRules.nodup_eq (hn.children nd hnd) c1 c2 (Option.some.inj i2)
      obtain rfl := ProductRules.TypeAttrs.unique t1 t2
      obtain ⟨_, h, _⟩ := ProductRules.TypeAttrs.at t1
      exact ⟨rfl, ProductRules.nodup_eq (ProductRules.AttrsAt.nodup hn h) m1 m2 (n1.trans n2.symm)⟩

/-- What the actions before the scheduler have established. -/
structure World (addr : Loc → Nat) (A : Parse.Ast) (attrs : Target → List Propagate.Attr) (env : ProductRules.Env)
    (members : Nat → List Entry) (S : Induce.Spec) : Prop where
  apart : Apart addr
  tab : ∃ tab, Right A tab ∧ env = cprEnv A tab attrs
  named : Named env
  typed : Typed env
  ok : ∀ nd ∈ env.nodes, NodeOk env nd
  nodeAttrs : ∀ k, k < A.nodes.length → (∀ a, NodeAttr A k a → ∃ b ∈ attrs (.node k), Like a b) ∧
    ∀ b ∈ attrs (.node k), ∃ a, NodeAttr A k a ∧ Like a b
  setAttrs : ∀ k, k < A.nodesets.length → (∀ a, SetAttr A k a → ∃ b ∈ attrs (.set k), Like a b) ∧
    ∀ b ∈ attrs (.set k), ∃ a, SetAttr A k a ∧ Like a b
  same : ∀ i, i < A.nodesets.length → ∀ b ∈ attrs (.set i), ∀ k, Member A i k → ∃ c ∈ attrs (.node k), c.name = b.name ∧
    c.inh = b.inh ∧ c.syn = b.syn ∧ c.type = b.type
  member : ∀ i, i < A.nodesets.length → (members i).Nodup ∧ (∀ k, Entry.node k ∈ members i ↔ Member A i k)
  nodes : S.nodes.length = env.nodes.length ∧ ∀ (k : Nat) nd, env.nodes[k]? = some nd → ∃ x, S.nodes[k]? = some x ∧ NodeSt addr env k nd x
  sets : S.sets.length = env.sets.length ∧ ∀ (k : Nat) l, env.sets[k]? = some l → ∃ x, S.sets[k]? = some x ∧
    SetSt addr S.nodes (members k) k l x

namespace World
variable {addr : Loc → Nat} {A : Parse.Ast} {attrs : Target → List Propagate.Attr} {env : ProductRules.Env}
  {members : Nat → List Entry} {S : Induce.Spec}

theorem nodeLength (w : World addr A attrs env members S) : S.nodes.length = A.nodes.length := by
  obtain ⟨tab, _, rfl⟩ := w.tab
  rw [w.nodes.1, cprEnv]
  simp

theorem setLength (w : World addr A attrs env members S) : S.sets.length = A.nodesets.length := by
  obtain ⟨tab, _, rfl⟩ := w.tab
  rw [w.sets.1, cprEnv]
  simp

theorem node (w : World addr A attrs env members S) {k : Nat} {x : Induce.INode} (hx : S.nodes[k]? = some x) :
    ∃ n nd, A.nodes[k]? = some n ∧ nd = (⟨n.children.map fun c => ⟨code (idOf c.name).lwr, code (idOf c.type).lwr⟩, attrs (.node k),
      n.equations.map eqnOf⟩ : ProductRules.NodeD) ∧ env.nodes[k]? = some nd ∧ NodeSt addr env k nd x := by
  have hk : k < A.nodes.length := by rw [← w.nodeLength]; exact (List.getElem?_eq_some_iff.1 hx).1
  obtain ⟨tab, _, he⟩ := w.tab
  have hn := List.getElem?_eq_getElem hk
  refine ⟨_, _, hn, rfl, ?_, ?_⟩
  · rw [he]; exact cpr_node.2 ⟨_, hn, rfl⟩
  · obtain ⟨y, h1, h2⟩ := w.nodes.2 k _ (by rw [he]; exact cpr_node.2 ⟨_, hn, rfl⟩)
    rw [hx] at h1
    cases h1
    exact h2

theorem set (w : World addr A attrs env members S) {k : Nat} {x : Induce.NSet} (hx : S.sets[k]? = some x) :
    k < A.nodesets.length ∧ SetSt addr S.nodes (members k) k (attrs (.set k)) x := by
  have hk : k < A.nodesets.length := by rw [← w.setLength]; exact (List.getElem?_eq_some_iff.1 hx).1
  obtain ⟨tab, _, he⟩ := w.tab
  refine ⟨hk, ?_⟩
  obtain ⟨y, h1, h2⟩ := w.sets.2 k _ (by rw [he]; exact cpr_set.2 ⟨hk, rfl⟩)
  rw [hx] at h1
  cases h1
  exact h2

theorem mem_node (w : World addr A attrs env members S) {x : Induce.INode} (hx : x ∈ S.nodes) :
    ∃ k nd, k < A.nodes.length ∧ S.nodes[k]? = some x ∧ env.nodes[k]? = some nd ∧ nd.attrs = attrs (.node k) ∧ NodeSt addr env k nd x := by
  obtain ⟨k, hk⟩ := List.getElem?_of_mem hx
  obtain ⟨n, nd, h1, h2, h3, h4⟩ := w.node hk
  exact ⟨k, nd, (List.getElem?_eq_some_iff.1 h1).1, hk, h3, by rw [h2], h4⟩

theorem mem_set (w : World addr A attrs env members S) {x : Induce.NSet} (hx : x ∈ S.sets) :
    ∃ k, k < A.nodesets.length ∧ S.sets[k]? = some x ∧ SetSt addr S.nodes (members k) k (attrs (.set k)) x := by
  obtain ⟨k, hk⟩ := List.getElem?_of_mem hx
  obtain ⟨h1, h2⟩ := w.set hk
  exact ⟨k, h1, hk, h2⟩

theorem distinctAttrs (w : World addr A attrs env members S) : (∀ k, k < A.nodes.length → ((attrs (.node k)).map (·.name)).Nodup) ∧
    ∀ k, k < A.nodesets.length → ((attrs (.set k)).map (·.name)).Nodup := by
  obtain ⟨tab, _, he⟩ := w.tab
  have hn := w.named
  rw [he] at hn
  exact ⟨fun k hk => hn.attrs _ (List.mem_of_getElem? (cpr_node.2 ⟨_, List.getElem?_eq_getElem hk, rfl⟩)),
    fun k hk => hn.sets _ (List.mem_of_getElem? (cpr_set.2 ⟨hk, rfl⟩))⟩

theorem nodup_addrs (w : World addr A attrs env members S) {t : Target} {l : List Propagate.Attr} (h : (l.map (·.name)).Nodup) :
    ((l.map (iAttr addr t)).map (·.addr)).Nodup := by
  rw [List.map_map, List.Nodup, List.pairwise_map]
  rw [List.Nodup, List.pairwise_map] at h
  refine h.imp fun {a b} hn he => hn ?_
  have := w.apart _ _ he
  simp only [Loc.attr.injEq, true_and] at this
  exact this

theorem nodup_names {t : Target} {l : List Propagate.Attr} (h : (l.map (·.name)).Nodup)
    (hc : ∀ b ∈ l, ∃ a, Like a b) : ((l.map (iAttr addr t)).map (·.name)).Nodup := by
  rw [List.map_map, List.Nodup, List.pairwise_map]
  rw [List.Nodup, List.pairwise_map] at h
  refine h.imp_of_mem fun {a b} ha hb hn he => hn ?_
  obtain ⟨a', h1⟩ := hc a ha
  obtain ⟨b', h2⟩ := hc b hb
  simp only [iAttr, Function.comp] at he
  rw [h1.name, h2.name, decode_code, decode_code] at he
  rw [h1.name, h2.name, he]

theorem child_addr {env : ProductRules.Env} {i : Nat} {cs : List ProductRules.Child} {xs : List Induce.Child}
    (h : Pairs (ChildSt addr env i) cs xs) : xs.map (·.addr) = cs.map fun c => addr (.child i c.name) :=
  h.map_eq _ _ fun a b ⟨_, _, hb⟩ => by rw [hb]

theorem target_node {type k : Nat} (h : targetOf env type = some (.node k)) : env.lookup type = some (.node k) := by
  unfold targetOf at h
  split at h
  · rename_i j h1; cases h; exact h1
  · cases h
  · cases h

theorem target_set {type k : Nat} (h : targetOf env type = some (.set k)) : env.lookup type = some (.set k) := by
  unfold targetOf at h
  split at h
  · cases h
  · rename_i j h1; cases h; exact h1
  · cases h

/-- The type of a child. -/
theorem typeOf (w : World addr A attrs env members S) {type : Nat} {t : Target} {l : List Propagate.Attr} (h : targetOf env type = some t)
    (hl : TypeAttrs env type l) :
    (∃ (k : Nat) (m : Induce.INode), t = .node k ∧ S.nodes[k]? = some m ∧ m.addr = addrOf addr t ∧ m.attrs = l.map (iAttr addr t)) ∨
    ∃ (k : Nat) (m : Induce.NSet), t = .set k ∧ S.sets[k]? = some m ∧ m.addr = addrOf addr t ∧ m.attrs = l.map (iAttr addr t) := by
  cases t with
  | node k =>
    left
    have h1 := target_node h
    cases hl with
    | node h2 h3 h4 =>
      rw [h1] at h2
      cases h2
      obtain ⟨x, h5, h6⟩ := w.nodes.2 k _ h3
      exact ⟨k, x, rfl, h5, h6.self, by rw [h6.attrs, h4]⟩
    | set h2 _ => rw [h1] at h2; cases h2
  | set k =>
    right
    have h1 := target_set h
    cases hl with
    | node h2 _ _ => rw [h1] at h2; cases h2
    | set h2 h3 =>
      rw [h1] at h2
      cases h2
      obtain ⟨x, h5, h6⟩ := w.sets.2 k _ h3
      exact ⟨k, x, rfl, h5, h6.self, h6.attrs⟩

theorem resolved (w : World addr A attrs env members S) {k : Nat} {nd : ProductRules.NodeD} {x : Induce.INode}
    (hx : NodeSt addr env k nd x) {r : ProductRules.ARef} {y : Induce.Ref} (h : RefSt addr env k nd r y) :
    Spec.Induce.Resolved S x y := by
  cases h with
  | this h =>
    cases h with
    | this _ hm _ =>
      show _ ∈ x.attrs
      rw [hx.attrs]
      exact List.mem_map.2 ⟨_, hm, rfl⟩
  | @child c t a h ht =>
    cases h with
    | @child _ l _ _ hc hl hm _ =>
      obtain ⟨ch, h1, t', h2, h3⟩ := hx.children.mem_left hc
      rw [ht] at h2
      cases h2
      refine ⟨ch, h1, by rw [h3], ?_⟩
      rcases w.typeOf ht hl with ⟨j, m, _, g1, g2, g3⟩ | ⟨j, m, _, g1, g2, g3⟩
      · exact Or.inl ⟨m, List.mem_of_getElem? g1, by rw [g2, h3], by rw [g3]; exact List.mem_map.2 ⟨_, hm, rfl⟩⟩
      · exact Or.inr ⟨m, List.mem_of_getElem? g1, by rw [g2, h3], by rw [g3]; exact List.mem_map.2 ⟨_, hm, rfl⟩⟩

theorem ruleKind (w : World addr A attrs env members S) {k : Nat} {nd : ProductRules.NodeD} (hnd : env.nodes[k]? = some nd)
    {e : ProductRules.Eqn} (he : e ∈ nd.eqns) {y : Induce.Ref} (h : RefSt addr env k nd e.rule y) : Spec.Induce.RuleKind y := by
  have hm := List.mem_of_getElem? hnd
  have ok := w.ok nd hm
  cases h with
  | @this a h =>
    have hn : e.rule.inode = none := by cases h; assumption
    obtain ⟨b, hb, hs⟩ := ok.this e he hn
    obtain ⟨_, rfl⟩ := refersTo_unique w.named hm h hb
    exact hs
  | @child c t a h ht =>
    have hn : e.rule.inode ≠ none := by
      cases h with
      | child h1 => rw [h1]; exact fun h => by cases h
    obtain ⟨d, b, hb, hs⟩ := ok.child e he hn
    obtain ⟨_, rfl⟩ := refersTo_unique w.named hm h hb
    exact hs

theorem member_mem (w : World addr A attrs env members S) {k : Nat} {x : Induce.NSet} (hx : S.sets[k]? = some x) (m : Induce.INode) :
    m ∈ x.members ↔ ∃ j, S.nodes[j]? = some m ∧ Member A k j := by
  obtain ⟨h1, h2⟩ := w.set hx
  rw [← List.mem_reverse]
  constructor
  · intro hm
    obtain ⟨e, he, j, rfl, hj⟩ := h2.all.mem_right hm
    exact ⟨j, hj, ((w.member k h1).2 j).1 he⟩
  · rintro ⟨j, hj, hm⟩
    obtain ⟨m', h3, j', h4, h5⟩ := h2.all.mem_left (((w.member k h1).2 j).2 hm)
    cases h4
    rw [hj] at h5
    cases h5
    exact h3

theorem node_inj (w : World addr A attrs env members S) {j k : Nat} {x y : Induce.INode} (hj : S.nodes[j]? = some x)
    (hk : S.nodes[k]? = some y) (h : x.addr = y.addr) : j = k := by
  obtain ⟨_, _, _, _, _, h1⟩ := w.node hj
  obtain ⟨_, _, _, _, _, h2⟩ := w.node hk
  rw [h1.self, h2.self] at h
  have := w.apart _ _ h
  cases this
  rfl

theorem set_inj (w : World addr A attrs env members S) {j k : Nat} {x y : Induce.NSet} (hj : S.sets[j]? = some x)
    (hk : S.sets[k]? = some y) (h : x.addr = y.addr) : j = k := by
  rw [(w.set hj).2.self, (w.set hk).2.self] at h
  have := w.apart _ _ h
  cases this
  rfl

theorem members_nodup (w : World addr A attrs env members S) {k : Nat} {x : Induce.NSet} (hx : S.sets[k]? = some x) : x.members.Nodup := by
  obtain ⟨h1, h2⟩ := w.set hx
  have hn := (w.member k h1).1
  have : ∀ {es : List Entry} {ms : List Induce.INode}, es.Nodup → Pairs (fun e m => ∃ k, e = Entry.node k ∧ S.nodes[k]? = some m) es ms →
      ms.Nodup := by
    intro es ms hn hp
    induction hp with
    | nil => exact List.nodup_nil
    | @cons e m es ms h _ ih =>
      rename_i hp
      rw [List.nodup_cons] at hn ⊢
      refine ⟨fun hm => hn.1 ?_, ih hn.2⟩
      obtain ⟨e', he', k, rfl, hk⟩ := hp.mem_right hm
      obtain ⟨j, rfl, hj⟩ := h
      rw [w.node_inj hj hk rfl]
      exact he'
  have := this hn h2.all
  rw [List.Nodup, List.pairwise_reverse] at this
  exact this.imp fun hn he => hn he.symm

theorem pairwise_get {α : Type} {R : α → α → Prop} {l : List α}
    (h : ∀ (i j : Nat) a b, i < j → l[i]? = some a → l[j]? = some b → R a b) : l.Pairwise R := by
  rw [List.pairwise_iff_getElem]
  intro i j hi hj hij
  exact h i j _ _ hij (List.getElem?_eq_getElem hi) (List.getElem?_eq_getElem hj)

theorem checked (w : World addr A attrs env members S) : Spec.Induce.Checked S := by
  constructor
  · rw [List.nodup_append, List.nodup_append]
    refine ⟨⟨?_, ?_, ?_⟩, ?_, ?_⟩
    · rw [List.Nodup, List.pairwise_map]
      refine pairwise_get fun i j a b hij hi hj he => ?_
      have := w.node_inj hi hj he
      omega
    · rw [List.Nodup, List.pairwise_map]
      refine pairwise_get fun i j a b hij hi hj he => ?_
      have := w.set_inj hi hj he
      omega
    · intro a ha b hb he
      obtain ⟨x, hx, rfl⟩ := List.mem_map.1 ha
      obtain ⟨y, hy, rfl⟩ := List.mem_map.1 hb
      obtain ⟨k, _, _, _, _, _, h1⟩ := w.mem_node hx
      obtain ⟨j, _, _, h2⟩ := w.mem_set hy
      rw [h1.self, h2.self] at he
      cases w.apart _ _ he
    · rw [List.Nodup, List.pairwise_map, List.pairwise_flatMap]
      constructor
      · intro x hx
        obtain ⟨k, nd, _, _, h3, _, h4⟩ := w.mem_node hx
        have : (x.children.map (·.addr)).Nodup := by
          rw [child_addr h4.children, List.Nodup, List.pairwise_map]
          have := w.named.children nd (List.mem_of_getElem? h3)
          rw [List.Nodup, List.pairwise_map] at this
          refine this.imp fun {a b} hn he => hn ?_
          have := w.apart _ _ he
          simp only [Loc.child.injEq, true_and] at this
          exact this
        rw [List.Nodup, List.pairwise_map] at this
        exact this
      · refine pairwise_get fun i j a b hij hi hj => ?_
        intro x hx y hy he
        obtain ⟨_, _, _, _, _, h1⟩ := w.node hi
        obtain ⟨_, _, _, _, _, h2⟩ := w.node hj
        obtain ⟨c, _, t, _, rfl⟩ := h1.children.mem_right hx
        obtain ⟨d, _, u, _, rfl⟩ := h2.children.mem_right hy
        have := w.apart _ _ he
        simp only [Loc.child.injEq] at this
        omega
    · intro a ha b hb he
      obtain ⟨y, hy, rfl⟩ := List.mem_map.1 hb
      obtain ⟨x, hx, hy⟩ := List.mem_flatMap.1 hy
      obtain ⟨k, _, _, _, _, _, h1⟩ := w.mem_node hx
      obtain ⟨c, _, t, _, rfl⟩ := h1.children.mem_right hy
      rcases List.mem_append.1 ha with ha | ha
      · obtain ⟨z, hz, rfl⟩ := List.mem_map.1 ha
        obtain ⟨_, _, _, _, _, _, h2⟩ := w.mem_node hz
        rw [h2.self] at he
        cases w.apart _ _ he
      · obtain ⟨z, hz, rfl⟩ := List.mem_map.1 ha
        obtain ⟨_, _, _, h2⟩ := w.mem_set hz
        rw [h2.self] at he
        cases w.apart _ _ he
  · intro x hx
    obtain ⟨k, nd, hk, _, _, h3, h4⟩ := w.mem_node hx
    rw [h4.attrs, h3]
    exact w.nodup_addrs (w.distinctAttrs.1 k hk)
  · intro x hx
    obtain ⟨k, hk, _, h4⟩ := w.mem_set hx
    rw [h4.attrs]
    exact w.nodup_addrs (w.distinctAttrs.2 k hk)
  · intro x hx
    obtain ⟨k, nd, hk, _, _, h3, h4⟩ := w.mem_node hx
    rw [h4.attrs, h3]
    exact nodup_names (w.distinctAttrs.1 k hk) fun b hb => let ⟨a, _, h⟩ := (w.nodeAttrs k hk).2 b hb; ⟨a, h⟩
  · intro x hx
    obtain ⟨k, hk, _, h4⟩ := w.mem_set hx
    rw [h4.attrs]
    exact nodup_names (w.distinctAttrs.2 k hk) fun b hb => let ⟨a, _, h⟩ := (w.setAttrs k hk).2 b hb; ⟨a, h⟩
  · intro x hx c hc
    obtain ⟨k, nd, hk, _, h3, _, h4⟩ := w.mem_node hx
    obtain ⟨d, hd, t, ht, rfl⟩ := h4.children.mem_right hc
    obtain ⟨l, hl⟩ := w.typed nd (List.mem_of_getElem? h3) d hd
    rw [List.mem_append, List.mem_map, List.mem_map]
    rcases w.typeOf ht hl with ⟨j, m, _, g1, g2, _⟩ | ⟨j, m, _, g1, g2, _⟩
    · exact Or.inl ⟨m, List.mem_of_getElem? g1, g2⟩
    · exact Or.inr ⟨m, List.mem_of_getElem? g1, g2⟩
  · intro s hs m hm
    obtain ⟨k, hk, hs', _⟩ := w.mem_set hs
    obtain ⟨j, hj, _⟩ := (w.member_mem hs' m).1 hm
    exact List.mem_of_getElem? hj
  · intro s hs m hm a ha _
    obtain ⟨k, hk, hs', h4⟩ := w.mem_set hs
    obtain ⟨j, hj, hmem⟩ := (w.member_mem hs' m).1 hm
    rw [h4.attrs] at ha
    obtain ⟨b, hb, rfl⟩ := List.mem_map.1 ha
    obtain ⟨c, hc, h5, h6, h7, _⟩ := w.same k hk b hb j hmem
    obtain ⟨_, _, _, rfl, _, h8⟩ := w.node hj
    refine ⟨iAttr addr (.node j) c, by rw [h8.attrs]; exact List.mem_map.2 ⟨c, hc, rfl⟩, ?_, h6, h7⟩
    simp only [iAttr, h5]
  · intro s hs m hm a ha b hb he
    obtain ⟨k, hk, hs', h4⟩ := w.mem_set hs
    obtain ⟨j, hj, _⟩ := (w.member_mem hs' m).1 hm
    obtain ⟨_, _, _, _, _, h8⟩ := w.node hj
    rw [h4.attrs] at ha
    rw [h8.attrs] at hb
    obtain ⟨_, _, rfl⟩ := List.mem_map.1 ha
    obtain ⟨_, _, rfl⟩ := List.mem_map.1 hb
    cases w.apart _ _ he
  · intro x hx e he
    obtain ⟨k, nd, hk, _, h3, _, h4⟩ := w.mem_node hx
    obtain ⟨q, hq, h5, _⟩ := h4.eqs.mem_right he
    exact ⟨w.resolved h4 h5, w.ruleKind h3 hq h5⟩
  · intro x hx e he d hd _
    obtain ⟨k, nd, hk, _, h3, _, h4⟩ := w.mem_node hx
    obtain ⟨q, hq, _, h6⟩ := h4.eqs.mem_right he
    obtain ⟨r, _, h7⟩ := h6.mem_right hd
    exact w.resolved h4 h7

theorem classic (w : World addr A attrs env members S) : Spec.Evaluator.Classic S := by
  constructor
  · intro x hx e he d hd
    obtain ⟨k, nd, hk, _, h3, _, h4⟩ := w.mem_node hx
    obtain ⟨q, hq, _, h6⟩ := h4.eqs.mem_right he
    obtain ⟨r, _, h7⟩ := h6.mem_right hd
    exact w.resolved h4 h7
  · intro s hs m hm a ha
    obtain ⟨k, hk, hs', h4⟩ := w.mem_set hs
    obtain ⟨j, hj, hmem⟩ := (w.member_mem hs' m).1 hm
    rw [h4.attrs] at ha
    obtain ⟨b, hb, rfl⟩ := List.mem_map.1 ha
    obtain ⟨c, hc, h5, h6, h7, _⟩ := w.same k hk b hb j hmem
    obtain ⟨_, _, _, rfl, _, h8⟩ := w.node hj
    refine ⟨iAttr addr (.node j) c, by rw [h8.attrs]; exact List.mem_map.2 ⟨c, hc, rfl⟩, ?_, h6, h7⟩
    simp only [iAttr, h5]

theorem equipped (w : World addr A attrs env members S) (hk : OneKind A) : Spec.Evaluate.Equipped S := by
  have one : ∀ {P : Parse.Attr → Prop}, (∀ a, P a → ¬ (a.inherited = true ∧ a.synthesized = true)) → ∀ {t : Target} {l : List Propagate.Attr}, (∀ b ∈ l, ∃ a, P a ∧ Like a b) →
      ∀ x ∈ l.map (iAttr addr t), ¬ (x.inh = true ∧ x.syn = true) := by
    intro P hP t l hl x hx
    obtain ⟨b, hb, rfl⟩ := List.mem_map.1 hx
    obtain ⟨a, ha, h⟩ := hl b hb
    rw [show (iAttr addr t b).inh = a.inherited from h.inh, show (iAttr addr t b).syn = a.synthesized from h.syn]
    exact hP a ha
  constructor
  · rw [Schedule.attributes, List.map_append, List.nodup_append]
    have attrN : ∀ {k x}, S.nodes[k]? = some x → ∀ a ∈ x.attrs, ∃ n, a.addr = addr (.attr (.node k) n) := by
      intro k x hx a ha
      obtain ⟨_, _, _, _, _, h8⟩ := w.node hx
      rw [h8.attrs] at ha
      obtain ⟨b, _, rfl⟩ := List.mem_map.1 ha
      exact ⟨b.name, rfl⟩
    have attrS : ∀ {k x}, S.sets[k]? = some x → ∀ a ∈ x.attrs, ∃ n, a.addr = addr (.attr (.set k) n) := by
      intro k x hx a ha
      rw [(w.set hx).2.attrs] at ha
      obtain ⟨b, _, rfl⟩ := List.mem_map.1 ha
      exact ⟨b.name, rfl⟩
    refine ⟨?_, ?_, ?_⟩
    · rw [List.Nodup, List.pairwise_map, List.pairwise_flatMap]
      refine ⟨fun x hx => ?_, pairwise_get fun i j a b hij hi hj x hx y hy he => ?_⟩
      · have := w.checked.nodeAttrs x hx
        rw [List.Nodup, List.pairwise_map] at this
        exact this
      · obtain ⟨n, h1⟩ := attrN hi x hx
        obtain ⟨m, h2⟩ := attrN hj y hy
        rw [h1, h2] at he
        have := w.apart _ _ he
        simp only [Loc.attr.injEq, Target.node.injEq] at this
        omega
    · rw [List.Nodup, List.pairwise_map, List.pairwise_flatMap]
      refine ⟨fun x hx => ?_, pairwise_get fun i j a b hij hi hj x hx y hy he => ?_⟩
      · have := w.checked.setAttrs x hx
        rw [List.Nodup, List.pairwise_map] at this
        exact this
      · obtain ⟨n, h1⟩ := attrS hi x hx
        obtain ⟨m, h2⟩ := attrS hj y hy
        rw [h1, h2] at he
        have := w.apart _ _ he
        simp only [Loc.attr.injEq, Target.set.injEq] at this
        omega
    · intro a ha b hb he
      obtain ⟨x, hx, rfl⟩ := List.mem_map.1 ha
      obtain ⟨y, hy, rfl⟩ := List.mem_map.1 hb
      obtain ⟨n, hn, hx⟩ := List.mem_flatMap.1 hx
      obtain ⟨s, hs, hy⟩ := List.mem_flatMap.1 hy
      obtain ⟨k, hk⟩ := List.getElem?_of_mem hn
      obtain ⟨j, hj⟩ := List.getElem?_of_mem hs
      obtain ⟨n, h1⟩ := attrN hk x hx
      obtain ⟨m, h2⟩ := attrS hj y hy
      rw [h1, h2] at he
      cases w.apart _ _ he
  · intro a ha
    rw [Schedule.attributes, List.mem_append] at ha
    rcases ha with ha | ha
    · obtain ⟨x, hx, ha⟩ := List.mem_flatMap.1 ha
      obtain ⟨k, nd, hk', _, _, h3, h4⟩ := w.mem_node hx
      rw [h4.attrs, h3] at ha
      refine one (P := NodeAttr A k) (fun a ha => ?_) (w.nodeAttrs k hk').2 a ha
      cases ha with
      | own h1 h2 => exact hk.1 _ (List.mem_of_getElem? h1) a h2
      | member h1 h2 _ => exact hk.2 _ (List.mem_of_getElem? h1) a h2
    · obtain ⟨x, hx, ha⟩ := List.mem_flatMap.1 ha
      obtain ⟨k, hk', _, h4⟩ := w.mem_set hx
      rw [h4.attrs] at ha
      refine one (P := SetAttr A k) (fun a ha => ?_) (w.setAttrs k hk').2 a ha
      cases ha with
      | own h1 h2 => exact hk.2 _ (List.mem_of_getElem? h1) a h2
      | named h1 h2 _ => exact hk.2 _ (List.mem_of_getElem? h1) a h2
  · intro x hx a ha hs
    obtain ⟨k, nd, hk', _, h2, h3, h4⟩ := w.mem_node hx
    rw [h4.attrs] at ha
    obtain ⟨b, hb, rfl⟩ := List.mem_map.1 ha
    obtain ⟨e, he, hr⟩ := (w.ok nd (List.mem_of_getElem? h2)).syn b hb hs
    obtain ⟨y, hy, h5, _⟩ := h4.eqs.mem_left he
    refine ⟨y, hy, ?_⟩
    obtain ⟨rule, args⟩ := y
    simp only at h5
    cases h5 with
    | this h =>
      cases h with
      | this _ _ hn =>
        rw [hr] at hn
        simp only [Spec.Induce.place, Option.getD_none, iAttr, hn]
    | child h _ =>
      cases h with
      | child h1 => rw [hr] at h1; cases h1
  · intro x hx c hc
    obtain ⟨k, nd, hk', _, h2, h3, h4⟩ := w.mem_node hx
    obtain ⟨d, hd, t, ht, rfl⟩ := h4.children.mem_right hc
    obtain ⟨l, hl⟩ := w.typed nd (List.mem_of_getElem? h2) d hd
    have key : ∀ b ∈ l, b.inh = true → ∃ q, Spec.Evaluate.For x (addr (.child k d.name), (iAttr addr t b).addr) q := by
      intro b hb hi
      obtain ⟨e, he, hr⟩ := (w.ok nd (List.mem_of_getElem? h2)).inh d hd l hl b hb hi
      obtain ⟨y, hy, h5, _⟩ := h4.eqs.mem_left he
      refine ⟨y, hy, ?_⟩
      obtain ⟨rule, args⟩ := y
      simp only at h5
      cases h5 with
      | this h =>
        cases h with
        | this h1 _ _ => rw [hr] at h1; cases h1
      | @child d' t' a' h ht' =>
        cases h with
        | child h1 hd' _ _ hn =>
          rw [hr] at h1 hn
          obtain rfl := ProductRules.nodup_eq (w.named.children nd (List.mem_of_getElem? h2)) hd hd' (Option.some.inj h1)
          rw [ht] at ht'
          cases ht'
          simp only [Spec.Induce.place, Option.getD_some, iAttr, hn]
    rcases w.typeOf ht hl with ⟨j, m, rfl, g1, g2, g3⟩ | ⟨j, m, rfl, g1, g2, g3⟩
    · constructor
      · intro m' hm' he a ha hi
        obtain ⟨j', hj'⟩ := List.getElem?_of_mem hm'
        obtain rfl := w.node_inj hj' g1 (he.trans g2.symm)
        rw [g1] at hj'
        cases hj'
        rw [g3] at ha
        obtain ⟨b, hb, rfl⟩ := List.mem_map.1 ha
        exact key b hb hi
      · intro s hs he
        obtain ⟨_, _, _, h6⟩ := w.mem_set hs
        rw [h6.self] at he
        cases w.apart _ _ he
    · constructor
      · intro m' hm' he
        obtain ⟨_, _, _, _, _, _, h6⟩ := w.mem_node hm'
        rw [h6.self] at he
        cases w.apart _ _ he
      · intro m' hm' he a ha hi
        obtain ⟨j', hj'⟩ := List.getElem?_of_mem hm'
        obtain rfl := w.set_inj hj' g1 (he.trans g2.symm)
        rw [g1] at hj'
        cases hj'
        rw [g3] at ha
        obtain ⟨b, hb, rfl⟩ := List.mem_map.1 ha
        exact key b hb hi

theorem attrsAs {addr : Loc → Nat} {P : Parse.Attr → Prop} {t : Target} {l : List Propagate.Attr}
    (h : (∀ a, P a → ∃ b ∈ l, Like a b) ∧ ∀ b ∈ l, ∃ a, P a ∧ Like a b) : AttrsAs P (l.map (iAttr addr t)) := by
  have key : ∀ {a b}, Like a b → AttrAs a (iAttr addr t b) := fun h =>
    ⟨by simp only [iAttr, h.name, decode_code]; rfl, h.inh, h.syn⟩
  constructor
  · intro a ha
    obtain ⟨b, hb, hl⟩ := h.1 a ha
    exact ⟨_, List.mem_map.2 ⟨b, hb, rfl⟩, key hl⟩
  · intro x hx
    obtain ⟨b, hb, rfl⟩ := List.mem_map.1 hx
    obtain ⟨a, ha, hl⟩ := h.2 b hb
    exact ⟨a, ha, key hl⟩

theorem describes (w : World addr A attrs env members S) : Describes A S := by
  refine ⟨w.nodeLength, w.setLength, fun k n x hn hx => ?_, fun k x hx => ?_⟩
  · obtain ⟨n', nd, h1, h2, h3, h4⟩ := w.node hx
    rw [hn] at h1
    cases h1
    have hcp := h4.children
    have hep := h4.eqs
    rw [h2] at hcp hep
    have hch := pairs_map_left hcp
    have hch2 : Pairs (fun (a : Parse.Child) b => ChildSt addr env k ⟨code (idOf a.name).lwr, code (idOf a.type).lwr⟩ b)
      n.children x.children := hch
    have ref : ∀ (r : Parse.Ref) y, RefSt addr env k nd (refOf r) y → RefAs n x r y := by
      intro r y h
      cases h with
      | this h =>
        cases h with
        | this hi _ hn =>
          refine ⟨?_, ?_⟩
          · simp only [iAttr, hn, refOf, decode_code]; rfl
          · simp only [refOf, Option.map_eq_none_iff] at hi
            rw [hi]
      | @child c t a h ht =>
        cases h with
        | child hi hc _ _ hn =>
          refine ⟨?_, ?_⟩
          · simp only [iAttr, hn, refOf, decode_code]; rfl
          · simp only [refOf, Option.map_eq_some_iff] at hi
            obtain ⟨nm, g1, g2⟩ := hi
            rw [g1]
            rw [h2] at hc
            obtain ⟨j, hj⟩ := List.getElem?_of_mem hc
            simp only [List.getElem?_map, Option.map_eq_some_iff] at hj
            obtain ⟨ch, g3, rfl⟩ := hj
            obtain ⟨xc, g4, t', g5, rfl⟩ := hch2.left g3
            exact ⟨j, ch, _, g3, g4, Eq.symm (lwr_code.1 g2), rfl⟩
    constructor
    · refine hch2.imp fun a b ha hb h => ?_
      obtain ⟨t, ht, rfl⟩ := h
      obtain ⟨tab, hR, he⟩ := w.tab
      cases t with
      | node j =>
        have := target_node ht
        rw [he] at this
        obtain ⟨m, g1, g2⟩ := (hR.symNode _ j).1 this
        have hj : j < S.nodes.length := by rw [w.nodeLength]; exact (List.getElem?_eq_some_iff.1 g1).1
        have hx := List.getElem?_eq_getElem hj
        obtain ⟨_, _, _, _, _, h6⟩ := w.node hx
        exact Or.inl ⟨j, m, _, g1, g2, hx, h6.self⟩
      | set j =>
        have := target_set ht
        rw [he] at this
        obtain ⟨m, g1, g2⟩ := (hR.symSet _ j).1 this
        have hj : j < S.sets.length := by rw [w.setLength]; exact (List.getElem?_eq_some_iff.1 g1).1
        have hx := List.getElem?_eq_getElem hj
        exact Or.inr ⟨j, m, _, g1, g2, hx, (w.set hx).2.self⟩
    · refine (pairs_map_left hep).imp fun a b _ _ h => ⟨ref _ _ (by rw [h2]; exact h.1), ?_⟩
      exact (pairs_map_left h.2).imp fun r y _ _ hr => ref r y (by rw [h2]; exact hr)
    · rw [h4.attrs, h2]
      exact attrsAs (w.nodeAttrs k (List.getElem?_eq_some_iff.1 hn).1)
  · obtain ⟨hk, h⟩ := w.set hx
    refine ⟨w.member_mem hx, w.members_nodup hx, ?_⟩
    rw [h.attrs]
    exact attrsAs (w.setAttrs k hk)

end World

end Verif.Semantic
