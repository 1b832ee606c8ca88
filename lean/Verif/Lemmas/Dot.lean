import Verif.Lemmas.DotText
import Verif.Lemmas.UnwrapIds
import Verif.Lemmas.Described

/-!
# Lemmas about the diagram of an accepted description
-/

namespace Verif.Dot
open Verif.Str Verif.Ids Verif.Semantic Verif.Described
open Verif.Spec.Dot
open Verif.Spec.Str (lowerB SameName)
open Verif.Spec.Semantic (NodeAttr SetAttr Member TypesNamed Earlier)
open Verif.Propagate (Entry Target)

/-! ### Literals -/

theorem literals_of {addr : Loc → Nat} {fuel : Nat} {A : Parse.Ast} {o : Out} (h : checks addr fuel A = .ok o) :
    ∃ trees, literals o.tab fuel A = .ok trees ∧ ∀ i, o.members i = (preorder ((trees[i]?).getD .null)).map (entryOf o.tab) := by
  unfold checks at h
  obtain ⟨tab, _, h⟩ := Res.bind_eq_ok.1 h
  obtain ⟨o1, _, h⟩ := Res.bind_eq_ok.1 h
  obtain ⟨s1, _, h⟩ := Res.bind_eq_ok.1 h
  obtain ⟨_, _, h⟩ := Res.bind_eq_ok.1 h
  obtain ⟨⟨qs, st⟩, h1, h⟩ := Res.bind_eq_ok.1 h
  obtain ⟨trees, h2, h⟩ := Res.bind_eq_ok.1 h
  obtain ⟨s2, _, h⟩ := Res.bind_eq_ok.1 h
  obtain ⟨_, _, h⟩ := Res.bind_eq_ok.1 h
  obtain ⟨_, _, h⟩ := Res.bind_eq_ok.1 h
  obtain ⟨s3, _, h⟩ := Res.bind_eq_ok.1 h
  obtain ⟨_, _, h⟩ := Res.bind_eq_ok.1 h
  obtain ⟨nodes, _, h⟩ := Res.bind_eq_ok.1 h
  obtain ⟨sets, _, h⟩ := Res.bind_eq_ok.1 h
  cases h
  refine ⟨trees, ?_, fun i => rfl⟩
  unfold literals
  exact Res.bind_eq_ok.2 ⟨_, h1, h2⟩

theorem of_expr {P : Id → Prop} : ∀ (e : Parse.SetE), (∀ i ∈ literal e, P (idOf i)) → Unwrap.Of P (exprOf e)
  | .lit l, h => by
    intro i hi
    obtain ⟨j, hj, rfl⟩ := List.mem_map.1 hi
    exact h j hj
  | .ref _, _ => trivial
  | .op .iunion l r, h => ⟨of_expr l fun i hi => h i (List.mem_append_left _ hi), of_expr r fun i hi => h i (List.mem_append_right _ hi)⟩
  | .op .intersect l r, h => ⟨of_expr l fun i hi => h i (List.mem_append_left _ hi), of_expr r fun i hi => h i (List.mem_append_right _ hi)⟩
  | .op .difference l r, h => ⟨of_expr l fun i hi => h i (List.mem_append_left _ hi), of_expr r fun i hi => h i (List.mem_append_right _ hi)⟩

theorem denotes_literal {p : CheckExist.Prog} : ∀ (e : Parse.SetE), Spec.CheckExist.ExprOk p (exprOf e) → ∀ i ∈ literal e,
    Spec.CheckExist.Denotes p (idOf i) .node
  | .lit l, h => fun i hi => h _ (List.mem_map.2 ⟨i, hi, rfl⟩)
  | .ref _, _ => fun i hi => by cases hi
  | .op .iunion l r, h => fun i hi => (List.mem_append.1 hi).elim (denotes_literal l h.1 i) (denotes_literal r h.2 i)
  | .op .intersect l r, h => fun i hi => (List.mem_append.1 hi).elim (denotes_literal l h.1 i) (denotes_literal r h.2 i)
  | .op .difference l r, h => fun i hi => (List.mem_append.1 hi).elim (denotes_literal l h.1 i) (denotes_literal r h.2 i)

theorem mem_from {P : Id → Prop} : ∀ {t : Sets.Tree}, Unwrap.From P t → ∀ i ∈ preorder t, P i
  | .null, _, i, hi => by cases hi
  | .node _ _ x l r, ⟨h1, h2, h3⟩, i, hi => by
    rcases List.mem_cons.1 hi with rfl | hi
    · exact h1
    · rcases List.mem_append.1 hi with hi | hi
      · exact mem_from h2 i hi
      · exact mem_from h3 i hi

theorem printed_perm : ∀ t : Sets.Tree, (printed t).Perm (preorder t)
  | .null => .refl _
  | .node _ _ _ l r => .cons _ (List.perm_append_comm.trans ((printed_perm l).append (printed_perm r)))

section
variable {A : Parse.Ast} {o : Out}

/-! ### Names -/

theorem sym_node (hr : Right A o.tab) {k : Nat} {n : Parse.Node} (h : A.nodes[k]? = some n) :
    stFind (n.name.orig.map lowerB) o.tab = some ⟨.node, k⟩ := (hr.table.node _ k).2 ⟨n, h, rfl⟩

theorem sym_set (hr : Right A o.tab) {k : Nat} {s : Parse.NodeSet} (h : A.nodesets[k]? = some s) :
    stFind (s.name.orig.map lowerB) o.tab = some ⟨.nodeset, k⟩ := (hr.table.set _ k).2 ⟨s, h, rfl⟩

theorem node_inj (hr : Right A o.tab) {i k : Nat} {m n : Parse.Node} (h : A.nodes[i]? = some m) (h' : A.nodes[k]? = some n)
    (e : SameName m.name.orig n.name.orig) : i = k := by
  have h1 := sym_node hr h
  rw [show m.name.orig.map lowerB = _ from e, sym_node hr h'] at h1
  cases h1
  rfl

theorem set_inj (hr : Right A o.tab) {i k : Nat} {m n : Parse.NodeSet} (h : A.nodesets[i]? = some m) (h' : A.nodesets[k]? = some n)
    (e : SameName m.name.orig n.name.orig) : i = k := by
  have h1 := sym_set hr h
  rw [show m.name.orig.map lowerB = _ from e, sym_set hr h'] at h1
  cases h1
  rfl

theorem declared_inj (hr : Right A o.tab) {v w : CStr} (hv : Declared A v) (hw : Declared A w) (e : SameName v w) : v = w := by
  rcases hv with ⟨m, hm, rfl⟩ | ⟨m, hm, rfl⟩
  · obtain ⟨i, hi⟩ := List.getElem?_of_mem hm
    rcases hw with ⟨n, hn, rfl⟩ | ⟨n, hn, rfl⟩
    · obtain ⟨k, hk⟩ := List.getElem?_of_mem hn
      cases node_inj hr hi hk e
      cases hi.symm.trans hk
      rfl
    · obtain ⟨k, hk⟩ := List.getElem?_of_mem hn
      have h1 := sym_node hr hi
      rw [show m.name.orig.map lowerB = _ from e, sym_set hr hk] at h1
      cases h1
  · obtain ⟨i, hi⟩ := List.getElem?_of_mem hm
    rcases hw with ⟨n, hn, rfl⟩ | ⟨n, hn, rfl⟩
    · obtain ⟨k, hk⟩ := List.getElem?_of_mem hn
      have h1 := sym_set hr hi
      rw [show m.name.orig.map lowerB = _ from e, sym_node hr hk] at h1
      cases h1
    · obtain ⟨k, hk⟩ := List.getElem?_of_mem hn
      cases set_inj hr hi hk e
      cases hi.symm.trans hk
      rfl

theorem denotes_node (hr : Right A o.tab) {r : Parse.Name} (h : Spec.CheckExist.Denotes (progOf A) (idOf r) .node) :
    ∃ n ∈ A.nodes, SameName n.name.orig r.orig := by
  obtain ⟨x, hx, hs, hk⟩ := h
  have := (table_key hr.bst r.orig x.2).2 ⟨x, hx, hs, rfl⟩
  obtain ⟨n, h1, h2⟩ := (hr.table.node r.orig x.2.index).1 (by rw [this, ← hk])
  exact ⟨n, List.mem_of_getElem? h1, h2⟩

theorem denotes_set (hr : Right A o.tab) {r : Parse.Name} (h : Spec.CheckExist.Denotes (progOf A) (idOf r) .nodeset) :
    ∃ n ∈ A.nodesets, SameName n.name.orig r.orig := by
  obtain ⟨x, hx, hs, hk⟩ := h
  have := (table_key hr.bst r.orig x.2).2 ⟨x, hx, hs, rfl⟩
  obtain ⟨n, h1, h2⟩ := (hr.table.set r.orig x.2.index).1 (by rw [this, ← hk])
  exact ⟨n, List.mem_of_getElem? h1, h2⟩

theorem denotes_declared (hr : Right A o.tab) {r : Parse.Name}
    (h : Spec.CheckExist.Denotes (progOf A) (idOf r) .node ∨ Spec.CheckExist.Denotes (progOf A) (idOf r) .nodeset) :
    ∃ v, Declared A v ∧ SameName v r.orig := by
  rcases h with h | h
  · obtain ⟨n, h1, h2⟩ := denotes_node hr h
    exact ⟨_, .inl ⟨n, h1, rfl⟩, h2⟩
  · obtain ⟨n, h1, h2⟩ := denotes_set hr h
    exact ⟨_, .inr ⟨n, h1, rfl⟩, h2⟩

theorem name_declared (hw : Worded A) {v : CStr} (h : Declared A v) : Name v := by
  rcases h with ⟨n, hn, rfl⟩ | ⟨s, hs, rfl⟩
  · exact hw.nodes n hn
  · exact hw.sets s hs

/-! ### Children -/

theorem child_target (hr : Right A o.tab) (hs : Spelled A) {n : Parse.Node} (hn : n ∈ A.nodes) {c : Parse.Child} (hc : c ∈ n.children) :
    Declared A c.type.orig := by
  have h := (hr.sound.fields ⟨idOf n.name, n.root, n.children.map childOf, n.attrs.map attrOf⟩
    (List.mem_map.2 ⟨n, hn, rfl⟩)).2.2 _ (List.mem_map.2 ⟨c, hc, rfl⟩) _ rfl
  obtain ⟨v, h1, h2⟩ := denotes_declared hr h
  rw [hs.children n hn c hc v h1 h2]
  exact h1

theorem child_names (hr : Right A o.tab) {n : Parse.Node} (hn : n ∈ A.nodes) : n.children.Pairwise fun a b => a.name.orig ≠ b.name.orig := by
  have h := (hr.sound.fields ⟨idOf n.name, n.root, n.children.map childOf, n.attrs.map attrOf⟩ (List.mem_map.2 ⟨n, hn, rfl⟩)).1
  rw [Spec.CheckExist.Distinct, List.pairwise_append] at h
  have h2 := h.2.1
  simp only [List.pairwise_map] at h2
  exact h2.imp fun h e => h (congrArg (List.map lowerB) e)

/-! ### Attributes -/

theorem spelled_attr (hs : Spelled A) {k : Nat} {a : Parse.Attr} (h : NodeAttr A k a) {r : Parse.Name} (hr : a.ref = some r) {v : CStr}
    (hv : Declared A v) (e : SameName v r.orig) : r.orig = v := by
  cases h with
  | own h1 h2 => exact hs.attrs _ (List.mem_of_getElem? h1) a h2 r hr v hv e
  | member h1 h2 _ => exact hs.sattrs _ (List.mem_of_getElem? h1) a h2 r hr v hv e

theorem worded_attr (hw : Worded A) {k : Nat} {a : Parse.Attr} (h : NodeAttr A k a) : Word a.name.orig := by
  cases h with
  | own h1 h2 => exact hw.attrs _ (List.mem_of_getElem? h1) a h2
  | member h1 h2 _ => exact hw.sattrs _ (List.mem_of_getElem? h1) a h2

/-- The line of an attribute. -/
theorem attr_line (kn : Known A o) (hs : Spelled A) {k : Nat} {n : Parse.Node} (hn : A.nodes[k]? = some n) {b : Propagate.Attr}
    (hb : b ∈ o.attrs (.node k)) (hl : b.type = .link) :
    ∃ a, NodeAttr A k a ∧ Refers A a (decode b.ref) ∧ decode b.orig = a.name.orig ∧ b.name = code (a.name.orig.map lowerB) := by
  obtain ⟨a, ha, hf⟩ := from_node kn hn hb
  obtain ⟨h1, r, h2, h3⟩ := hf.typed.link hl
  obtain ⟨v, h4, h5⟩ := denotes_declared kn.facts.right h3
  have e := spelled_attr hs ha h2 h4 h5
  refine ⟨a, ha, ⟨h1, ?_, r, h2, ?_⟩, by rw [hf.kept.orig, decode_code], hf.like.name⟩
  · rw [hf.typed.ref r h2, decode_code, e]; exact h4
  · rw [hf.typed.ref r h2, decode_code]; rfl

/-- An attribute that refers to something is a link. -/
theorem link_of (hr : Right A o.tab) {a : Parse.Attr} {b : Propagate.Attr} (h : From A a b) {v : CStr} (hv : Refers A a v) : b.type = .link := by
  obtain ⟨h1, h2, r, h3, h4⟩ := hv
  have h5 := (attrAs hr h).type.link h1 r h3 (by
    rcases h2 with ⟨n, hn, rfl⟩ | ⟨n, hn, rfl⟩
    · exact .inl ⟨n, hn, h4⟩
    · exact .inr ⟨n, hn, h4⟩)
  cases hb : b.type with
  | link => rfl
  | linkOrEnum => simp [attrGen, hb] at h5
  | user => simp [attrGen, hb] at h5
  | basic t =>
    exact absurd h1 (h.typed.basic t hb).2.2

theorem own_from (kn : Known A o) {k : Nat} {n : Parse.Node} (hn : A.nodes[k]? = some n) {a : Parse.Attr} (ha : a ∈ n.attrs) :
    ∃ b ∈ o.attrs (.node k), From A a b := by
  obtain ⟨b, hb, h1, h2⟩ := kn.facts.ownNode k n hn a ha
  have hm := List.mem_of_getElem? hn
  exact ⟨b, hb, h1, h2, h2.typed (ok_node kn.facts.right hm ha) (kn.types.nodes _ hm a ha), ok_node kn.facts.right hm ha⟩

theorem handed_from (kn : Known A o) {i k : Nat} {s : Parse.NodeSet} (hs : A.nodesets[i]? = some s) {a : Parse.Attr} (ha : a ∈ s.attrs)
    (hm : Member A i k) {v : CStr} (hv : Refers A a v) : ∃ b ∈ o.attrs (.node k), b.type = .link ∧ b.name = code (a.name.orig.map lowerB) := by
  obtain ⟨c, hc, h1, h2⟩ := kn.facts.ownSet i s hs a ha
  have hms := List.mem_of_getElem? hs
  have hf : From A a c := ⟨h1, h2, h2.typed (ok_set kn.facts.right hms ha) (kn.types.sets _ hms a ha), ok_set kn.facts.right hms ha⟩
  obtain ⟨b, hb, e1, _, _, e2⟩ := kn.same i (List.getElem?_eq_some_iff.1 hs).1 c hc k hm
  exact ⟨b, hb, by rw [e2, link_of kn.facts.right hf hv], by rw [e1]; exact h1.name⟩

/-! ### Members -/

/-- An identifier in a literal. -/
def InLit (A : Parse.Ast) (i : Id) : Prop := i.lwr = i.orig.map lowerB ∧ ∃ n ∈ A.nodes, i.orig = n.name.orig

theorem lits_of (hr : Right A o.tab) (hs : Spelled A) {fuel : Nat} {trees : List Sets.Tree} (h : literals o.tab fuel A = .ok trees) :
    trees.length = A.nodesets.length ∧ ∀ t ∈ trees, Unwrap.From (InLit A) t := by
  have key : ∀ (i : Parse.Name), Spec.CheckExist.Denotes (progOf A) (idOf i) .node → (∀ v, Declared A v → SameName v i.orig → i.orig = v) →
      InLit A (idOf i) := by
    intro i h1 h2
    obtain ⟨n, h3, h4⟩ := denotes_node hr h1
    exact ⟨rfl, n, h3, h2 _ (.inl ⟨n, h3, rfl⟩) h4⟩
  unfold literals at h
  obtain ⟨⟨qs, st⟩, h1, h2⟩ := Res.bind_eq_ok.1 h
  have := Unwrap.trees_all (Unwrap.USE_all (P := InLit A) ?_ ?_ h1) h2
  · rw [List.length_range] at this
    exact this
  · intro e he
    obtain ⟨s, hsm, rfl⟩ := List.mem_map.1 he
    refine of_expr _ fun i hi => key i ?_ (hs.sets s hsm i hi)
    exact denotes_literal _ (hr.sound.setExprs ⟨idOf s.name, some (exprOf s.expr), s.attrs.map attrOf⟩ (List.mem_map.2 ⟨s, hsm, rfl⟩) _ rfl) i hi
  · intro e he
    obtain ⟨x, hx, he⟩ := List.mem_filterMap.1 he
    obtain ⟨y, hy, rfl⟩ := Option.map_eq_some_iff.1 he
    refine of_expr _ fun i hi => key i ?_ (hs.travs x hx y hy i hi)
    exact denotes_literal _ (hr.sound.travNodes ⟨idOf x.name, some (idOf x.uid), x.nodes.map exprOf, x.data.map dataOf⟩
      (List.mem_map.2 ⟨x, hx, rfl⟩) _ (by simp [hy])) i hi

/-- What a nodeset has in its literal. -/
structure Lit (A : Parse.Ast) (i : Nat) (t : Sets.Tree) : Prop where
  mem : ∀ x ∈ printed t, ∃ k n, A.nodes[k]? = some n ∧ Member A i k ∧ x.orig = n.name.orig
  all : ∀ k n, A.nodes[k]? = some n → Member A i k → ∃ x ∈ printed t, x.orig = n.name.orig
  once : (printed t).Pairwise fun x y => x.orig ≠ y.orig

theorem entry_node (hr : Right A o.tab) {x : Id} (hx : InLit A x) {k : Nat} :
    entryOf o.tab x = .node k ↔ ∃ n, A.nodes[k]? = some n ∧ x.orig = n.name.orig := by
  obtain ⟨hl, m, hm, he⟩ := hx
  obtain ⟨j, hj⟩ := List.getElem?_of_mem hm
  have h1 : entryOf o.tab x = .node j := by
    unfold entryOf
    rw [hl, he, sym_node hr hj]
  rw [h1]
  constructor
  · intro h; cases h; exact ⟨m, hj, he⟩
  · rintro ⟨n, hn, h2⟩
    rw [he] at h2
    have := node_inj hr hj hn (congrArg (List.map lowerB) h2)
    rw [this]

theorem lit_of (kn : Known A o) {i : Nat} (hi : i < A.nodesets.length) {t : Sets.Tree} (ht : Unwrap.From (InLit A) t)
    (hm : o.members i = (preorder t).map (entryOf o.tab)) : Lit A i t := by
  have hr := kn.facts.right
  obtain ⟨h1, h2⟩ := kn.member i hi
  have hp := printed_perm t
  refine ⟨fun x hx => ?_, fun k n hn hk => ?_, ?_⟩
  · have hx' := hp.mem_iff.1 hx
    have hx1 := mem_from ht x hx'
    obtain ⟨_, m, hmn, he⟩ := hx1
    obtain ⟨j, hj⟩ := List.getElem?_of_mem hmn
    refine ⟨j, m, hj, (h2 j).1 ?_, he⟩
    rw [hm, ← (entry_node hr (mem_from ht x hx')).2 ⟨m, hj, he⟩]
    exact List.mem_map.2 ⟨x, hx', rfl⟩
  · have := (h2 k).2 hk
    rw [hm] at this
    obtain ⟨x, hx, he⟩ := List.mem_map.1 this
    obtain ⟨n', hn', e⟩ := (entry_node hr (mem_from ht x hx)).1 he
    cases hn.symm.trans hn'
    exact ⟨x, hp.mem_iff.2 hx, e⟩
  · rw [hm, List.Nodup, List.pairwise_map] at h1
    have h3 : (preorder t).Pairwise fun x y => x.orig ≠ y.orig := by
      refine List.Pairwise.imp_of_mem ?_ h1
      intro x y hx hy hne e
      refine hne ?_
      unfold entryOf
      rw [(mem_from ht x hx).1, (mem_from ht y hy).1, e]
    exact hp.symm.pairwise h3 (fun h e => h e.symm)

end

end Verif.Dot
