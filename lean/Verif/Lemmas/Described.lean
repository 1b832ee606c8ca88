import Verif.Model.Described
import Verif.Spec.Described
import Verif.Lemmas.SemanticMain
import Verif.Lemmas.NodeGenTrav

/-!
# Lemmas about the generated nodes of a description
-/

namespace Verif.Described
open Verif.Str Verif.Ids Verif.Semantic
open Verif.Spec.Str (lowerB upperB SameName)
open Verif.Spec.Ids
open Verif.Spec.Semantic (NodeAttr SetAttr Member TypesNamed Earlier)
open Verif.Spec.Described
open Verif.Propagate (Entry Target)

/-- What is known after the checks. -/
structure Known (A : Parse.Ast) (o : Out) : Prop where
  types : TypesNamed A
  facts : Facts A o
  nodeNames : ∀ k, k < A.nodes.length → ((o.attrs (.node k)).map (·.name)).Nodup
  setNames : ∀ k, k < A.nodesets.length → ((o.attrs (.set k)).map (·.name)).Nodup
  nodeAttrs : ∀ k, k < A.nodes.length → ∀ a, NodeAttr A k a → ∃ b ∈ o.attrs (.node k), Like a b
  setAttrs : ∀ k, k < A.nodesets.length → ∀ a, SetAttr A k a → ∃ b ∈ o.attrs (.set k), Like a b
  same : ∀ i, i < A.nodesets.length → ∀ b ∈ o.attrs (.set i), ∀ k, Member A i k → ∃ c ∈ o.attrs (.node k), c.name = b.name ∧
    c.inh = b.inh ∧ c.syn = b.syn ∧ c.type = b.type
  member : ∀ i, i < A.nodesets.length → (o.members i).Nodup ∧ ∀ k, Entry.node k ∈ o.members i ↔ Member A i k

theorem known_of {addr : Loc → Nat} {A : Parse.Ast} (ha : Spec.Semantic.Apart addr) (hp : TypesNamed A) (he : Earlier A) {fuel : Nat} {o : Out}
    (h : checks addr fuel A = .ok o) (h0 : o.errors = 0) : Known A o := by
  obtain ⟨hf, hw⟩ := checks_facts ha hp he h
  have w := hw h0
  refine ⟨hp, hf, fun k hk => ?_, fun k hk => ?_, fun k hk => (w.nodeAttrs k hk).1, fun k hk => (w.setAttrs k hk).1, w.same, w.member⟩
  · obtain ⟨n, hn⟩ : ∃ n, A.nodes[k]? = some n := ⟨_, List.getElem?_eq_getElem hk⟩
    have hm : (cprEnv A o.tab o.attrs).nodes[k]? = some ⟨n.children.map fun c => ⟨code (idOf c.name).lwr, code (idOf c.type).lwr⟩,
        o.attrs (.node k), n.equations.map eqnOf⟩ := by
      rw [cprEnv]
      simp [hn]
    exact w.named.attrs _ (List.mem_of_getElem? hm)
  · have hm : (cprEnv A o.tab o.attrs).sets[k]? = some (o.attrs (.set k)) := by
      rw [cprEnv]
      simp [hk]
    exact w.named.sets _ (List.mem_of_getElem? hm)

theorem idText_code (s : CStr) : idText (code s) = ⟨s, s.map lowerB, s.map upperB⟩ := by
  rw [idText, decode_code]
  rfl

theorem basicOf_prim {t : Parse.AT} (h1 : t ≠ .user) (h2 : t ≠ .link_or_enum) : basicOf (primOf t) = cType t := by
  cases t <;> first | rfl | exact absurd rfl h1 | exact absurd rfl h2

section
variable {A : Parse.Ast} {o : Out}

/-! ### Attributes -/

/-- The attribute of the description behind one of a node or nodeset. -/
structure From (A : Parse.Ast) (a : Parse.Attr) (b : Propagate.Attr) : Prop where
  like : Like a b
  kept : Kept (progOf A) a b
  typed : TypeKept (progOf A) a b
  ok : Spec.CheckExist.AttrOk (progOf A) (attrOf a)

theorem ok_node (hr : Right A o.tab) {n : Parse.Node} (hn : n ∈ A.nodes) {a : Parse.Attr} (ha : a ∈ n.attrs) :
    Spec.CheckExist.AttrOk (progOf A) (attrOf a) :=
  (hr.sound.fields ⟨idOf n.name, n.root, n.children.map childOf, n.attrs.map attrOf⟩
    (List.mem_map.2 ⟨n, hn, rfl⟩)).2.1 _ (List.mem_map.2 ⟨a, ha, rfl⟩)

theorem ok_set (hr : Right A o.tab) {n : Parse.NodeSet} (hn : n ∈ A.nodesets) {a : Parse.Attr} (ha : a ∈ n.attrs) :
    Spec.CheckExist.AttrOk (progOf A) (attrOf a) :=
  (hr.sound.setAttrs ⟨idOf n.name, some (exprOf n.expr), n.attrs.map attrOf⟩
    (List.mem_map.2 ⟨n, hn, rfl⟩)).2 _ (List.mem_map.2 ⟨a, ha, rfl⟩)

theorem from_node (h : Known A o) {k : Nat} {n : Parse.Node} (hn : A.nodes[k]? = some n) {b : Propagate.Attr} (hb : b ∈ o.attrs (.node k)) :
    ∃ a, NodeAttr A k a ∧ From A a b := by
  obtain ⟨a, ha, hl, hk⟩ := h.facts.nodeKept k (List.getElem?_eq_some_iff.1 hn).1 b hb
  refine ⟨a, ha, hl, hk, ?_, ?_⟩
  · cases ha with
    | own h1 h2 => exact hk.typed (ok_node h.facts.right (List.mem_of_getElem? h1) h2) (h.types.nodes _ (List.mem_of_getElem? h1) a h2)
    | member h1 h2 _ => exact hk.typed (ok_set h.facts.right (List.mem_of_getElem? h1) h2) (h.types.sets _ (List.mem_of_getElem? h1) a h2)
  · cases ha with
    | own h1 h2 => exact ok_node h.facts.right (List.mem_of_getElem? h1) h2
    | member h1 h2 _ => exact ok_set h.facts.right (List.mem_of_getElem? h1) h2

theorem from_set (h : Known A o) {k : Nat} {s : Parse.NodeSet} (hn : A.nodesets[k]? = some s) {b : Propagate.Attr}
    (hb : b ∈ o.attrs (.set k)) : ∃ a, SetAttr A k a ∧ From A a b := by
  obtain ⟨a, ha, hl, hk⟩ := h.facts.setKept k (List.getElem?_eq_some_iff.1 hn).1 b hb
  refine ⟨a, ha, hl, hk, ?_, ?_⟩
  · cases ha with
    | own h1 h2 => exact hk.typed (ok_set h.facts.right (List.mem_of_getElem? h1) h2) (h.types.sets _ (List.mem_of_getElem? h1) a h2)
    | named h1 h2 _ => exact hk.typed (ok_set h.facts.right (List.mem_of_getElem? h1) h2) (h.types.sets _ (List.mem_of_getElem? h1) a h2)
  · cases ha with
    | own h1 h2 => exact ok_set h.facts.right (List.mem_of_getElem? h1) h2
    | named h1 h2 _ => exact ok_set h.facts.right (List.mem_of_getElem? h1) h2

theorem gen_name {a : Parse.Attr} {b : Propagate.Attr} (h : From A a b) : (attrGen b).name = idOf a.name := by
  rw [attrGen, h.kept.orig, idText_code]
  rfl

theorem gen_computed {a : Parse.Attr} {b : Propagate.Attr} (h : Like a b) : Spec.NodeGen.Computed (attrGen b) ↔ Computed a := by
  rw [Spec.NodeGen.Computed, Computed, attrGen, h.inh, h.syn]

/-- The names in the propagation are those of the generated attributes, in lower case. -/
theorem gen_code {a : Parse.Attr} {b : Propagate.Attr} (h : From A a b) : b.name = code ((attrGen b).name.orig.map lowerB) := by
  rw [gen_name h, h.like.name]
  rfl

/-- A generated attribute has the names of all attributes that it is like. -/
theorem gen_same {a a' : Parse.Attr} {b : Propagate.Attr} (h : From A a b) (hl : Like a' b) : SameName (attrGen b).name.orig a'.name.orig := by
  have := gen_code h
  rw [hl.name] at this
  exact (code_inj this).symm

theorem upper_of_same {a b : List UInt8} (h : SameName a b) : a.map upperB = b.map upperB := by
  have : ∀ l : List UInt8, l.map upperB = (l.map lowerB).map upperB := by
    intro l
    rw [List.map_map]
    exact List.map_congr_left fun x _ => (upper_lower x).symm
  rw [this a, this b, show a.map lowerB = b.map lowerB from h]

theorem enum_declared (ast : Ast) (k : Nat) (n : Id) (h : ast.enums[k]? = some n) : (n, (⟨.enum, k⟩ : Decl)) ∈ declared ast := by
  have := Props.plain_mem .enum ast.enums 0 k n h
  rw [Nat.zero_add] at this
  simp only [declared, List.mem_append]
  exact Or.inr (Or.inr (Or.inr (Or.inr (Or.inr this))))

/-- What an attribute is in the generated program. -/
theorem attrAs (hr : Right A o.tab) {a : Parse.Attr} {b : Propagate.Attr} (h : From A a b) : AttrAs A a (attrGen b) := by
  have ht := h.typed
  have key := table_key hr.bst
  have nodeSym : ∀ {r : Parse.Name} {n : Parse.Node}, n ∈ A.nodes → SameName n.name.orig r.orig →
      ∃ k, stFind (r.orig.map lowerB) o.tab = some ⟨.node, k⟩ := by
    intro r n hn hs
    obtain ⟨k, hk⟩ := List.getElem?_of_mem hn
    exact ⟨k, (hr.table.node r.orig k).2 ⟨n, hk, hs⟩⟩
  have setSym : ∀ {r : Parse.Name} {n : Parse.NodeSet}, n ∈ A.nodesets → SameName n.name.orig r.orig →
      ∃ k, stFind (r.orig.map lowerB) o.tab = some ⟨.nodeset, k⟩ := by
    intro r n hn hs
    obtain ⟨k, hk⟩ := List.getElem?_of_mem hn
    exact ⟨k, (hr.table.set r.orig k).2 ⟨n, hk, hs⟩⟩
  have den : ∀ {r : Parse.Name} {kind : Kind}, Spec.CheckExist.Denotes (progOf A) (idOf r) kind →
      ∃ d, stFind (r.orig.map lowerB) o.tab = some d ∧ d.kind = kind := by
    rintro r kind ⟨x, hx, hs, hk⟩
    exact ⟨x.2, (key r.orig x.2).2 ⟨x, hx, hs, rfl⟩, hk⟩
  refine ⟨by rw [gen_name h]; rfl, h.kept.ctor, h.like.inh, h.like.syn, ?_, ?_, ?_, ?_⟩
  · intro ha r hra hor
    cases hb : b.type with
    | link => simp [attrGen, hb]
    | linkOrEnum =>
      obtain ⟨_, r', h1, h2⟩ := ht.enum hb
      cases hra.symm.trans h1
      obtain ⟨d, h3, h4⟩ := den h2
      rcases hor with ⟨n, hn, hs⟩ | ⟨n, hn, hs⟩
      · obtain ⟨k, h5⟩ := nodeSym hn hs
        rw [h3] at h5; cases h5; cases h4
      · obtain ⟨k, h5⟩ := setSym hn hs
        rw [h3] at h5; cases h5; cases h4
    | user => rw [ht.user.1 hb] at ha; cases ha
    | basic t => exact absurd ha (ht.basic t hb).2.2
  · intro ha r hra hor
    obtain ⟨e, he, hs⟩ := hor
    have enumSym : ∃ k, stFind (r.orig.map lowerB) o.tab = some ⟨.enum, k⟩ := by
      obtain ⟨k, hk⟩ := List.getElem?_of_mem he
      refine ⟨k, (key r.orig _).2 ⟨(idOf e.name, ⟨.enum, k⟩), ?_, hs, rfl⟩⟩
      have := enum_declared (progOf A).ids k (idOf e.name) (by simp [CheckExist.Prog.ids, progOf, hk])
      exact this
    obtain ⟨k, h5⟩ := enumSym
    cases hb : b.type with
    | link =>
      obtain ⟨_, r', h1, h2⟩ := ht.link hb
      cases hra.symm.trans h1
      rcases h2 with h2 | h2
      · obtain ⟨d, h3, h4⟩ := den h2
        rw [h3] at h5; cases h5; cases h4
      · obtain ⟨d, h3, h4⟩ := den h2
        rw [h3] at h5; cases h5; cases h4
    | linkOrEnum =>
      refine ⟨by simp [attrGen, hb], idText b.ref, by simp [attrGen, hb], ?_⟩
      rw [ht.ref r hra, idText_code]
    | user => rw [ht.user.1 hb] at ha; cases ha
    | basic t => exact absurd ha (ht.basic t hb).2.2
  · intro ha
    cases hb : b.type with
    | link => exact absurd (ht.link hb).1 ha
    | linkOrEnum => exact absurd (ht.enum hb).1 ha
    | user => simp [attrGen, hb, ht.user.1 hb, cType]
    | basic t =>
      obtain ⟨h1, h2, h3⟩ := ht.basic t hb
      simp only [attrGen, hb, h1]
      exact basicOf_prim h2 h3
  · intro ha r hra
    refine ⟨idText b.ref, by simp [attrGen, ht.user.2 ha], ?_⟩
    rw [ht.ref r hra, idText_code]

theorem attrOk {a : Parse.Attr} (hc : a.ctor = true → ¬ Computed a) {b : Propagate.Attr} (h : From A a b) : Spec.NodeGen.AttrOk (nodeProg A o) (attrGen b) := by
  refine ⟨by rw [gen_name h]; exact idOf_wf _, fun ht => ?_, fun ht => ?_, fun ht => ?_⟩
  · cases hb : b.type with
    | link => simp [attrGen, hb] at ht
    | user => simp [attrGen, hb] at ht
    | basic t =>
      obtain ⟨h1, h2, h3⟩ := h.typed.basic t hb
      simp only [attrGen, hb, h1, basicOf_prim h2 h3] at ht
      cases he : a.type <;> simp_all [cType]
    | linkOrEnum =>
      obtain ⟨_, r, h1, h2⟩ := h.typed.enum hb
      obtain ⟨e, he, hs⟩ := denotes_enum h2
      refine ⟨idText b.ref, by simp [attrGen, hb], ⟨rfl, rfl⟩, idOf e.name, List.mem_map.2 ⟨e, he, rfl⟩, ?_⟩
      rw [h.typed.ref r h1, idText_code]
      exact hs
  · cases hb : b.type with
    | link => simp [attrGen, hb] at ht
    | user => exact ⟨idText b.ref, by simp [attrGen, hb]⟩
    | linkOrEnum => simp [attrGen, hb] at ht
    | basic t =>
      obtain ⟨h1, h2, h3⟩ := h.typed.basic t hb
      simp only [attrGen, hb, h1, basicOf_prim h2 h3] at ht
      cases he : a.type <;> simp_all [cType]
  · rw [gen_computed h.like]
    exact hc (by rw [← h.kept.ctor]; exact ht)

theorem classic_node (hc : Classic A) {k : Nat} {a : Parse.Attr} (h : NodeAttr A k a) : a.ctor = true → ¬ Computed a := by
  cases h with
  | own h1 h2 => exact hc.nodes _ (List.mem_of_getElem? h1) a h2
  | member h1 h2 _ => exact hc.sets _ (List.mem_of_getElem? h1) a h2

theorem classic_set (hc : Classic A) {k : Nat} {a : Parse.Attr} (h : SetAttr A k a) : a.ctor = true → ¬ Computed a := by
  cases h with
  | own h1 h2 => exact hc.sets _ (List.mem_of_getElem? h1) a h2
  | named h1 h2 _ => exact hc.sets _ (List.mem_of_getElem? h1) a h2

/-! ### Nodes and nodesets -/

theorem node_at {k : Nat} {n : Parse.Node} (hn : A.nodes[k]? = some n) : (nodeProg A o).nodes[k]? = some (nodeGen o k n) := by
  simp [nodeProg, hn]

theorem set_at {k : Nat} {s : Parse.NodeSet} (hs : A.nodesets[k]? = some s) : (nodeProg A o).sets[k]? = some (setGen A o k s) := by
  simp [nodeProg, hs]

theorem at_node {x : NodeGen.Node} (hx : x ∈ (nodeProg A o).nodes) : ∃ (k : Nat) (n : Parse.Node), A.nodes[k]? = some n ∧ x = nodeGen o k n := by
  obtain ⟨k, hk⟩ := List.getElem?_of_mem hx
  simp only [nodeProg, List.getElem?_mapIdx, Option.map_eq_some_iff] at hk
  obtain ⟨n, h1, h2⟩ := hk
  exact ⟨k, n, h1, h2.symm⟩

theorem at_set {x : NodeGen.NodeSet} (hx : x ∈ (nodeProg A o).sets) :
    ∃ (k : Nat) (n : Parse.NodeSet), A.nodesets[k]? = some n ∧ x = setGen A o k n := by
  obtain ⟨k, hk⟩ := List.getElem?_of_mem hx
  simp only [nodeProg, List.getElem?_mapIdx, Option.map_eq_some_iff] at hk
  obtain ⟨n, h1, h2⟩ := hk
  exact ⟨k, n, h1, h2.symm⟩

theorem gen_distinct {P : Parse.Attr → Prop} {l : List Propagate.Attr} (h : ∀ b ∈ l, ∃ a, P a ∧ From A a b) (hn : (l.map (·.name)).Nodup) :
    Spec.NodeGen.Distinct ((l.map attrGen).map (·.name)) := by
  rw [Spec.NodeGen.Distinct, List.map_map, List.pairwise_map]
  rw [List.Nodup, List.pairwise_map] at hn
  refine List.Pairwise.imp_of_mem ?_ hn
  intro b c hb hc hne hs
  obtain ⟨_, _, fb⟩ := h b hb
  obtain ⟨_, _, fc⟩ := h c hc
  exact hne (by rw [gen_code fb, gen_code fc]; exact congrArg code hs)

theorem member_mem (h : Known A o) {i : Nat} (hi : i < A.nodesets.length) {m : Id} (hm : m ∈ (o.members i).filterMap (memberGen A)) :
    ∃ (k : Nat) (n : Parse.Node), A.nodes[k]? = some n ∧ Member A i k ∧ m = idOf n.name := by
  obtain ⟨e, he, hm⟩ := List.mem_filterMap.1 hm
  cases e with
  | null => cases hm
  | other => cases hm
  | node k =>
    simp only [memberGen, Option.map_eq_some_iff] at hm
    obtain ⟨n, h1, h2⟩ := hm
    exact ⟨k, n, h1, ((h.member i hi).2 k).1 he, h2.symm⟩

theorem mem_member (h : Known A o) {i k : Nat} (hi : i < A.nodesets.length) {n : Parse.Node} (hn : A.nodes[k]? = some n) (hm : Member A i k) :
    idOf n.name ∈ (o.members i).filterMap (memberGen A) :=
  List.mem_filterMap.2 ⟨.node k, ((h.member i hi).2 k).2 hm, by simp [memberGen, hn]⟩

theorem pairwise_filterMap {α β : Type} {R : α → α → Prop} {S : β → β → Prop} {f : α → Option β} {l : List α} (h : l.Pairwise R)
    (hi : ∀ a b x y, a ∈ l → b ∈ l → R a b → f a = some x → f b = some y → S x y) : (l.filterMap f).Pairwise S := by
  induction h with
  | nil => exact .nil
  | @cons a l h1 _ ih =>
    have ih := ih fun a b x y ha hb => hi a b x y (List.mem_cons_of_mem _ ha) (List.mem_cons_of_mem _ hb)
    rw [List.filterMap_cons]
    cases hf : f a with
    | none => exact ih
    | some x =>
      refine List.pairwise_cons.2 ⟨fun y hy => ?_, ih⟩
      obtain ⟨b, hb, hy⟩ := List.mem_filterMap.1 hy
      exact hi a b x y List.mem_cons_self (List.mem_cons_of_mem _ hb) (h1 b hb) hf hy

/-- What is assumed of the generators. -/
theorem wf_prog (h : Known A o) (hc : Classic A) : Spec.NodeGen.WfProg (nodeProg A o) := by
  have hr := h.facts.right
  have lt : ∀ {α : Type} {l : List α} {k : Nat} {x : α}, l[k]? = some x → k < l.length := fun h => (List.getElem?_eq_some_iff.1 h).1
  refine ⟨?_, ?_, ?_, ?_, ?_, ?_, ?_, ?_, ?_, ?_, ?_, ?_⟩
  · intro x hx
    obtain ⟨k, n, _, rfl⟩ := at_node hx
    exact idOf_wf _
  · intro x hx c hc
    obtain ⟨k, n, _, rfl⟩ := at_node hx
    obtain ⟨c, _, rfl⟩ := List.mem_map.1 hc
    exact idOf_wf _
  · intro x hx
    obtain ⟨k, n, _, rfl⟩ := at_set hx
    exact idOf_wf _
  · intro x hx m hm
    obtain ⟨k, s, hs, rfl⟩ := at_set hx
    obtain ⟨_, n, _, _, rfl⟩ := member_mem h (lt hs) hm
    exact idOf_wf _
  · intro e he
    obtain ⟨e, _, rfl⟩ := List.mem_map.1 he
    exact idOf_wf _
  · rw [Spec.NodeGen.Distinct, List.pairwise_append, List.pairwise_map, List.pairwise_map]
    refine ⟨?_, ?_, ?_⟩
    · rw [List.pairwise_iff_getElem]
      intro i j hi hj hij hs
      obtain ⟨k, n, h1, h2⟩ : ∃ (k : Nat) (n : Parse.Node), A.nodes[i]? = some n ∧ (nodeProg A o).nodes[i] = nodeGen o i n := by
        have hl : i < A.nodes.length := by simpa [nodeProg] using hi
        exact ⟨i, A.nodes[i], List.getElem?_eq_getElem hl, by simp [nodeProg]⟩
      obtain ⟨k', n', h3, h4⟩ : ∃ (k : Nat) (n : Parse.Node), A.nodes[j]? = some n ∧ (nodeProg A o).nodes[j] = nodeGen o j n := by
        have hl : j < A.nodes.length := by simpa [nodeProg] using hj
        exact ⟨j, A.nodes[j], List.getElem?_eq_getElem hl, by simp [nodeProg]⟩
      rw [h2, h4] at hs
      have := hr.table.node_inj h1 h3 hs
      omega
    · rw [List.pairwise_iff_getElem]
      intro i j hi hj hij hs
      obtain ⟨k, n, h1, h2⟩ : ∃ (k : Nat) (n : Parse.NodeSet), A.nodesets[i]? = some n ∧ (nodeProg A o).sets[i] = setGen A o i n := by
        have hl : i < A.nodesets.length := by simpa [nodeProg] using hi
        exact ⟨i, A.nodesets[i], List.getElem?_eq_getElem hl, by simp [nodeProg]⟩
      obtain ⟨k', n', h3, h4⟩ : ∃ (k : Nat) (n : Parse.NodeSet), A.nodesets[j]? = some n ∧ (nodeProg A o).sets[j] = setGen A o j n := by
        have hl : j < A.nodesets.length := by simpa [nodeProg] using hj
        exact ⟨j, A.nodesets[j], List.getElem?_eq_getElem hl, by simp [nodeProg]⟩
      rw [h2, h4] at hs
      have := hr.table.set_inj h1 h3 hs
      omega
    · intro a ha b hb hs
      obtain ⟨x, hx, rfl⟩ := List.mem_map.1 ha
      obtain ⟨y, hy, rfl⟩ := List.mem_map.1 hb
      obtain ⟨k, n, hn, rfl⟩ := at_node hx
      obtain ⟨j, s, hsn, rfl⟩ := at_set hy
      have h1 := (hr.table.node s.name.orig k).2 ⟨n, hn, hs⟩
      have h2 := (hr.table.set s.name.orig j).2 ⟨s, hsn, rfl⟩
      rw [h1] at h2
      cases h2
  · intro x hx
    obtain ⟨k, n, hn, rfl⟩ := at_node hx
    have hd := (hr.sound.fields ⟨idOf n.name, n.root, n.children.map childOf, n.attrs.map attrOf⟩
      (List.mem_map.2 ⟨n, List.mem_of_getElem? hn, rfl⟩)).1
    rw [Spec.CheckExist.Distinct, List.pairwise_append] at hd
    rw [Spec.NodeGen.Distinct, List.pairwise_append]
    refine ⟨?_, gen_distinct (fun b hb => from_node h hn hb) (h.nodeNames k (lt hn)), ?_⟩
    · have := hd.2.1
      rw [List.map_map, List.pairwise_map] at this
      simp only [nodeGen, List.map_map, List.pairwise_map]
      exact this
    · intro i hi j hj hs
      obtain ⟨_, hc', rfl⟩ := List.mem_map.1 hi
      obtain ⟨c, hc, rfl⟩ := List.mem_map.1 hc'
      obtain ⟨x, hx, rfl⟩ := List.mem_map.1 hj
      obtain ⟨b, hb, rfl⟩ := List.mem_map.1 hx
      obtain ⟨a, _, fa⟩ := from_node h hn hb
      refine h.facts.kids k n hn b hb c hc ?_
      rw [gen_code fa]
      exact congrArg code hs.symm
  · intro x hx
    obtain ⟨k, s, hs, rfl⟩ := at_set hx
    exact gen_distinct (fun b hb => from_set h hs hb) (h.setNames k (lt hs))
  · intro x hx a ha
    obtain ⟨k, n, hn, rfl⟩ := at_node hx
    obtain ⟨b, hb, rfl⟩ := List.mem_map.1 ha
    obtain ⟨a, h1, fa⟩ := from_node h hn hb
    exact attrOk (classic_node hc h1) fa
  · intro x hx a ha
    obtain ⟨k, n, hn, rfl⟩ := at_set hx
    obtain ⟨b, hb, rfl⟩ := List.mem_map.1 ha
    obtain ⟨a, h1, fa⟩ := from_set h hn hb
    exact attrOk (classic_set hc h1) fa
  · intro x hx
    obtain ⟨k, s, hs, rfl⟩ := at_set hx
    refine pairwise_filterMap (h.member k (lt hs)).1 ?_
    intro a b x y _ _ hne hfa hfb hxy
    cases a with
    | null => cases hfa
    | other => cases hfa
    | node i =>
      cases b with
      | null => cases hfb
      | other => cases hfb
      | node j =>
        simp only [memberGen, Option.map_eq_some_iff] at hfa hfb
        obtain ⟨n, h1, rfl⟩ := hfa
        obtain ⟨m, h2, rfl⟩ := hfb
        exact hne (congrArg Entry.node (hr.table.node_inj h1 h2 hxy))
  · intro x hx m hm
    obtain ⟨i, s, hs, rfl⟩ := at_set hx
    obtain ⟨k, n, hn, hmem, rfl⟩ := member_mem h (lt hs) hm
    refine ⟨nodeGen o k n, List.mem_of_getElem? (node_at hn), rfl, ?_⟩
    intro x hx
    obtain ⟨b, hb, rfl⟩ := List.mem_map.1 hx
    obtain ⟨c, hc, h1, h2, h3⟩ := h.same i (lt hs) b hb k hmem
    obtain ⟨_, _, fb⟩ := from_set h hs hb
    obtain ⟨_, _, fc⟩ := from_node h hn hc
    refine ⟨attrGen c, List.mem_map.2 ⟨c, hc, rfl⟩, ?_, ?_⟩
    · rw [gen_code fb, gen_code fc] at h1
      exact code_inj h1
    · simp only [Spec.NodeGen.Computed, attrGen, h2, h3]

/-! ### Conditions on names -/

theorem field_node (hs : Simple A) {k : Nat} {a : Parse.Attr} (h : NodeAttr A k a) : FieldName a.name := by
  cases h with
  | own h1 h2 => exact hs.attrs _ (List.mem_of_getElem? h1) a h2
  | member h1 h2 _ => exact hs.sattrs _ (List.mem_of_getElem? h1) a h2

theorem field_set (hs : Simple A) {k : Nat} {a : Parse.Attr} (h : SetAttr A k a) : FieldName a.name := by
  cases h with
  | own h1 h2 => exact hs.sattrs _ (List.mem_of_getElem? h1) a h2
  | named h1 h2 _ => exact hs.sattrs _ (List.mem_of_getElem? h1) a h2

theorem plain_prog (h : Known A o) (hs : Simple A) : Spec.NodeGen.Plain (nodeProg A o) := by
  refine ⟨?_, ?_, ?_, ?_, ?_⟩
  · intro x hx
    obtain ⟨k, n, hn, rfl⟩ := at_node hx
    have := hs.nodes n (List.mem_of_getElem? hn)
    exact ⟨this.1, this.2.1, this.2.2, h.facts.right.sound.nodeNames ⟨idOf n.name, n.root, n.children.map childOf, n.attrs.map attrOf⟩
      (List.mem_map.2 ⟨n, List.mem_of_getElem? hn, rfl⟩)⟩
  · intro x hx
    obtain ⟨k, n, hn, rfl⟩ := at_set hx
    exact hs.sets n (List.mem_of_getElem? hn)
  · intro x hx c hc'
    obtain ⟨k, n, hn, rfl⟩ := at_node hx
    obtain ⟨c, hc, rfl⟩ := List.mem_map.1 hc'
    exact hs.children n (List.mem_of_getElem? hn) c hc
  · intro x hx a ha
    obtain ⟨k, n, hn, rfl⟩ := at_node hx
    obtain ⟨b, hb, rfl⟩ := List.mem_map.1 ha
    obtain ⟨a, h1, fa⟩ := from_node h hn hb
    rw [gen_name fa]
    exact field_node hs h1
  · intro x hx a ha
    obtain ⟨k, n, hn, rfl⟩ := at_set hx
    obtain ⟨b, hb, rfl⟩ := List.mem_map.1 ha
    obtain ⟨a, h1, fa⟩ := from_set h hn hb
    rw [gen_name fa]
    exact (field_set hs h1).1

theorem ctor_prog (h : Known A o) {k : Nat} {n : Parse.Node} (hn : A.nodes[k]? = some n) (hc : Callable A k n) :
    Spec.NodeGen.CtorOk (nodeProg A o) (nodeGen o k n) := by
  refine ⟨?_, ?_, ?_, ?_⟩
  · intro c hcm' hct
    obtain ⟨c, hcm, rfl⟩ := List.mem_map.1 hcm'
    exact hc.child c hcm hct
  · intro a ha hct
    obtain ⟨b, hb, rfl⟩ := List.mem_map.1 ha
    obtain ⟨a, h1, fa⟩ := from_node h hn hb
    rw [gen_name fa]
    exact hc.attr a h1 (fa.kept.ctor ▸ hct)
  · intro a ha hct ht
    obtain ⟨b, hb, rfl⟩ := List.mem_map.1 ha
    obtain ⟨a, h1, fa⟩ := from_node h hn hb
    rw [gen_name fa]
    refine hc.user a h1 (fa.kept.ctor ▸ hct) ?_
    cases hb : b.type with
    | link => simp [attrGen, hb] at ht
    | user => exact fa.typed.user.1 hb
    | linkOrEnum => simp [attrGen, hb] at ht
    | basic t =>
      obtain ⟨g1, g2, g3⟩ := fa.typed.basic t hb
      simp only [attrGen, hb, g1, basicOf_prim g2 g3] at ht
      cases he : a.type <;> simp_all [cType]
  · intro a ha hct ht r hr
    obtain ⟨b, hb, rfl⟩ := List.mem_map.1 ha
    obtain ⟨a, h1, fa⟩ := from_node h hn hb
    cases hb : b.type with
    | link => simp [attrGen, hb] at ht
    | user => simp [attrGen, hb] at ht
    | basic t =>
      obtain ⟨g1, g2, g3⟩ := fa.typed.basic t hb
      simp only [attrGen, hb, g1, basicOf_prim g2 g3] at ht
      cases he : a.type <;> simp_all [cType]
    | linkOrEnum =>
      obtain ⟨g1, r', g2, g3⟩ := fa.typed.enum hb
      obtain ⟨e, he, hs⟩ := denotes_enum g3
      obtain ⟨e, he, hs⟩ := hc.enum a h1 (fa.kept.ctor ▸ hct) g1 r' g2 ⟨e, he, hs⟩
      simp only [attrGen, hb, Option.mem_def, Option.some.injEq] at hr
      refine ⟨idOf e.name, List.mem_map.2 ⟨e, he, rfl⟩, ?_⟩
      rw [← hr, fa.typed.ref r' g2, idText_code]
      exact hs

theorem trav_prog (h : Walkable A) : Spec.NodeGen.TravNames (nodeProg A o) := by
  intro x hx c hc'
  obtain ⟨k, n, hn, rfl⟩ := at_node hx
  obtain ⟨c, hc, rfl⟩ := List.mem_map.1 hc'
  exact h n (List.mem_of_getElem? hn) c hc

end

end Verif.Described
