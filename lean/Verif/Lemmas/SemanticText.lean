import Verif.Lemmas.SemanticMain

/-!
# Lemmas about the phase `semantic`: what follows from the text of a description
-/

namespace Verif.Semantic
open Verif.Str Verif.Ids Verif.Grammar
open Verif.Spec.Semantic
open Verif.Parse

/-! ### The parser names types -/

/-- The type of an attribute that is a name is there. -/
def AttrNamed (a : Parse.Attr) : Prop := a.type = .link_or_enum → a.ref.isSome

theorem primitive_named {t : T} {ty : AT} (h : Primitive t ty) : ty ≠ .link_or_enum := by
  cases h <;> exact fun h => by cases h

theorem attrP_named {ts : List T} {a : Parse.Attr} {r : List T} (h : AttrP ts a r) : AttrNamed a := by
  cases h with
  | primOpts t ty n ts os r h _ => exact fun e => absurd e (primitive_named h)
  | prim t ty n r h => exact fun e => absurd e (primitive_named h)
  | linkOpts => exact fun _ => rfl
  | link => exact fun _ => rfl
  | userOpts => exact fun e => by cases e
  | user => exact fun e => by cases e

theorem attributes_named {ts : List T} {as : List Parse.Attr} {r : List T} (h : Attributes ts as r) : ∀ a ∈ as, AttrNamed a := by
  induction h with
  | cons ts a us as r h1 _ ih =>
    intro b hb
    rcases List.mem_cons.1 hb with rfl | hb
    · exact attrP_named h1
    · exact ih b hb
  | one ts a r h1 =>
    intro b hb
    obtain rfl := List.mem_singleton.1 hb
    exact attrP_named h1

theorem body_named {ts : List T} {as : List Parse.Attr} {r : List T} (h : AttributeBody ts as r) : ∀ a ∈ as, AttrNamed a := by
  cases h with
  | mk ts as r h => exact attributes_named h

theorem node_named {ts : List T} {n : Parse.Node} {r : List T} (h : NodeP ts n r) : ∀ a ∈ n.attrs, AttrNamed a := by
  cases h <;> first | exact body_named ‹AttributeBody _ _ _› | exact fun a h => by cases h

theorem nodeset_named {ts : List T} {n : Parse.NodeSet} {r : List T} (h : NodeSetP ts n r) : ∀ a ∈ n.attrs, AttrNamed a := by
  cases h <;> first | exact body_named ‹AttributeBody _ _ _› | exact fun a h => by cases h

/-- The same of the data of a traversal. -/
def DataNamed (a : Parse.TravData) : Prop := a.type = .link_or_enum → a.ref.isSome

theorem item_named {ts : List T} {a : Parse.TravData} {r : List T} (h : TravDataItem ts a r) : DataNamed a := by
  cases h with
  | prim t ty n r h => exact fun e => absurd e (primitive_named h)
  | link => exact fun _ => rfl
  | user => exact fun e => by cases e

theorem dataList_named {ts : List T} {as : List Parse.TravData} {r : List T} (h : TravDataList ts as r) : ∀ a ∈ as, DataNamed a := by
  induction h with
  | snoc us ds d r _ h1 ih =>
    intro b hb
    rcases List.mem_cons.1 hb with rfl | hb
    · exact item_named h1
    · exact ih b hb
  | one d r h1 =>
    intro b hb
    obtain rfl := List.mem_singleton.1 hb
    exact item_named h1

theorem data_named {ts : List T} {as : List Parse.TravData} {r : List T} (h : TravDataP ts as r) : ∀ a ∈ as, DataNamed a := by
  cases h with
  | mk ts ds r h => exact dataList_named h

theorem traversal_named {k : Nat} {ts : List T} {t : Parse.Traversal} {r : List T} (h : TraversalP k ts t r) :
    ∀ a ∈ t.data, DataNamed a := by
  cases h <;> first | exact data_named ‹TravDataP _ _ _› | exact fun a h => by cases h

theorem add_traversal {s : Parse.St} {t : Parse.Traversal} (h : TypesNamed s.ast) (ht : ∀ a ∈ t.data, DataNamed a) :
    TypesNamed (s.addTraversal t).ast := by
  refine ⟨h.nodes, h.sets, fun u hu => ?_⟩
  rcases List.mem_cons.1 hu with rfl | hu
  · exact ht
  · exact h.data u hu

/-- What holds of the state before holds behind. -/
abbrev Keeps (s s' : Parse.St) : Prop := TypesNamed s.ast → TypesNamed s'.ast

theorem phase_named {s s' : Parse.St} {ts r : List T} {p : Parse.Phase} (h : PhaseP s ts p s' r) : Keeps s s' := by
  refine PhaseP.rec (motive_1 := fun s _ _ s' _ _ => Keeps s s') (motive_2 := fun s _ _ s' _ _ => Keeps s s')
    (motive_3 := fun s _ _ s' _ _ => Keeps s s') (motive_4 := fun s _ _ s' _ _ => Keeps s s') ?_ ?_ ?_ ?_ ?_ ?_ ?_ ?_ ?_ ?_ ?_ ?_
    ?_ ?_ ?_ ?_ ?_ ?_ ?_ ?_ ?_ ?_ ?_ h
  case refine_18 => exact fun _ _ _ _ _ _ _ _ _ _ h1 h2 hs => h2 (h1 hs)
  case refine_20 => exact fun _ _ _ _ h hs => add_traversal hs (traversal_named h)
  case refine_21 => exact fun _ _ _ _ _ hs => ⟨hs.nodes, hs.sets, hs.data⟩
  case refine_22 => exact fun _ _ _ _ _ _ h hs => ⟨(h hs).nodes, (h hs).sets, (h hs).data⟩
  case refine_23 => exact fun _ _ _ hs => hs
  all_goals
    intros
    assumption

theorem entry_state {s s' : Parse.St} {ts r : List T} (h : Parse.Entry s ts s' r) (hs : TypesNamed s.ast) : TypesNamed s'.ast := by
  cases h with
  | phase _ _ p _ h =>
    have := phase_named h hs
    exact ⟨this.nodes, this.sets, this.data⟩
  | pass => exact ⟨hs.nodes, hs.sets, hs.data⟩
  | traversal _ t _ h => exact add_traversal hs (traversal_named h)
  | node _ n _ h =>
    refine ⟨fun m hm => ?_, hs.sets, hs.data⟩
    rcases List.mem_cons.1 hm with rfl | hm
    · exact (node_named h :)
    · exact hs.nodes m hm
  | nodeset _ n _ h =>
    refine ⟨hs.nodes, fun m hm => ?_, hs.data⟩
    rcases List.mem_cons.1 hm with rfl | hm
    · exact nodeset_named h
    · exact hs.sets m hm
  | enum => exact ⟨hs.nodes, hs.sets, hs.data⟩

theorem entries_state {s s' : Parse.St} {ts r : List T} (h : Entries s ts s' r) (hs : TypesNamed s.ast) : TypesNamed s'.ast := by
  induction h with
  | cons _ _ _ _ _ _ h1 _ ih => exact ih (entry_state h1 hs)
  | one _ _ _ _ h => exact entry_state h hs
  | empty => exact hs

theorem parsed_named {input : CStr} {A : Parse.Ast} (h : SPparseDSL input (.ok A)) : TypesNamed A := by
  cases h with
  | ok ts lines s _ h =>
    cases h with
    | accept _ h =>
      refine entries_state h ⟨fun n hn => ?_, fun n hn => ?_, fun n hn => ?_⟩ <;> cases hn

/-! ### What equations name -/

theorem nodup_pairs {α β γ δ : Type} {R : α → β → Prop} {f : α → γ} {g : β → δ}
    (h : ∀ a b a' b', R a b → R a' b' → g b = g b' → f a = f a') : ∀ {l : List α} {m : List β}, Pairs R l m → (l.map f).Nodup →
    (m.map g).Nodup
  | _, _, .nil, _ => List.nodup_nil
  | _, _, .cons r p, hn => by
    rw [List.map_cons, List.nodup_cons] at hn ⊢
    refine ⟨fun hm => hn.1 ?_, nodup_pairs h p hn.2⟩
    obtain ⟨b, hb, e⟩ := List.mem_map.1 hm
    obtain ⟨a, ha, r'⟩ := p.mem_right hb
    exact List.mem_map.2 ⟨a, ha, (h _ _ _ _ r r' e.symm).symm⟩

theorem key_eq {r r' : Parse.Ref} (h : refOf r = refOf r') : key r = key r' := by
  simp only [refOf, idOf, ProductRules.ARef.mk.injEq] at h
  refine Prod.ext ?_ (code_inj h.2)
  have := h.1
  rw [key, key]
  cases h1 : r.node <;> cases h2 : r'.node <;> rw [h1, h2] at this <;> simp only [Option.map_none, Option.map_some, reduceCtorEq, Option.some.injEq] at this ⊢
  exact code_inj this

namespace World
variable {addr : Loc → Nat} {A : Parse.Ast} {attrs : Target → List Propagate.Attr} {env : ProductRules.Env}
  {members : Nat → List Propagate.Entry} {S : Induce.Spec}
open Verif.Spec.Induce Verif.Spec.ProductRules
open Verif.Propagate (Target)

theorem place_inj (w : World addr A attrs env members S) {i : Nat} {nd : ProductRules.NodeD} {x : Induce.INode}
    (hx : x.addr = addr (.node i)) {r r' : ProductRules.ARef} {y y' : Induce.Ref} (h : RefSt addr env i nd r y)
    (h' : RefSt addr env i nd r' y') (he : place x y = place x y') : r = r' := by
  obtain ⟨a1, a2⟩ := r
  obtain ⟨b1, b2⟩ := r'
  have e1 := congrArg Prod.fst he
  have e2 := congrArg Prod.snd he
  cases h with
  | this h =>
    cases h' with
    | this h' =>
      have e3 := w.apart _ _ e2
      cases h with
      | this f1 f2 f3 =>
        cases h' with
        | this g1 g2 g3 =>
          simp only [Loc.attr.injEq] at e3
          simp only at f1 g1 f3 g3
          rw [f1, g1, ← f3, ← g3, e3.2]
    | child h' _ =>
      simp only [place, Option.getD_none, Option.getD_some, hx] at e1
      cases w.apart _ _ e1
  | child h _ =>
    cases h' with
    | this h' =>
      simp only [place, Option.getD_none, Option.getD_some, hx] at e1
      cases w.apart _ _ e1
    | child h' _ =>
      have e3 := w.apart _ _ e2
      simp only [place, Option.getD_some] at e1
      have e4 := w.apart _ _ e1
      simp only [Loc.attr.injEq, Loc.child.injEq] at e3 e4
      cases h with
      | child f1 _ _ _ f3 =>
        cases h' with
        | child g1 _ _ _ g3 =>
          simp only at f1 g1 f3 g3
          rw [f1, g1, ← f3, ← g3, e3.2, e4.2]

/-- The equations of a node, if they are tidy. -/
theorem tidy_node (w : World addr A attrs env members S) (ht : Tidy A) {x : Induce.INode} (hx : x ∈ S.nodes) :
    (x.eqs.map fun q => place x q.rule).Nodup ∧ ∀ q ∈ x.eqs, ((q.rule :: q.args).map (place x)).Nodup := by
  obtain ⟨k, nd, hk, h1, h2, h3, h4⟩ := w.mem_node hx
  obtain ⟨tab, _, rfl⟩ := w.tab
  obtain ⟨n, hn, rfl⟩ := cpr_node.1 h2
  obtain ⟨t1, t2⟩ := ht n (List.mem_of_getElem? hn)
  have inj : ∀ {nd : ProductRules.NodeD} {r r' : Parse.Ref} {y y' : Induce.Ref}, RefSt addr (cprEnv A tab attrs) k nd (refOf r) y →
      RefSt addr (cprEnv A tab attrs) k nd (refOf r') y' → place x y = place x y' → key r = key r' := fun h h' e => key_eq (w.place_inj h4.self h h' e)
  have hp := pairs_map_left h4.eqs
  refine ⟨nodup_pairs (f := fun e : Parse.Equation => key e.rule) (fun a b a' b' r r' e => inj r.1 r'.1 e) hp t1, fun q hq => ?_⟩
  obtain ⟨e, he, hr, ha⟩ := hp.mem_right hq
  exact nodup_pairs (f := key) (R := fun r y => RefSt addr (cprEnv A tab attrs) k _ (refOf r) y) (fun a b a' b' r r' e => inj r r' e)
    (.cons hr (pairs_map_left ha)) (t2 e he)

theorem oneEach (w : World addr A attrs env members S) (ht : Tidy A) : Spec.Evaluator.OneEach S := fun _ hx => (w.tidy_node ht hx).1

theorem specOk (w : World addr A attrs env members S) (ht : Tidy A) : SpecOk S := by
  refine ⟨w.checked, fun x hx => ?_, fun x hx d hd e => ?_⟩
  · obtain ⟨h1, h2⟩ := w.tidy_node ht hx
    rw [deps, List.Nodup, List.pairwise_flatMap]
    refine ⟨fun q hq => ?_, ?_⟩
    · have := (List.nodup_cons.1 (h2 q hq)).2
      rw [List.Nodup, List.pairwise_map] at this
      rw [List.pairwise_map]
      exact (this.filter _).imp fun h e => h (Prod.ext_iff.1 e).1
    · rw [List.Nodup, List.pairwise_map] at h1
      refine h1.imp fun h a ha b hb e => h ?_
      obtain ⟨c, _, rfl⟩ := List.mem_map.1 ha
      obtain ⟨d, _, rfl⟩ := List.mem_map.1 hb
      exact (Prod.ext_iff.1 e).2
  · obtain ⟨_, h2⟩ := w.tidy_node ht hx
    obtain ⟨q, hq, hd⟩ := List.mem_flatMap.1 hd
    obtain ⟨c, hc, rfl⟩ := List.mem_map.1 hd
    refine (List.nodup_cons.1 (h2 q hq)).1 ?_
    simp only at e
    rw [← e]
    exact List.mem_map.2 ⟨c, (List.mem_filter.1 hc).1, rfl⟩

theorem filled (w : World addr A attrs env members S) (hp : Peopled A) : Spec.Evaluate.Filled S := by
  intro x hx c hc s hs he hm
  obtain ⟨k, hk⟩ := List.getElem?_of_mem hx
  have hl : k < A.nodes.length := by rw [← w.nodeLength]; exact (List.getElem?_eq_some_iff.1 hk).1
  have hn := List.getElem?_eq_getElem hl
  obtain ⟨ch, hch, ht⟩ := (w.describes.node k _ x hn hk).children.mem_right hc
  obtain ⟨i, hi⟩ := List.getElem?_of_mem hs
  rcases ht with ⟨j, n, y, _, _, hj, e⟩ | ⟨j, t, y, h1, h2, h3, e⟩
  · have h5 := (w.set hi).2.self
    obtain ⟨_, _, _, _, _, h6⟩ := w.node hj
    rw [← he, h5, h6.self] at e
    cases w.apart _ _ e
  · obtain ⟨m, hmem⟩ := hp _ (List.mem_of_getElem? hn) ch hch j t h1 h2
    have hij := w.set_inj h3 hi (e.trans he.symm)
    subst hij
    have hm' := hmem
    obtain ⟨_, n, _, _, hn, _⟩ := hmem
    have : m < S.nodes.length := by rw [w.nodeLength]; exact (List.getElem?_eq_some_iff.1 hn).1
    have h8 := (w.describes.set j s hi).members
    have := (h8 _).2 ⟨m, List.getElem?_eq_getElem this, hm'⟩
    rw [hm] at this
    cases this

end World
end Verif.Semantic
