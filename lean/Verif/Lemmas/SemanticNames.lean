import Verif.Model.Semantic
import Verif.Props.CheckExist
import Verif.Props.Unwrap

/-!
# Lemmas about the phase `semantic`: names and the symbol table
-/

namespace Verif.Semantic
open Verif.Str Verif.Ids Verif.Grammar
open Verif.Spec.Str (lowerB upperB SameName)
open Verif.Spec.Ids Verif.Spec.CheckExist
open Verif.Propagate (Target Entry)

theorem decodeAux_code (s : CStr) (k : Nat) (h : code s ≤ k) : decodeAux k (code s) = s := by
  induction s generalizing k with
  | nil => cases k <;> rfl
  | cons c s ih =>
    have hc : c.toNat < 256 := c.toNat_lt
    rw [code] at h
    obtain ⟨k, rfl⟩ : ∃ j, k = j + 1 := ⟨k - 1, by omega⟩
    have e : code (c :: s) = (c.toNat + 257 * code s) + 1 := by rw [code]; omega
    rw [e, decodeAux]
    have e1 : (c.toNat + 257 * code s) % 257 = c.toNat := by omega
    have e2 : (c.toNat + 257 * code s + 1) / 257 = code s := by omega
    rw [e1, e2, ih k (by omega)]
    simp

theorem decode_code (s : CStr) : decode (code s) = s := decodeAux_code s _ (Nat.le_refl _)

theorem code_inj {s t : CStr} (h : code s = code t) : s = t := by rw [← decode_code s, h, decode_code]

theorem idOf_wf (n : Parse.Name) : WfId (idOf n) := ⟨rfl, rfl⟩

theorem lwr_code {a b : Parse.Name} : code (idOf a).lwr = code (idOf b).lwr ↔ SameName a.orig b.orig :=
  ⟨fun h => code_inj h, fun h => congrArg code h⟩

/-! ### The symbol table -/

theorem named_kind {kind : Kind} {l : List (Id × Option Id)} {i : Nat} {x : Id × Decl} (h : x ∈ namedDecls kind i l) :
    x.2.kind = kind := by
  induction l generalizing i with
  | nil => cases h
  | cons a l ih =>
    obtain ⟨n, u⟩ := a
    rw [namedDecls, List.mem_append] at h
    rcases h with h | h
    · obtain ⟨y, _, rfl⟩ := List.mem_map.1 h; rfl
    · exact ih h

theorem named_wf {kind : Kind} {l : List (Id × Option Id)} {i : Nat} (hl : ∀ a ∈ l, WfId a.1 ∧ ∀ u ∈ a.2, WfId u) {x : Id × Decl}
    (h : x ∈ namedDecls kind i l) : WfId x.1 := by
  induction l generalizing i with
  | nil => cases h
  | cons a l ih =>
    obtain ⟨n, u⟩ := a
    rw [namedDecls, List.mem_append] at h
    rcases h with h | h
    · obtain ⟨y, hy, rfl⟩ := List.mem_map.1 h
      rcases List.mem_cons.1 hy with rfl | hy
      · exact (hl _ List.mem_cons_self).1
      · exact (hl _ List.mem_cons_self).2 y (by simpa using hy)
    · exact ih (fun a ha => hl a (List.mem_cons_of_mem _ ha)) h

theorem plain_get {kind : Kind} {l : List Id} {i : Nat} {x : Id × Decl} (h : x ∈ plainDecls kind i l) :
    x.2.kind = kind ∧ i ≤ x.2.index ∧ l[x.2.index - i]? = some x.1 := by
  induction l generalizing i with
  | nil => cases h
  | cons a l ih =>
    rw [plainDecls, List.mem_cons] at h
    rcases h with rfl | h
    · exact ⟨rfl, Nat.le_refl _, by simp⟩
    · obtain ⟨h1, h2, h3⟩ := ih h
      refine ⟨h1, by omega, ?_⟩
      rw [show x.2.index - i = (x.2.index - (i + 1)) + 1 by omega]
      simpa using h3

theorem node_declared (ast : Ast) (k : Nat) (n : Id) (h : ast.nodes[k]? = some n) : (n, (⟨.node, k⟩ : Decl)) ∈ declared ast := by
  have := Props.plain_mem .node ast.nodes 0 k n h
  rw [Nat.zero_add] at this
  simp only [declared, List.mem_append]
  exact Or.inr (Or.inr (Or.inr (Or.inl this)))

theorem declared_node {ast : Ast} {x : Id × Decl} (h : x ∈ declared ast) (hk : x.2.kind = .node) :
    ast.nodes[x.2.index]? = some x.1 := by
  simp only [declared, List.mem_append] at h
  rcases h with h | h | h | h | h | h
  · rw [named_kind h] at hk; cases hk
  · rw [named_kind h] at hk; cases hk
  · rw [named_kind h] at hk; cases hk
  · simpa using (plain_get h).2.2
  · rw [(plain_get h).1] at hk; cases hk
  · rw [(plain_get h).1] at hk; cases hk

theorem declared_set {ast : Ast} {x : Id × Decl} (h : x ∈ declared ast) (hk : x.2.kind = .nodeset) :
    ast.nodesets[x.2.index]? = some x.1 := by
  simp only [declared, List.mem_append] at h
  rcases h with h | h | h | h | h | h
  · rw [named_kind h] at hk; cases hk
  · rw [named_kind h] at hk; cases hk
  · rw [named_kind h] at hk; cases hk
  · rw [(plain_get h).1] at hk; cases hk
  · simpa using (plain_get h).2.2
  · rw [(plain_get h).1] at hk; cases hk

theorem declared_enum {ast : Ast} {x : Id × Decl} (h : x ∈ declared ast) (hk : x.2.kind = .enum) :
    ast.enums[x.2.index]? = some x.1 := by
  simp only [declared, List.mem_append] at h
  rcases h with h | h | h | h | h | h
  · rw [named_kind h] at hk; cases hk
  · rw [named_kind h] at hk; cases hk
  · rw [named_kind h] at hk; cases hk
  · rw [(plain_get h).1] at hk; cases hk
  · rw [(plain_get h).1] at hk; cases hk
  · simpa using (plain_get h).2.2

theorem ids_wf (A : Parse.Ast) : Props.WfAst (progOf A).ids := by
  constructor
  · intro x h
    simp only [declared, List.mem_append] at h
    have plain : ∀ {kind l}, (∀ n ∈ l, ∃ m, n = idOf m) → x ∈ plainDecls kind 0 l → WfId x.1 := by
      intro kind l hl hx
      obtain ⟨m, hm⟩ := hl x.1 (List.mem_of_getElem? (plain_get hx).2.2)
      rw [hm]; exact idOf_wf m
    rcases h with h | h | h | h | h | h
    · refine named_wf ?_ h
      intro a ha
      simp only [CheckExist.Prog.ids, progOf, List.map_map, List.mem_map, Function.comp] at ha
      obtain ⟨q, _, rfl⟩ := ha
      refine ⟨idOf_wf _, fun u hu => ?_⟩
      obtain ⟨v, _, rfl⟩ := Option.map_eq_some_iff.1 hu
      exact idOf_wf _
    · refine named_wf ?_ h
      intro a ha
      simp only [CheckExist.Prog.ids, progOf, List.map_map, List.mem_map, Function.comp] at ha
      obtain ⟨q, _, rfl⟩ := ha
      refine ⟨idOf_wf _, fun u hu => ?_⟩
      cases hu
      exact idOf_wf _
    · refine named_wf ?_ h
      intro a ha
      simp only [CheckExist.Prog.ids, progOf, List.map_map, List.mem_map, Function.comp] at ha
      obtain ⟨q, _, rfl⟩ := ha
      refine ⟨idOf_wf _, fun u hu => ?_⟩
      obtain ⟨v, _, rfl⟩ := Option.map_eq_some_iff.1 hu
      exact idOf_wf _
    · refine plain (fun n hn => ?_) h
      simp only [CheckExist.Prog.ids, progOf, List.map_map, List.mem_map, Function.comp] at hn
      obtain ⟨q, _, rfl⟩ := hn
      exact ⟨_, rfl⟩
    · refine plain (fun n hn => ?_) h
      simp only [CheckExist.Prog.ids, progOf, List.map_map, List.mem_map, Function.comp] at hn
      obtain ⟨q, _, rfl⟩ := hn
      exact ⟨_, rfl⟩
    · refine plain (fun n hn => ?_) h
      simp only [CheckExist.Prog.ids, progOf, List.map_map, List.mem_map, Function.comp] at hn
      obtain ⟨q, _, rfl⟩ := hn
      exact ⟨_, rfl⟩
  · intro f hf
    simp only [functions, CheckExist.Prog.ids, progOf, List.map_map, List.mem_filterMap, List.mem_map, Function.comp] at hf
    obtain ⟨_, ⟨q, _, rfl⟩, hf⟩ := hf
    obtain ⟨v, _, rfl⟩ := Option.map_eq_some_iff.1 hf
    exact idOf_wf _

theorem exprOf_wf (e : Parse.SetE) : ∀ u ∈ exprIds (exprOf e), WfId u := by
  induction e with
  | lit names =>
    intro u hu
    obtain ⟨v, _, rfl⟩ := List.mem_map.1 hu
    exact idOf_wf _
  | ref n =>
    intro u hu
    cases List.mem_singleton.1 hu
    exact idOf_wf _
  | op o l r ihl ihr =>
    intro u hu
    cases o <;> exact (List.mem_append.1 hu).elim (ihl u) (ihr u)

theorem opt_wf {a : Option Parse.Name} {u : Id} (h : u ∈ (a.map idOf).toList) : WfId u := by
  cases a with
  | none => cases h
  | some a => cases List.mem_singleton.1 h; exact idOf_wf _

theorem prog_wf (A : Parse.Ast) : Props.WfProg (progOf A) := by
  refine ⟨ids_wf A, fun u hu => ?_⟩
  simp only [uses, List.mem_append] at hu
  have attr : ∀ (l : List Parse.Attr), u ∈ (l.map attrOf).flatMap (fun a => a.name :: a.ref.toList) → WfId u := by
    intro l h
    obtain ⟨_, hx, h⟩ := List.mem_flatMap.1 h
    obtain ⟨a, _, rfl⟩ := List.mem_map.1 hx
    rcases List.mem_cons.1 h with rfl | h
    · exact idOf_wf _
    · exact opt_wf h
  rcases hu with h | h | h | h | h | h
  · obtain ⟨_, hx, h⟩ := List.mem_flatMap.1 h
    obtain ⟨x, _, rfl⟩ := List.mem_map.1 hx
    rcases List.mem_append.1 h with h | h
    · exact opt_wf h
    · obtain ⟨v, _, rfl⟩ := List.mem_map.1 h
      exact idOf_wf _
  · obtain ⟨_, hx, h⟩ := List.mem_flatMap.1 h
    obtain ⟨x, _, rfl⟩ := List.mem_map.1 hx
    rcases List.mem_append.1 h with h | h
    · cases List.mem_singleton.1 h; exact idOf_wf _
    · rcases List.mem_append.1 h with h | h
      · obtain ⟨e, he, h⟩ := List.mem_flatMap.1 h
        cases hn : x.nodes with
        | none => simp [hn] at he
        | some f =>
          simp only [hn, Option.map_some, Option.toList_some, List.mem_singleton] at he
          subst he
          exact exprOf_wf f u h
      · obtain ⟨_, hx, h⟩ := List.mem_flatMap.1 h
        obtain ⟨a, _, rfl⟩ := List.mem_map.1 hx
        rcases List.mem_cons.1 h with rfl | h
        · exact idOf_wf _
        · exact opt_wf h
  · obtain ⟨_, hx, h⟩ := List.mem_flatMap.1 h
    obtain ⟨x, _, rfl⟩ := List.mem_map.1 hx
    exact opt_wf h
  · obtain ⟨_, hx, h⟩ := List.mem_flatMap.1 h
    obtain ⟨x, _, rfl⟩ := List.mem_map.1 hx
    rcases List.mem_append.1 h with h | h
    · exact attr _ h
    · obtain ⟨_, hx, h⟩ := List.mem_flatMap.1 h
      obtain ⟨a, _, rfl⟩ := List.mem_map.1 hx
      rcases List.mem_cons.1 h with rfl | h
      · exact idOf_wf _
      · cases List.mem_singleton.1 h; exact idOf_wf _
  · obtain ⟨_, hx, h⟩ := List.mem_flatMap.1 h
    obtain ⟨x, _, rfl⟩ := List.mem_map.1 hx
    rcases List.mem_append.1 h with h | h
    · exact attr _ h
    · obtain ⟨e, he, h⟩ := List.mem_flatMap.1 h
      cases List.mem_singleton.1 he
      exact exprOf_wf _ u h
  · obtain ⟨_, hx, rfl⟩ := List.mem_map.1 h
    obtain ⟨x, _, rfl⟩ := List.mem_map.1 hx
    exact idOf_wf _

/-- The symbol table is right about nodes and nodesets. -/
structure Tab (A : Parse.Ast) (tab : List (Ste Decl)) : Prop where
  node : ∀ s k, stFind (s.map lowerB) tab = some ⟨.node, k⟩ ↔ ∃ n, A.nodes[k]? = some n ∧ SameName n.name.orig s
  set : ∀ s k, stFind (s.map lowerB) tab = some ⟨.nodeset, k⟩ ↔ ∃ n, A.nodesets[k]? = some n ∧ SameName n.name.orig s

theorem table_key {A : Parse.Ast} {tab : List (Ste Decl)} (h : BSTast (progOf A).ids = .ok tab) (s : CStr) (d : Decl) :
    stFind (s.map lowerB) tab = some d ↔ ∃ x ∈ declared (progOf A).ids, SameName x.1.orig s ∧ x.2 = d := by
  have hl := Props.C24_lookup (progOf A).ids (ids_wf A) tab h ⟨s, s.map lowerB, s.map upperB⟩ ⟨rfl, rfl⟩
  simp only [STlookup, Res.ok.injEq] at hl
  constructor
  · intro hs
    rcases Classical.em (∃ x ∈ declared (progOf A).ids, SameName x.1.orig s) with ⟨x, hx, hn⟩ | hn
    · have := hl.1 x hx hn
      rw [hs] at this
      exact ⟨x, hx, hn, (Option.some.inj this).symm⟩
    · have := hl.2 fun x hx hs => hn ⟨x, hx, hs⟩
      rw [hs] at this
      cases this
  · rintro ⟨x, hx, hn, rfl⟩
    exact hl.1 x hx hn

theorem table_right {A : Parse.Ast} {tab : List (Ste Decl)} (h : BSTast (progOf A).ids = .ok tab) : Tab A tab := by
  have key := table_key h
  constructor
  · intro s k
    rw [key]
    constructor
    · rintro ⟨x, hx, hn, hd⟩
      have := declared_node hx (by rw [hd])
      rw [hd] at this
      simp only [CheckExist.Prog.ids, progOf, List.map_map, List.getElem?_map, Option.map_eq_some_iff, Function.comp] at this
      obtain ⟨n, h1, h2⟩ := this
      exact ⟨n, h1, by rw [← h2] at hn; exact hn⟩
    · rintro ⟨n, h1, h2⟩
      refine ⟨(idOf n.name, ⟨.node, k⟩), node_declared _ k _ ?_, h2, rfl⟩
      simp [CheckExist.Prog.ids, progOf, h1]
  · intro s k
    rw [key]
    constructor
    · rintro ⟨x, hx, hn, hd⟩
      have := declared_set hx (by rw [hd])
      rw [hd] at this
      simp only [CheckExist.Prog.ids, progOf, List.map_map, List.getElem?_map, Option.map_eq_some_iff, Function.comp] at this
      obtain ⟨n, h1, h2⟩ := this
      exact ⟨n, h1, by rw [← h2] at hn; exact hn⟩
    · rintro ⟨n, h1, h2⟩
      refine ⟨(idOf n.name, ⟨.nodeset, k⟩), Props.nodeset_declared _ k _ ?_, h2, rfl⟩
      simp [CheckExist.Prog.ids, progOf, h1]

theorem denotes_node {A : Parse.Ast} {n : Id} (h : Denotes (progOf A) n .node) :
    ∃ (k : Nat) (m : Parse.Node), A.nodes[k]? = some m ∧ SameName m.name.orig n.orig := by
  obtain ⟨x, hx, hn, hk⟩ := h
  have := declared_node hx hk
  simp only [CheckExist.Prog.ids, progOf, List.map_map, List.getElem?_map, Option.map_eq_some_iff, Function.comp] at this
  obtain ⟨m, h1, h2⟩ := this
  exact ⟨_, m, h1, by rw [← h2] at hn; exact hn⟩

theorem denotes_set {A : Parse.Ast} {n : Id} (h : Denotes (progOf A) n .nodeset) :
    ∃ (k : Nat) (m : Parse.NodeSet), A.nodesets[k]? = some m ∧ SameName m.name.orig n.orig := by
  obtain ⟨x, hx, hn, hk⟩ := h
  have := declared_set hx hk
  simp only [CheckExist.Prog.ids, progOf, List.map_map, List.getElem?_map, Option.map_eq_some_iff, Function.comp] at this
  obtain ⟨m, h1, h2⟩ := this
  exact ⟨_, m, h1, by rw [← h2] at hn; exact hn⟩

theorem denotes_enum {A : Parse.Ast} {n : Id} (h : Denotes (progOf A) n .enum) :
    ∃ m ∈ A.enums, SameName m.name.orig n.orig := by
  obtain ⟨x, hx, hn, hk⟩ := h
  have := declared_enum hx hk
  simp only [CheckExist.Prog.ids, progOf, List.map_map, List.getElem?_map, Option.map_eq_some_iff, Function.comp] at this
  obtain ⟨m, h1, h2⟩ := this
  exact ⟨m, List.mem_of_getElem? h1, by rw [← h2] at hn; exact hn⟩

theorem Tab.node_inj {A tab} (h : Tab A tab) {j k : Nat} {m n : Parse.Node} (hj : A.nodes[j]? = some m) (hk : A.nodes[k]? = some n)
    (hs : SameName m.name.orig n.name.orig) : j = k := by
  have h1 := (h.node n.name.orig j).2 ⟨m, hj, hs⟩
  have h2 := (h.node n.name.orig k).2 ⟨n, hk, rfl⟩
  rw [h1] at h2
  simpa using h2

theorem Tab.set_inj {A tab} (h : Tab A tab) {j k : Nat} {m n : Parse.NodeSet} (hj : A.nodesets[j]? = some m)
    (hk : A.nodesets[k]? = some n) (hs : SameName m.name.orig n.name.orig) : j = k := by
  have h1 := (h.set n.name.orig j).2 ⟨m, hj, hs⟩
  have h2 := (h.set n.name.orig k).2 ⟨n, hk, rfl⟩
  rw [h1] at h2
  simpa using h2

end Verif.Semantic
