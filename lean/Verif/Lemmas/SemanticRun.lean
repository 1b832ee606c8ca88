import Verif.Lemmas.SemanticSets
import Verif.Lemmas.Fuel
import Verif.Props.Propagate

/-!
# Lemmas about the phase `semantic`: the actions up to the propagation of attributes
-/

namespace Verif.Unwrap
open Verif.Ids Verif.Sets Verif.Grammar Res

theorem opt_le {f g : Nat → St → Res (Option Nat × St)} (h : ∀ a st, Le (f a st) (g a st)) (p : Option Nat) (st : St) :
    Le (opt f p st) (opt g p st) := by
  cases p with
  | none => exact Le.refl _
  | some a => exact h a st

mutual
theorem visit_le (tab : List (Ste Decl)) : ∀ {a b : Nat}, a ≤ b → ∀ n st, Le (visit tab a n st) (visit tab b n st)
  | 0, _, _, n, st => by rw [visit]; exact Le.div _
  | a + 1, 0, h, _, _ => absurd h (by omega)
  | a + 1, b + 1, h, n, st => by
    rw [visit, visit]
    split
    · exact Le.refl _
    · exact Le.refl _
    · refine Le.bind (opt_le (fun n st => visit_le tab (Nat.le_of_succ_le_succ h) n st) _ _) fun x => ?_
      refine Le.bind (Le.refl _) fun x => ?_
      refine Le.bind (Le.refl _) fun x => ?_
      refine Le.bind (opt_le (fun n st => visit_le tab (Nat.le_of_succ_le_succ h) n st) _ _) fun x => ?_
      exact Le.refl _
    · refine Le.bind (Le.refl _) fun k => ?_
      split
      · exact Le.refl _
      · refine Le.bind (Le.refl _) fun u => ?_
        cases u with
        | true => exact Le.bind (visitSet_le tab (Nat.le_of_succ_le_succ h) _ _) fun _ => Le.refl _
        | false => exact Le.refl _
theorem visitSet_le (tab : List (Ste Decl)) : ∀ {a b : Nat}, a ≤ b → ∀ k st, Le (visitSet tab a k st) (visitSet tab b k st)
  | 0, _, _, k, st => by rw [visitSet]; exact Le.div _
  | a + 1, 0, h, _, _ => absurd h (by omega)
  | a + 1, b + 1, h, k, st => by
    rw [visitSet, visitSet]
    split
    · exact Le.refl _
    · refine Le.bind (opt_le (fun n st => visit_le tab (Nat.le_of_succ_le_succ h) n st) _ _) fun x => ?_
      exact visitSet_le tab (Nat.le_of_succ_le_succ h) _ _
end

theorem visitTravs_le (tab : List (Ste Decl)) {a b : Nat} (h : a ≤ b) : ∀ ts st, Le (visitTravs tab a ts st) (visitTravs tab b ts st)
  | [], _ => Le.refl _
  | _ :: ts, _ => Le.bind (opt_le (fun n st => visit_le tab h n st) _ _) fun _ =>
    Le.bind (visitTravs_le tab h ts _) fun _ => Le.refl _

theorem USEast_le (tab : List (Ste Decl)) {a b : Nat} (h : a ≤ b) (sets travs : List Expr) :
    Le (USEast tab a sets travs) (USEast tab b sets travs) :=
  Le.bind (Le.refl _) fun _ => Le.bind (visitTravs_le tab h _ _) fun _ => Le.bind (visitSet_le tab h _ _) fun _ => Le.refl _

end Verif.Unwrap

namespace Verif.Spec.Semantic

theorem Pairs.left {α β : Type} {R : α → β → Prop} {l : List α} {m : List β} (h : Pairs R l m) {k : Nat} {a : α} (ha : l[k]? = some a) :
    ∃ b, m[k]? = some b ∧ R a b := by
  induction h generalizing k with
  | nil => cases ha
  | cons h1 _ ih =>
    cases k with
    | zero => cases ha; exact ⟨_, rfl, h1⟩
    | succ k => exact ih ha

theorem Pairs.right {α β : Type} {R : α → β → Prop} {l : List α} {m : List β} (h : Pairs R l m) {k : Nat} {b : β} (hb : m[k]? = some b) :
    ∃ a, l[k]? = some a ∧ R a b := by
  induction h generalizing k with
  | nil => cases hb
  | cons h1 _ ih =>
    cases k with
    | zero => cases hb; exact ⟨_, rfl, h1⟩
    | succ k => exact ih hb

theorem Pairs.imp {α β : Type} {R Q : α → β → Prop} {l : List α} {m : List β} (h : Pairs R l m)
    (hi : ∀ a b, a ∈ l → b ∈ m → R a b → Q a b) : Pairs Q l m := by
  induction h with
  | nil => exact .nil
  | cons h1 _ ih =>
    exact .cons (hi _ _ List.mem_cons_self List.mem_cons_self h1)
      (ih fun a b ha hb => hi a b (List.mem_cons_of_mem _ ha) (List.mem_cons_of_mem _ hb))

theorem Pairs.length {α β : Type} {R : α → β → Prop} {l : List α} {m : List β} (h : Pairs R l m) : m.length = l.length := by
  induction h with
  | nil => rfl
  | cons _ _ ih => simp [ih]

theorem Pairs.mem_left {α β : Type} {R : α → β → Prop} {l : List α} {m : List β} (h : Pairs R l m) {a : α} (ha : a ∈ l) :
    ∃ b ∈ m, R a b := by
  obtain ⟨k, hk⟩ := List.getElem?_of_mem ha
  obtain ⟨b, h1, h2⟩ := h.left hk
  exact ⟨b, List.mem_of_getElem? h1, h2⟩

theorem Pairs.mem_right {α β : Type} {R : α → β → Prop} {l : List α} {m : List β} (h : Pairs R l m) {b : β} (hb : b ∈ m) :
    ∃ a ∈ l, R a b := by
  obtain ⟨k, hk⟩ := List.getElem?_of_mem hb
  obtain ⟨a, h1, h2⟩ := h.right hk
  exact ⟨a, List.mem_of_getElem? h1, h2⟩

theorem Pairs.map_eq {α β γ : Type} {R : α → β → Prop} {l : List α} {m : List β} (h : Pairs R l m) (f : α → γ) (g : β → γ)
    (he : ∀ a b, R a b → g b = f a) : m.map g = l.map f := by
  induction h with
  | nil => rfl
  | cons h1 _ ih => simp [ih, he _ _ h1]

end Verif.Spec.Semantic

namespace Verif.Semantic
open Verif.Str Verif.Ids Verif.Grammar
open Verif.Spec.Str (lowerB upperB SameName)
open Verif.Spec.Ids Verif.Spec.CheckExist Verif.Spec.Semantic
open Verif.Propagate (Target Entry)
open Verif.Spec.Sets (elems Has NoDup)
open Verif.Spec.Unwrap (Den)

/-! ### Resolution of set expressions -/

theorem treesOf_ok {st : Unwrap.St} : ∀ {l : List Nat}, (∀ k ∈ l, ∃ p t, st.nodesets[k]? = some p ∧ Unwrap.litAt st p = .ok t) →
    ∃ ts, treesOf st l = .ok ts ∧ Pairs (fun k t => ∃ p, st.nodesets[k]? = some p ∧ Unwrap.litAt st p = .ok t) l ts
  | [], _ => ⟨[], rfl, .nil⟩
  | k :: l, h => by
    obtain ⟨p, t, h1, h2⟩ := h k List.mem_cons_self
    obtain ⟨ts, h3, h4⟩ := treesOf_ok fun k hk => h k (List.mem_cons_of_mem _ hk)
    exact ⟨t :: ts, by simp only [treesOf, h1, h2, h3, Res.bind_ok], .cons ⟨p, h1, h2⟩ h4⟩

/-- The literals in the nodesets. -/
def Trees (A : Parse.Ast) (trees : List Sets.Tree) : Prop :=
  ∀ (k : Nat) s, A.nodesets[k]? = some s → ∃ t, trees[k]? = some t ∧ IsTree A s.expr t

theorem unwrap_ok {A tab} (h : Right A tab) (he : Earlier A) :
    ∃ st trees N, (∀ fuel, N ≤ fuel → ∃ qs, Unwrap.USEast tab fuel (A.nodesets.map fun s => exprOf s.expr) (travs A) = .ok (qs, st)) ∧
      treesOf st (List.range A.nodesets.length) = .ok trees ∧ Trees A trees := by
  obtain ⟨qs, st, N, h1, _, h3⟩ := Props.C23_resolve_partial _ tab (defs A) (travs A) h.checked (ordered_of he)
  rw [defs_expr] at h1
  have key : ∀ (k : Nat) s, A.nodesets[k]? = some s → ∃ p t, st.nodesets[k]? = some p ∧ Unwrap.litAt st p = .ok t ∧ IsTree A s.expr t := by
    intro k s hs
    obtain ⟨p, t, S, g1, g2, g3, g4, g5, g6⟩ := h3 k (idOf s.name, exprOf s.expr) (by simp [defs, hs])
    exact ⟨p, t, g1, g2, ⟨S, g3, g4⟩, g5, g6⟩
  obtain ⟨ts, h4, h5⟩ := treesOf_ok (st := st) (l := List.range A.nodesets.length) (by
    intro k hk
    obtain ⟨p, t, g1, g2, _⟩ := key k _ (List.getElem?_eq_getElem (List.mem_range.1 hk))
    exact ⟨p, t, g1, g2⟩)
  refine ⟨st, ts, N, fun fuel hf => ⟨qs, h1 fuel hf⟩, h4, fun k s hs => ?_⟩
  have hlt := (List.getElem?_eq_some_iff.1 hs).1
  obtain ⟨t, g1, p, g2, g3⟩ := h5.left (k := k) (a := k) (by simp [hlt])
  obtain ⟨p', t', f1, f2, f3⟩ := key k s hs
  rw [g2] at f1
  cases f1
  rw [g3] at f2
  cases f2
  exact ⟨t, g1, f3⟩

/-! ### Attributes before the propagation -/

/-- An attribute of the description as the propagation reads it. -/
structure Like (a : Parse.Attr) (b : Propagate.Attr) : Prop where
  name : b.name = code (idOf a.name).lwr
  inh : b.inh = a.inherited
  syn : b.syn = a.synthesized

/-- The type of an attribute is a string, or names a node or nodeset. -/
def Pointer (p : CheckExist.Prog) (a : Parse.Attr) : Prop :=
  a.type = .string ∨ a.type = .link_or_enum ∧ ∃ r, a.ref = some r ∧ (Denotes p (idOf r) .node ∨ Denotes p (idOf r) .nodeset)

/-- The type of an attribute, and what it refers to. -/
structure TypeKept (p : CheckExist.Prog) (a : Parse.Attr) (b : Propagate.Attr) : Prop where
  ref : ∀ r, a.ref = some r → b.ref = code r.orig
  user : b.type = .user ↔ a.type = .user
  basic : ∀ k, b.type = .basic k → k = primOf a.type ∧ a.type ≠ .user ∧ a.type ≠ .link_or_enum
  link : b.type = .link → a.type = .link_or_enum ∧ ∃ r, a.ref = some r ∧ (Denotes p (idOf r) .node ∨ Denotes p (idOf r) .nodeset)
  enum : b.type = .linkOrEnum → a.type = .link_or_enum ∧ ∃ r, a.ref = some r ∧ Denotes p (idOf r) .enum

/-- What the propagation does not compare. -/
structure Kept (p : CheckExist.Prog) (a : Parse.Attr) (b : Propagate.Attr) : Prop where
  life : b.lifetimes = a.lifetimes
  ctor : b.ctor = a.ctor
  orig : b.orig = code a.name.orig
  typed : AttrOk p (attrOf a) → (a.type = .link_or_enum → a.ref.isSome) → TypeKept p a b
  pointer : AttrOk p (attrOf a) → (a.type = .link_or_enum → a.ref.isSome) →
    ((b.type = .link ∨ b.type = .basic (primOf .string)) ↔ Pointer p a)

theorem typeKept_of {p : CheckExist.Prog} {a : Parse.Attr} {c : CheckExist.Attr} (h : AttrFilled p (attrOf a) c)
    (h1 : AttrOk p (attrOf a)) (h2 : a.type = .link_or_enum → a.ref.isSome) : TypeKept p a (pAttr a c) := by
  obtain ⟨_, hr, h3, h4⟩ := h
  have href : ∀ r, a.ref = some r → (pAttr a c).ref = code r.orig := by
    intro r e
    have : c.ref = some (idOf r) := by rw [hr, attrOf]; simp [e]
    simp only [pAttr, this, idOf]
  by_cases ht : a.type = .link_or_enum
  · have ht' : (attrOf a).type = .linkOrEnum := by simp [attrOf, typeOf, ht]
    obtain ⟨r, hr⟩ := Option.isSome_iff_exists.1 (h2 ht)
    have hr' : idOf r ∈ (attrOf a).ref := by simp [attrOf, hr]
    have h5 := h4 ht' _ hr'
    rcases h1 ht' _ hr' with h6 | h6 | h6
    · have e := h5.1 (.inl h6)
      exact ⟨href, by simp [pAttr, e, ht], by simp [pAttr, e], fun _ => ⟨ht, r, hr, .inl h6⟩, by simp [pAttr, e]⟩
    · have e := h5.1 (.inr h6)
      exact ⟨href, by simp [pAttr, e, ht], by simp [pAttr, e], fun _ => ⟨ht, r, hr, .inr h6⟩, by simp [pAttr, e]⟩
    · have e := h5.2 h6
      exact ⟨href, by simp [pAttr, e, ht], by simp [pAttr, e], by simp [pAttr, e], fun _ => ⟨ht, r, hr, h6⟩⟩
  · have ht' : (attrOf a).type ≠ .linkOrEnum := by
      cases e : a.type <;> simp_all [attrOf, typeOf]
    have h5 := h3 ht'
    refine ⟨href, ?_, ?_, ?_, ?_⟩ <;> (cases e : a.type <;> simp_all [attrOf, typeOf, pAttr, primOf])

theorem kept_of {p : CheckExist.Prog} {a : Parse.Attr} {c : CheckExist.Attr} (h : AttrFilled p (attrOf a) c) :
    Kept p a (pAttr a c) := by
  refine ⟨rfl, rfl, by rw [pAttr, h.1]; rfl, fun h1 h2 => typeKept_of h h1 h2, fun h1 h2 => ?_⟩
  obtain ⟨_, _, h3, h4⟩ := h
  by_cases ht : a.type = .link_or_enum
  · have ht' : (attrOf a).type = .linkOrEnum := by simp [attrOf, typeOf, ht]
    obtain ⟨r, hr⟩ := Option.isSome_iff_exists.1 (h2 ht)
    have hr' : idOf r ∈ (attrOf a).ref := by simp [attrOf, hr]
    have h5 := h4 ht' _ hr'
    have h6 := h1 ht' _ hr'
    constructor
    · intro hb
      refine Or.inr ⟨ht, r, hr, ?_⟩
      rcases h6 with h6 | h6 | h6
      · exact Or.inl h6
      · exact Or.inr h6
      · have := h5.2 h6
        simp [pAttr, this] at hb
    · rintro (hs | ⟨_, r', hr2, hd⟩)
      · rw [ht] at hs; cases hs
      · rw [hr] at hr2
        cases hr2
        left
        simp [pAttr, h5.1 hd]
  · have ht' : (attrOf a).type ≠ .linkOrEnum := by
      cases e : a.type <;> simp_all [attrOf, typeOf]
    have h5 := h3 ht'
    cases e : a.type <;> simp_all [attrOf, typeOf, pAttr, primOf, Pointer]

/-- Copies are the same. -/
theorem kept_copy {p : CheckExist.Prog} {a : Parse.Attr} {b : Propagate.Attr} (h : Kept p a b) : Kept p a { b with propagated := true } :=
  ⟨h.life, h.ctor, h.orig, fun h1 h2 => ⟨(h.typed h1 h2).ref, (h.typed h1 h2).user, (h.typed h1 h2).basic, (h.typed h1 h2).link, (h.typed h1 h2).enum⟩, h.pointer⟩

theorem allPairs_left {α : Type} {R : α → α → Prop} {l m : List α} (h : AllPairs R l m) {k : Nat} {a : α} (ha : l[k]? = some a) :
    ∃ b, m[k]? = some b ∧ R a b := by
  induction h generalizing k with
  | nil => cases ha
  | cons h1 _ ih =>
    cases k with
    | zero => cases ha; exact ⟨_, rfl, h1⟩
    | succ k => exact ih ha

theorem zip_like {p : CheckExist.Prog} : ∀ {l : List Parse.Attr} {m : List CheckExist.Attr}, AllPairs (AttrFilled p) (l.map attrOf) m →
    Pairs (fun a b => Like a b ∧ b.propagated = false ∧ Kept p a b) l (List.zipWith pAttr l m)
  | [], _, _ => by
    rw [List.zipWith_nil_left]
    exact .nil
  | a :: l, m, h => by
    cases h with
    | cons h1 h2 =>
      rw [List.zipWith_cons_cons]
      exact .cons ⟨⟨by simp only [pAttr, h1.1, attrOf], rfl, rfl⟩, rfl, kept_of h1⟩ (zip_like h2)

theorem init_node {A : Parse.Ast} {q : CheckExist.Prog} (hf : Filled (progOf A) q) {i : Nat} {n : Parse.Node} (hn : A.nodes[i]? = some n) :
    Pairs (fun a b => Like a b ∧ b.propagated = false ∧ Kept (progOf A) a b) n.attrs (initOf A q (.node i)) := by
  obtain ⟨m, h1, _, _, h2, _⟩ := allPairs_left hf.nodes (k := i) (a := ⟨idOf n.name, n.root, n.children.map childOf, n.attrs.map attrOf⟩)
    (by simp [progOf, hn])
  rw [initOf, hn, h1]
  exact zip_like h2

theorem init_set {A : Parse.Ast} {q : CheckExist.Prog} (hf : Filled (progOf A) q) {i : Nat} {n : Parse.NodeSet}
    (hn : A.nodesets[i]? = some n) : Pairs (fun a b => Like a b ∧ b.propagated = false ∧ Kept (progOf A) a b) n.attrs (initOf A q (.set i)) := by
  obtain ⟨m, h1, _, _, h2⟩ := allPairs_left hf.sets (k := i) (a := ⟨idOf n.name, some (exprOf n.expr), n.attrs.map attrOf⟩)
    (by simp [progOf, hn])
  rw [initOf, hn, h1]
  exact zip_like h2

theorem distinct_codes {l : List Parse.Name} (h : Spec.CheckExist.Distinct (l.map idOf)) : (l.map fun n => code (idOf n).lwr).Nodup := by
  rw [Spec.CheckExist.Distinct, List.pairwise_map] at h
  rw [List.Nodup, List.pairwise_map]
  exact h.imp fun {a b} hn he => hn (lwr_code.1 he)

theorem Right.nodeNames {A tab} (h : Right A tab) {i : Nat} {n : Parse.Node} (hn : A.nodes[i]? = some n) :
    (n.attrs.map fun a => code (idOf a.name).lwr).Nodup ∧ (n.children.map fun c => code (idOf c.name).lwr).Nodup := by
  have := (h.sound.fields ⟨idOf n.name, n.root, n.children.map childOf, n.attrs.map attrOf⟩
    (List.mem_map.2 ⟨n, List.mem_of_getElem? hn, rfl⟩)).1
  simp only [Spec.CheckExist.Distinct, List.map_map, List.pairwise_append] at this
  constructor
  · have := distinct_codes (l := n.attrs.map (·.name)) (by
      simp only [Spec.CheckExist.Distinct, List.map_map]; exact this.1)
    simpa [List.map_map, Function.comp_def] using this
  · have := distinct_codes (l := n.children.map (·.name)) (by
      simp only [Spec.CheckExist.Distinct, List.map_map]; exact this.2.1)
    simpa [List.map_map, Function.comp_def] using this

theorem Right.setNames {A tab} (h : Right A tab) {i : Nat} {n : Parse.NodeSet} (hn : A.nodesets[i]? = some n) :
    (n.attrs.map fun a => code (idOf a.name).lwr).Nodup := by
  have := (h.sound.setAttrs ⟨idOf n.name, some (exprOf n.expr), n.attrs.map attrOf⟩
    (List.mem_map.2 ⟨n, List.mem_of_getElem? hn, rfl⟩)).1
  simp only [Spec.CheckExist.Distinct, List.map_map] at this
  have := distinct_codes (l := n.attrs.map (·.name)) (by simp only [Spec.CheckExist.Distinct, List.map_map]; exact this)
  simpa [List.map_map, Function.comp_def] using this

/-! ### Child tables -/

theorem narrows_shape (tab : List (Ste Decl)) (e : Parse.SetE) :
    Spec.ChildTable.HasInterOrDiff (shapeOf tab (exprOf e)) ↔ Narrows e := by
  induction e with
  | lit l => exact Iff.rfl
  | ref n => exact Iff.rfl
  | op o l r ihl ihr =>
    cases o <;> simp [exprOf, shapeOf, Spec.ChildTable.HasInterOrDiff, Narrows, ihl, ihr]

theorem tables_ok {A tab} (h : Right A tab) : ∃ s, ChildTable.NCTast (A.nodesets.map fun s => shapeOf tab (exprOf s.expr))
    A.nodesets.length = .ok s ∧ (s.errors = 0 → ∀ i, i < A.nodesets.length → (s.table i).Nodup ∧ ∀ k, k ∈ s.table i ↔
      Spec.Graph.Path (Names A) i k) ∧
    ∀ (i : Nat) x, A.nodesets[i]? = some x → (s.illegal i = true ↔ Narrows x.expr) := by
  have e1 : (A.nodesets.map fun s => shapeOf tab (exprOf s.expr)) = (nsList A tab).map (·.shape) := by
    rw [nsList, List.map_map]
    refine List.map_congr_left fun s hs => ?_
    exact (shape_ns h (exprOf_wf _) (h.expr hs)).symm
  have e2 : ((nsList A tab).map (·.shape)).length = A.nodesets.length := by simp [nsList]
  obtain ⟨s, h1, h2, h3, h6⟩ := Props.C25_tables ((nsList A tab).map (·.shape)) (by
    intro e he
    rw [e2]
    simp only [nsList, List.map_map, List.mem_map, Function.comp] at he
    obtain ⟨x, hx, rfl⟩ := he
    exact resolved_ns h (exprOf_wf _) (h.expr hx)) A.nodesets.length (by rw [e2]; exact Nat.le_refl _)
  refine ⟨s, by rw [e1]; exact h1, fun he i hi => ?_, fun i x hx => ?_⟩
  · obtain ⟨h4, h5⟩ := h3 (h2.1 he) i (by rw [e2]; exact hi)
    exact ⟨h4, fun k => by rw [h5, path_iff (refers_names h)]⟩
  · rw [h6 i (shapeOf tab (exprOf x.expr)) (by rw [← e1]; simp [hx]), narrows_shape]

/-! ### The propagation -/

theorem start_of {A tab q table trees} (h : Right A tab) (hf : Filled (progOf A) q) (ht : Trees A trees)
    (hn : ∀ i, i < A.nodesets.length → (table i).Nodup) : Spec.Propagate.Start (praEnv A tab table trees) (initOf A q) := by
  have tree : ∀ i, i < A.nodesets.length → ∃ s t, A.nodesets[i]? = some s ∧ (praEnv A tab table trees).members i = (preorder t).map (entryOf tab) ∧
      IsTree A s.expr t ∧ ExprOk (progOf A) (exprOf s.expr) := by
    intro i hi
    have hs := List.getElem?_eq_getElem hi
    obtain ⟨t, h1, h2⟩ := ht i _ hs
    exact ⟨_, t, hs, by simp [praEnv, h1], h2, h.expr (List.mem_of_getElem? hs)⟩
  constructor
  · intro t
    rw [Spec.Propagate.Distinct]
    cases t with
    | node i =>
      cases hn : A.nodes[i]? with
      | none => simp [initOf, hn]
      | some n =>
        rw [(init_node hf hn).map_eq (fun a => code (idOf a.name).lwr) (·.name) fun a b hab => hab.1.name]
        exact (h.nodeNames hn).1
    | set i =>
      cases hn : A.nodesets[i]? with
      | none => simp [initOf, hn]
      | some n =>
        rw [(init_set hf hn).map_eq (fun a => code (idOf a.name).lwr) (·.name) fun a b hab => hab.1.name]
        exact h.setNames hn
  · intro i a ha
    cases hn : A.nodesets[i]? with
    | none => simp [initOf, hn] at ha
    | some n =>
      obtain ⟨_, _, hb⟩ := (init_set hf hn).mem_right ha
      exact hb.2.1
  · intro i x hi hx
    obtain ⟨s, t, _, h2, h3, h4⟩ := tree i hi
    rw [h2] at hx
    obtain ⟨j, hj, rfl⟩ := List.mem_map.1 hx
    obtain ⟨k, _, he, _⟩ := entries_nodes h h4 h3 hj
    exact ⟨k, he⟩
  · intro i hi
    obtain ⟨s, t, _, h2, h3, h4⟩ := tree i hi
    rw [h2]
    exact entries_nodup h h4 h3
  · exact hn

/-- The members of a nodeset, as the propagation and the scheduler read them. -/
theorem members_iff {A tab table trees} (h : Right A tab) (ht : Trees A trees) {i : Nat} (hi : i < A.nodesets.length) (k : Nat) :
    Entry.node k ∈ (praEnv A tab table trees).members i ↔ Member A i k := by
  have hs := List.getElem?_eq_getElem hi
  obtain ⟨t, h1, h2⟩ := ht i _ hs
  have e : (praEnv A tab table trees).members i = (preorder t).map (entryOf tab) := by simp [praEnv, h1]
  rw [e, member_entry h h2]
  obtain ⟨D, h3, h4⟩ := h2.means
  constructor
  · rintro ⟨n, h5, h6⟩
    exact ⟨_, n, D, hs, h5, den_means h3 _ rfl, (h4 _).1 h6⟩
  · rintro ⟨s, n, D', g1, g2, g3, g4⟩
    rw [hs] at g1
    cases g1
    exact ⟨n, g2, (h4 _).2 ((Unwrap.Den.unique h.checked.unique h3 (means_den g3) _).2 g4)⟩

theorem member_lt {A i k} (h : Member A i k) : k < A.nodes.length := by
  obtain ⟨_, n, _, _, h1, _⟩ := h
  exact (List.getElem?_eq_some_iff.1 h1).1

/-- The positions satisfy the meaning of the expressions. -/
theorem membership_of {A tab trees} (h : Right A tab) (ht : Trees A trees) :
    Spec.Nodesets.Membership (nsList A tab) (Member A) := by
  intro i e he m
  simp only [nsList, List.getElem?_map, Option.map_eq_some_iff] at he
  obtain ⟨s, hs, rfl⟩ := he
  have hM : ∀ (i : Nat) s, A.nodesets[i]? = some s → ∃ D, Den (defs A) (exprOf s.expr) D ∧
      ∀ k, Member A i k ↔ ∃ n, A.nodes[k]? = some n ∧ D n.name.orig := by
    intro i s hs
    obtain ⟨t, _, h2⟩ := ht i s hs
    obtain ⟨D, h3, h4⟩ := h2.means
    refine ⟨D, h3, fun k => ⟨?_, ?_⟩⟩
    · rintro ⟨s', n, D', g1, g2, g3, g4⟩
      rw [hs] at g1
      cases g1
      exact ⟨n, g2, (Unwrap.Den.unique h.checked.unique h3 (means_den g3) _).2 g4⟩
    · rintro ⟨n, g1, g2⟩
      exact ⟨s, n, D, hs, g1, den_means h3 _ rfl, g2⟩
  obtain ⟨D, h3, h4⟩ := hM i s hs
  rw [h4, in_ns h hM h3 (exprOf_wf _) (h.expr (List.mem_of_getElem? hs))]

end Verif.Semantic
