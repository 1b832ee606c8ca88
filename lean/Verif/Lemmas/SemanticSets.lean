import Verif.Lemmas.SemanticNames
import Verif.Spec.Semantic
import Verif.Props.ChildTable
import Verif.Props.CheckAttrs

/-!
# Lemmas about the phase `semantic`: nodesets and their members
-/

namespace Verif.Semantic
open Verif.Str Verif.Ids Verif.Grammar
open Verif.Spec.Str (lowerB upperB SameName)
open Verif.Spec.Ids Verif.Spec.CheckExist Verif.Spec.Semantic
open Verif.Propagate (Target Entry)
open Verif.Spec.Sets (elems Has NoDup)
open Verif.Spec.Unwrap (Den)

/-! ### References -/

theorem parsed_of {A : Parse.Ast} (h : TypesNamed A) : Parsed (progOf A) := by
  have key : ∀ (t : Parse.AT), typeOf t = .linkOrEnum → t = .link_or_enum := by intro t; cases t <;> simp [typeOf]
  constructor
  · intro t ht a ha hl
    obtain ⟨t, h1, rfl⟩ := List.mem_map.1 ht
    obtain ⟨a, h2, rfl⟩ := List.mem_map.1 ha
    simpa [dataOf] using h.data t h1 a h2 (key _ hl)
  · intro t ht a ha hl
    obtain ⟨t, h1, rfl⟩ := List.mem_map.1 ht
    obtain ⟨a, h2, rfl⟩ := List.mem_map.1 ha
    simpa [attrOf] using h.nodes t h1 a h2 (key _ hl)
  · intro t ht a ha hl
    obtain ⟨t, h1, rfl⟩ := List.mem_map.1 ht
    obtain ⟨a, h2, rfl⟩ := List.mem_map.1 ha
    simpa [attrOf] using h.sets t h1 a h2 (key _ hl)
  · intro t ht a ha
    obtain ⟨t, h1, rfl⟩ := List.mem_map.1 ht
    obtain ⟨a, h2, rfl⟩ := List.mem_map.1 ha
    rfl

/-- What the first two actions establish. -/
theorem exist_ok {A : Parse.Ast} {tab : List (Ste Decl)} (hp : TypesNamed A) (h1 : BSTast (progOf A).ids = .ok tab)
    {o : CheckExist.Out} (h2 : CheckExist.CEXast tab (progOf A) = .ok o) : Sound (progOf A) ∧ Filled (progOf A) o.prog ∧
      Props.Marked (progOf A) o := by
  have hc := Props.check_core (progOf A) (prog_wf A) (parsed_of hp) tab h1
  rcases Classical.em (Sound (progOf A)) with hs | hs
  · obtain ⟨o', h3, h4, h5⟩ := hc.1 hs
    rw [h2] at h3
    cases h3
    exact ⟨hs, h4, h5⟩
  · rw [hc.2 hs] at h2
    cases h2

/-! ### Set expressions -/

/-- The expressions are right. -/
structure Right (A : Parse.Ast) (tab : List (Ste Decl)) : Prop where
  bst : BSTast (progOf A).ids = .ok tab
  table : Tab A tab
  sound : Sound (progOf A)

/-- What the name of a node or nodeset is looked up to. -/
def idx (tab : List (Ste Decl)) (i : Id) : Nat := ((stFind i.lwr tab).map (·.index)).getD 0

/-- An expression with positions for names. -/
def nsOf (tab : List (Ste Decl)) : Expr → Spec.Nodesets.Expr
  | .lit names => .lit (names.map (idx tab))
  | .ref i => .ref (idx tab i)
  | .op .union l r => .union (nsOf tab l) (nsOf tab r)
  | .op .inter l r => .inter (nsOf tab l) (nsOf tab r)
  | .op .diff l r => .diff (nsOf tab l) (nsOf tab r)

theorem Right.node {A tab} (h : Right A tab) {i : Id} (hw : WfId i) (hd : Denotes (progOf A) i .node) :
    ∃ m, A.nodes[idx tab i]? = some m ∧ SameName m.name.orig i.orig ∧ stFind i.lwr tab = some ⟨.node, idx tab i⟩ := by
  obtain ⟨k, m, h1, h2⟩ := denotes_node hd
  have h3 := (h.table.node i.orig k).2 ⟨m, h1, h2⟩
  rw [← hw.1] at h3
  have : idx tab i = k := by simp [idx, h3]
  rw [this]
  exact ⟨m, h1, h2, h3⟩

theorem Right.set {A tab} (h : Right A tab) {i : Id} (hw : WfId i) (hd : Denotes (progOf A) i .nodeset) :
    ∃ m, A.nodesets[idx tab i]? = some m ∧ SameName m.name.orig i.orig ∧ stFind i.lwr tab = some ⟨.nodeset, idx tab i⟩ := by
  obtain ⟨k, m, h1, h2⟩ := denotes_set hd
  have h3 := (h.table.set i.orig k).2 ⟨m, h1, h2⟩
  rw [← hw.1] at h3
  have : idx tab i = k := by simp [idx, h3]
  rw [this]
  exact ⟨m, h1, h2, h3⟩

theorem shape_ns {A tab} (h : Right A tab) {e : Expr} (hw : ∀ u ∈ exprIds e, WfId u) (he : ExprOk (progOf A) e) :
    (nsOf tab e).shape = shapeOf tab e := by
  induction e with
  | lit names => rfl
  | ref i =>
    obtain ⟨m, _, _, h3⟩ := h.set (hw i (by simp [exprIds])) he
    simp only [nsOf, Spec.Nodesets.Expr.shape, shapeOf, h3, Option.map_some]
  | op o l r ihl ihr =>
    have hl := ihl (fun u hu => hw u (List.mem_append_left _ hu)) he.1
    have hr := ihr (fun u hu => hw u (List.mem_append_right _ hu)) he.2
    cases o <;> simp only [nsOf, Spec.Nodesets.Expr.shape, shapeOf, hl, hr]

theorem resolved_ns {A tab} (h : Right A tab) {e : Expr} (hw : ∀ u ∈ exprIds e, WfId u) (he : ExprOk (progOf A) e) :
    Spec.ChildTable.Resolved A.nodesets.length (nsOf tab e).shape := by
  induction e with
  | lit names => trivial
  | ref i =>
    obtain ⟨m, h1, _, _⟩ := h.set (hw i (by simp [exprIds])) he
    exact ⟨_, rfl, (List.getElem?_eq_some_iff.1 h1).1⟩
  | op o l r ihl ihr =>
    have hl := ihl (fun u hu => hw u (List.mem_append_left _ hu)) he.1
    have hr := ihr (fun u hu => hw u (List.mem_append_right _ hu)) he.2
    cases o <;> exact ⟨hl, hr⟩

theorem Right.expr {A tab} (h : Right A tab) {s : Parse.NodeSet} (hs : s ∈ A.nodesets) : ExprOk (progOf A) (exprOf s.expr) :=
  h.sound.setExprs ⟨idOf s.name, some (exprOf s.expr), s.attrs.map attrOf⟩ (List.mem_map.2 ⟨s, hs, rfl⟩) _ rfl

theorem Right.travExpr {A tab} (h : Right A tab) {t : Parse.Traversal} (ht : t ∈ A.traversals) {e : Parse.SetE}
    (he : t.nodes = some e) : ExprOk (progOf A) (exprOf e) :=
  h.sound.travNodes ⟨idOf t.name, some (idOf t.uid), t.nodes.map exprOf, t.data.map dataOf⟩ (List.mem_map.2 ⟨t, ht, rfl⟩) _
    (by simp [he])

theorem mentions_ns {A tab} (h : Right A tab) {e : Parse.SetE} (he : ExprOk (progOf A) (exprOf e)) (j : Nat) :
    Spec.ChildTable.Mentions (nsOf tab (exprOf e)).shape j ↔
      ∃ t, A.nodesets[j]? = some t ∧ ∃ n ∈ named e, SameName t.name.orig n.orig := by
  induction e with
  | lit names => simp [exprOf, nsOf, Spec.Nodesets.Expr.shape, Spec.ChildTable.Mentions, named]
  | ref n =>
    obtain ⟨m, h1, h2, h3⟩ := h.set (idOf_wf n) he
    simp only [exprOf, nsOf, Spec.Nodesets.Expr.shape, Spec.ChildTable.Mentions, named, Option.some.injEq, List.mem_singleton,
      exists_eq_left]
    constructor
    · rintro rfl
      exact ⟨m, h1, h2⟩
    · rintro ⟨t, h4, h5⟩
      exact h.table.set_inj h1 h4 (Eq.trans h2 (Eq.symm h5))
  | op o l r ihl ihr =>
    have hlr : ExprOk (progOf A) (exprOf l) ∧ ExprOk (progOf A) (exprOf r) := by cases o <;> exact he
    have key : Spec.ChildTable.Mentions (nsOf tab (exprOf (.op o l r))).shape j ↔
        Spec.ChildTable.Mentions (nsOf tab (exprOf l)).shape j ∨ Spec.ChildTable.Mentions (nsOf tab (exprOf r)).shape j := by
      cases o <;> exact Iff.rfl
    rw [key, ihl hlr.1, ihr hlr.2]
    simp only [named, List.mem_append]
    constructor
    · rintro (⟨t, h1, n, h2, h3⟩ | ⟨t, h1, n, h2, h3⟩)
      · exact ⟨t, h1, n, Or.inl h2, h3⟩
      · exact ⟨t, h1, n, Or.inr h2, h3⟩
    · rintro ⟨t, h1, n, h2 | h2, h3⟩
      · exact Or.inl ⟨t, h1, n, h2, h3⟩
      · exact Or.inr ⟨t, h1, n, h2, h3⟩

/-- The expressions of the nodesets, with positions. -/
def nsList (A : Parse.Ast) (tab : List (Ste Decl)) : List Spec.Nodesets.Expr := A.nodesets.map fun s => nsOf tab (exprOf s.expr)

theorem refers_names {A tab} (h : Right A tab) (i j : Nat) :
    Spec.ChildTable.Refers ((nsList A tab).map (·.shape)) i j ↔ Names A i j := by
  constructor
  · rintro ⟨e, he, hm⟩
    simp only [nsList, List.map_map, List.getElem?_map, Option.map_eq_some_iff, Function.comp] at he
    obtain ⟨s, h1, rfl⟩ := he
    obtain ⟨t, h2, h3⟩ := (mentions_ns h (h.expr (List.mem_of_getElem? h1)) j).1 hm
    exact ⟨s, t, h1, h2, h3⟩
  · rintro ⟨s, t, h1, h2, h3⟩
    refine ⟨(nsOf tab (exprOf s.expr)).shape, by simp [nsList, h1], ?_⟩
    exact (mentions_ns h (h.expr (List.mem_of_getElem? h1)) j).2 ⟨t, h2, h3⟩

theorem path_iff {E F : Nat → Nat → Prop} (h : ∀ i j, E i j ↔ F i j) (i j : Nat) : Spec.Graph.Path E i j ↔ Spec.Graph.Path F i j := by
  constructor
  · intro p
    induction p with
    | edge e => exact .edge ((h _ _).1 e)
    | step e _ ih => exact .step ((h _ _).1 e) ih
  · intro p
    induction p with
    | edge e => exact .edge ((h _ _).2 e)
    | step e _ ih => exact .step ((h _ _).2 e) ih

/-! ### The meaning of set expressions -/

/-- The definitions of the nodesets. -/
def defs (A : Parse.Ast) : List (Id × Expr) := A.nodesets.map fun s => (idOf s.name, exprOf s.expr)

/-- The expressions of the traversals. -/
def travs (A : Parse.Ast) : List Expr := A.traversals.filterMap fun t => t.nodes.map exprOf

theorem defs_expr (A : Parse.Ast) : (defs A).map (·.2) = A.nodesets.map fun s => exprOf s.expr := by
  simp [defs, List.map_map, Function.comp_def]

theorem refs_named (e : Parse.SetE) : Spec.Unwrap.refs (exprOf e) = (named e).map idOf := by
  induction e with
  | lit names => rfl
  | ref n => rfl
  | op o l r ihl ihr =>
    cases o <;> simp only [exprOf, Spec.Unwrap.refs, named, List.map_append, ihl, ihr]

theorem members_ids (e : Expr) : ∀ i ∈ Spec.Unwrap.members e, i ∈ exprIds e := by
  induction e with
  | lit names => exact fun i hi => hi
  | ref n => intro i hi; cases hi
  | op o l r ihl ihr => exact fun i hi => List.mem_append.2 ((List.mem_append.1 hi).imp (ihl i) (ihr i))

theorem refs_ids (e : Expr) : ∀ i ∈ Spec.Unwrap.refs e, i ∈ exprIds e := by
  induction e with
  | lit names => intro i hi; cases hi
  | ref n => exact fun i hi => hi
  | op o l r ihl ihr => exact fun i hi => List.mem_append.2 ((List.mem_append.1 hi).imp (ihl i) (ihr i))

theorem refs_ok {p : CheckExist.Prog} {e : Expr} (h : ExprOk p e) : ∀ i ∈ Spec.Unwrap.refs e, Denotes p i .nodeset := by
  induction e with
  | lit names => intro i hi; cases hi
  | ref n => intro i hi; cases List.mem_singleton.1 hi; exact h
  | op o l r ihl ihr => exact fun i hi => (List.mem_append.1 hi).elim (ihl h.1 i) (ihr h.2 i)

theorem Right.all {A tab} (h : Right A tab) {e : Expr} (he : e ∈ (defs A).map (·.2) ++ travs A) :
    (∀ u ∈ exprIds e, WfId u) ∧ ExprOk (progOf A) e := by
  rcases List.mem_append.1 he with he | he
  · rw [defs_expr] at he
    obtain ⟨s, hs, rfl⟩ := List.mem_map.1 he
    exact ⟨exprOf_wf _, h.expr hs⟩
  · obtain ⟨t, ht, he⟩ := List.mem_filterMap.1 he
    obtain ⟨f, hf, rfl⟩ := Option.map_eq_some_iff.1 he
    exact ⟨exprOf_wf _, h.travExpr ht hf⟩

theorem Right.checked {A tab} (h : Right A tab) : Props.Checked (progOf A).ids tab (defs A) (travs A) := by
  refine ⟨ids_wf A, h.bst, ?_, fun e he i hi => (h.all he).1 i (members_ids e i hi), fun e he i hi => ?_⟩
  · simp [defs, CheckExist.Prog.ids, progOf, List.map_map, Function.comp_def]
  · have hw := (h.all he).1 i (refs_ids e i hi)
    refine ⟨hw, ?_⟩
    obtain ⟨m, h1, h2, _⟩ := h.set hw (refs_ok (h.all he).2 i hi)
    exact ⟨(idOf m.name, exprOf m.expr), List.mem_map.2 ⟨m, List.mem_of_getElem? h1, rfl⟩, h2⟩

theorem ordered_of {A} (h : Earlier A) : Props.Ordered (defs A) := by
  intro k x hx i hi j y hy hs
  simp only [defs, List.getElem?_map, Option.map_eq_some_iff] at hx hy
  obtain ⟨s, h1, rfl⟩ := hx
  obtain ⟨t, h2, rfl⟩ := hy
  rw [refs_named] at hi
  obtain ⟨n, hn, rfl⟩ := List.mem_map.1 hi
  rcases h k s h1 n hn j t h2 hs with h3 | ⟨l, h3⟩
  · exact Or.inl h3
  · right
    simp [h3, exprOf, Spec.Unwrap.IsLit]

theorem means_den {A : Parse.Ast} {e : Parse.SetE} {D : CStr → Prop} (h : Means A e D) : Den (defs A) (exprOf e) D := by
  induction h with
  | lit names =>
    have := Den.lit (env := defs A) (names.map idOf)
    have e : (fun n => ∃ i ∈ names.map idOf, SameName i.orig n) = fun n => ∃ i ∈ names, SameName i.orig n := by
      funext n
      exact propext ⟨fun ⟨i, hi, hs⟩ => let ⟨a, ha, e⟩ := List.mem_map.1 hi; ⟨a, ha, by rw [← e] at hs; exact hs⟩,
        fun ⟨a, ha, hs⟩ => ⟨idOf a, List.mem_map.2 ⟨a, ha, rfl⟩, hs⟩⟩
    rw [e] at this
    exact this
  | ref h1 h2 _ ih => exact .ref (x := (_, _)) (List.mem_map.2 ⟨_, h1, rfl⟩) h2 ih
  | union _ _ ih1 ih2 => exact .union ih1 ih2
  | inter _ _ ih1 ih2 => exact .inter ih1 ih2
  | diff _ _ ih1 ih2 => exact .diff ih1 ih2

theorem den_means {A : Parse.Ast} {f : Expr} {D : CStr → Prop} (h : Den (defs A) f D) : ∀ e, exprOf e = f → Means A e D := by
  induction h with
  | lit names =>
    intro e he
    cases e with
    | lit l =>
      simp only [exprOf, Expr.lit.injEq] at he
      subst he
      have := Means.lit (A := A) l
      have e : (fun n => ∃ i ∈ l.map idOf, SameName i.orig n) = fun n => ∃ i ∈ l, SameName i.orig n := by
        funext n
        exact propext ⟨fun ⟨i, hi, hs⟩ => let ⟨a, ha, e⟩ := List.mem_map.1 hi; ⟨a, ha, by rw [← e] at hs; exact hs⟩,
          fun ⟨a, ha, hs⟩ => ⟨idOf a, List.mem_map.2 ⟨a, ha, rfl⟩, hs⟩⟩
      rw [e]
      exact this
    | ref n => cases he
    | op o l r => cases o <;> cases he
  | ref h1 h2 _ ih =>
    intro e he
    cases e with
    | lit l => cases he
    | ref n =>
      simp only [exprOf, Expr.ref.injEq] at he
      subst he
      obtain ⟨s, hs, rfl⟩ := List.mem_map.1 h1
      exact .ref hs h2 (ih _ rfl)
    | op o l r => cases o <;> cases he
  | union _ _ ih1 ih2 =>
    intro e he
    cases e with
    | lit l => cases he
    | ref n => cases he
    | op o l r => cases o <;> cases he; exact .union (ih1 _ rfl) (ih2 _ rfl)
  | inter _ _ ih1 ih2 =>
    intro e he
    cases e with
    | lit l => cases he
    | ref n => cases he
    | op o l r => cases o <;> cases he; exact .inter (ih1 _ rfl) (ih2 _ rfl)
  | diff _ _ ih1 ih2 =>
    intro e he
    cases e with
    | lit l => cases he
    | ref n => cases he
    | op o l r => cases o <;> cases he; exact .diff (ih1 _ rfl) (ih2 _ rfl)

/-- A name in the meaning of an expression is that of a node. -/
theorem den_node {A tab} (h : Right A tab) {e : Expr} {D : CStr → Prop} (hd : Den (defs A) e D) (he : ExprOk (progOf A) e) (n : CStr)
    (hn : D n) : ∃ (k : Nat) (m : Parse.Node), A.nodes[k]? = some m ∧ SameName m.name.orig n := by
  induction hd with
  | lit names =>
    obtain ⟨i, hi, hs⟩ := hn
    obtain ⟨k, m, h1, h2⟩ := denotes_node (he i hi)
    exact ⟨k, m, h1, Eq.trans h2 hs⟩
  | ref h1 _ _ ih =>
    obtain ⟨s, hs, rfl⟩ := List.mem_map.1 h1
    exact ih (h.expr hs) hn
  | union _ _ ih1 ih2 => exact hn.elim (ih1 he.1) (ih2 he.2)
  | inter _ _ ih1 _ => exact ih1 he.1 hn.1
  | diff _ _ ih1 _ => exact ih1 he.1 hn.1

/-! ### Members -/

theorem preorder_perm (t : Sets.Tree) : (preorder t).Perm (elems t) := by
  induction t with
  | null => exact .refl _
  | node a b i l r ihl ihr =>
    rw [preorder, elems]
    exact ((ihl.append ihr).cons i).trans List.perm_middle.symm

theorem entry_node {A tab} (h : Tab A tab) {i : Id} (hw : WfId i) (k : Nat) :
    entryOf tab i = .node k ↔ ∃ n, A.nodes[k]? = some n ∧ SameName n.name.orig i.orig := by
  rw [← h.node i.orig k, ← hw.1, entryOf]
  split
  · rename_i h1; rw [h1]; simp
  · rename_i j h1; rw [h1]; simp
  · rename_i d h1 h2
    rw [h2]
    simp only [Option.some.injEq, reduceCtorEq, false_iff]
    rintro rfl
    exact h1 k rfl

/-- What resolution has left in a nodeset is what its expression means. -/
structure IsTree (A : Parse.Ast) (e : Parse.SetE) (t : Sets.Tree) : Prop where
  means : ∃ D, Den (defs A) (exprOf e) D ∧ ∀ n, Has t n ↔ D n
  once : NoDup t
  wf : ∀ i ∈ elems t, WfId i

theorem member_entry {A tab} (h : Right A tab) {e : Parse.SetE} {t : Sets.Tree} (ht : IsTree A e t) (k : Nat) :
    Entry.node k ∈ (preorder t).map (entryOf tab) ↔ ∃ n, A.nodes[k]? = some n ∧ Has t n.name.orig := by
  rw [List.mem_map]
  constructor
  · rintro ⟨i, hi, he⟩
    have hi := (preorder_perm t).mem_iff.1 hi
    obtain ⟨n, h1, h2⟩ := (entry_node h.table (ht.wf i hi) k).1 he
    exact ⟨n, h1, i, hi, Eq.symm h2⟩
  · rintro ⟨n, h1, i, hi, h2⟩
    exact ⟨i, (preorder_perm t).mem_iff.2 hi, (entry_node h.table (ht.wf i hi) k).2 ⟨n, h1, Eq.symm h2⟩⟩

theorem entries_nodes {A tab} (h : Right A tab) {e : Parse.SetE} (he : ExprOk (progOf A) (exprOf e)) {t : Sets.Tree}
    (ht : IsTree A e t) {i : Id} (hi : i ∈ preorder t) : ∃ k n, entryOf tab i = .node k ∧ A.nodes[k]? = some n ∧
      SameName n.name.orig i.orig := by
  have hi := (preorder_perm t).mem_iff.1 hi
  obtain ⟨D, h1, h2⟩ := ht.means
  obtain ⟨k, m, h3, h4⟩ := den_node h h1 he i.orig ((h2 _).1 ⟨i, hi, rfl⟩)
  exact ⟨k, m, (entry_node h.table (ht.wf i hi) k).2 ⟨m, h3, h4⟩, h3, h4⟩

theorem entries_nodup {A tab} (h : Right A tab) {e : Parse.SetE} (he : ExprOk (progOf A) (exprOf e)) {t : Sets.Tree}
    (ht : IsTree A e t) : ((preorder t).map (entryOf tab)).Nodup := by
  have h1 : (preorder t).Pairwise fun a b => ¬ SameName a.orig b.orig :=
    (List.Perm.pairwise_iff (fun hab hba => hab (Eq.symm hba)) (preorder_perm t)).2 ht.once
  rw [List.Nodup, List.pairwise_map]
  refine h1.imp_of_mem fun {a b} ha hb hn he' => hn ?_
  obtain ⟨k, n, e1, e2, e3⟩ := entries_nodes h he ht ha
  obtain ⟨j, m, f1, f2, f3⟩ := entries_nodes h he ht hb
  rw [e1, f1] at he'
  cases he'
  rw [e2] at f2
  cases f2
  exact Eq.trans (Eq.symm e3) f3

/-- The meaning of expressions, with positions. -/
theorem in_ns {A tab} (h : Right A tab) {M : Nat → Nat → Prop}
    (hM : ∀ (i : Nat) s, A.nodesets[i]? = some s → ∃ D, Den (defs A) (exprOf s.expr) D ∧ ∀ k, M i k ↔ ∃ n, A.nodes[k]? = some n ∧ D n.name.orig)
    {e : Expr} {D : CStr → Prop} (hd : Den (defs A) e D) (hw : ∀ u ∈ exprIds e, WfId u) (he : ExprOk (progOf A) e) (k : Nat) :
    Spec.Nodesets.In M (nsOf tab e) k ↔ ∃ n, A.nodes[k]? = some n ∧ D n.name.orig := by
  induction hd with
  | lit names =>
    simp only [nsOf, Spec.Nodesets.In, List.mem_map]
    constructor
    · rintro ⟨i, hi, rfl⟩
      obtain ⟨m, h1, h2, _⟩ := h.node (hw i hi) (he i hi)
      exact ⟨m, h1, i, hi, Eq.symm h2⟩
    · rintro ⟨n, h1, i, hi, hs⟩
      obtain ⟨m, h2, h3, _⟩ := h.node (hw i hi) (he i hi)
      exact ⟨i, hi, h.table.node_inj h2 h1 (Eq.trans h3 hs)⟩
  | @ref i x S h1 h2 h3 _ =>
    obtain ⟨m, g1, g2, _⟩ := h.set (hw i (by simp [exprIds])) he
    obtain ⟨D', d1, d2⟩ := hM _ m g1
    simp only [nsOf, Spec.Nodesets.In]
    rw [d2]
    have : (idOf m.name, exprOf m.expr) = x := h.checked.unique _ (List.mem_map.2 ⟨m, List.mem_of_getElem? g1, rfl⟩) _ h1
      (Eq.trans g2 (Eq.symm h2))
    subst this
    have hu := Unwrap.Den.unique h.checked.unique d1 h3
    simp only [hu]
  | union _ _ ih1 ih2 =>
    simp only [nsOf, Spec.Nodesets.In]
    rw [ih1 (fun u hu => hw u (List.mem_append_left _ hu)) he.1, ih2 (fun u hu => hw u (List.mem_append_right _ hu)) he.2]
    constructor
    · rintro (⟨n, h1, h2⟩ | ⟨n, h1, h2⟩)
      · exact ⟨n, h1, Or.inl h2⟩
      · exact ⟨n, h1, Or.inr h2⟩
    · rintro ⟨n, h1, h2 | h2⟩
      · exact Or.inl ⟨n, h1, h2⟩
      · exact Or.inr ⟨n, h1, h2⟩
  | inter _ _ ih1 ih2 =>
    simp only [nsOf, Spec.Nodesets.In]
    rw [ih1 (fun u hu => hw u (List.mem_append_left _ hu)) he.1, ih2 (fun u hu => hw u (List.mem_append_right _ hu)) he.2]
    constructor
    · rintro ⟨⟨n, h1, h2⟩, ⟨m, h3, h4⟩⟩
      rw [h1] at h3
      cases h3
      exact ⟨n, h1, h2, h4⟩
    · rintro ⟨n, h1, h2, h3⟩
      exact ⟨⟨n, h1, h2⟩, n, h1, h3⟩
  | diff _ _ ih1 ih2 =>
    simp only [nsOf, Spec.Nodesets.In]
    rw [ih1 (fun u hu => hw u (List.mem_append_left _ hu)) he.1, ih2 (fun u hu => hw u (List.mem_append_right _ hu)) he.2]
    constructor
    · rintro ⟨⟨n, h1, h2⟩, h3⟩
      exact ⟨n, h1, h2, fun h4 => h3 ⟨n, h1, h4⟩⟩
    · rintro ⟨n, h1, h2, h3⟩
      refine ⟨⟨n, h1, h2⟩, ?_⟩
      rintro ⟨m, h4, h5⟩
      rw [h1] at h4
      cases h4
      exact h3 h5

end Verif.Semantic
