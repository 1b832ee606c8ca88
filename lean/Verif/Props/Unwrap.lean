import Verif.Lemmas.Unwrap
import Verif.Props.Sets

/-!
# Property C23: set expressions
-/

namespace Verif.Props
open Verif.Ids Verif.Str Verif.Sets Verif.Grammar Verif.Unwrap Verif.Spec.Str Verif.Spec.Ids Verif.Spec.Sets Verif.Spec.Unwrap

/-- A checked specification: names are unique, the table is complete, every reference names a nodeset. -/
structure Checked (ast : Ast) (tab : List (Ste Decl)) (env : List (Id × Expr)) (travs : List Expr) : Prop where
  wf : WfAst ast
  table : BSTast ast = .ok tab
  names : env.map (·.1) = ast.nodesets
  members : ∀ e ∈ env.map (·.2) ++ travs, ∀ i ∈ members e, WfId i
  refs : ∀ e ∈ env.map (·.2) ++ travs, ∀ i ∈ refs e, WfId i ∧ ∃ x ∈ env, SameName x.1.orig i.orig

/-- The nodesets are linked such that a nodeset refers to later ones, or to ones given by a literal. -/
def Ordered (env : List (Id × Expr)) : Prop := ∀ (k : Nat) x, env[k]? = some x → ∀ i ∈ refs x.2, ∀ (j : Nat) y, env[j]? = some y →
  SameName y.1.orig i.orig → k < j ∨ IsLit y.2

theorem plain_mem (kind : Kind) (l : List Id) (s k : Nat) (n : Id) (h : l[k]? = some n) :
    (n, (⟨kind, s + k⟩ : Decl)) ∈ plainDecls kind s l := by
  induction l generalizing s k with
  | nil => simp at h
  | cons a l ih =>
    cases k with
    | zero =>
      simp only [List.getElem?_cons_zero, Option.some.injEq] at h
      subst h
      simp [plainDecls]
    | succ k =>
      have := ih (s + 1) k (by simpa using h)
      rw [Nat.add_assoc, Nat.add_comm 1 k] at this
      exact List.mem_cons_of_mem _ this

theorem nodeset_declared (ast : Ast) (k : Nat) (n : Id) (h : ast.nodesets[k]? = some n) :
    (n, (⟨.nodeset, k⟩ : Decl)) ∈ declared ast := by
  have := plain_mem .nodeset ast.nodesets 0 k n h
  rw [Nat.zero_add] at this
  simp only [declared, List.mem_append]
  exact Or.inr (Or.inr (Or.inr (Or.inr (Or.inl this))))

theorem Checked.lookup {ast tab env travs} (c : Checked ast tab env travs) {i : Id} (hi : WfId i) {k x} (hx : env[k]? = some x)
    (hs : SameName x.1.orig i.orig) : STlookup tab (some i) = .ok (some ⟨.nodeset, k⟩) := by
  have h1 : ast.nodesets[k]? = some x.1 := by rw [← c.names]; simp [hx]
  exact (C24_lookup ast c.wf tab c.table i hi).1 (x.1, ⟨.nodeset, k⟩) (nodeset_declared ast k x.1 h1) hs

theorem Checked.wfName {ast tab env travs} (c : Checked ast tab env travs) {x} (hx : x ∈ env) : WfId x.1 := by
  obtain ⟨k, hk⟩ := List.getElem?_of_mem hx
  have h1 : ast.nodesets[k]? = some x.1 := by rw [← c.names]; simp [hk]
  exact c.wf.1 _ (nodeset_declared ast k x.1 h1)

theorem Checked.unique {ast tab env travs} (c : Checked ast tab env travs) : ∀ x ∈ env, ∀ y ∈ env,
    SameName x.1.orig y.1.orig → x = y := by
  intro x hx y hy hs
  obtain ⟨k, hk⟩ := List.getElem?_of_mem hx
  obtain ⟨j, hj⟩ := List.getElem?_of_mem hy
  have h1 := c.lookup (c.wfName hy) hk hs
  have h2 := c.lookup (c.wfName hy) hj rfl
  rw [h1] at h2
  have : k = j := by simpa using h2
  subst this
  rw [hk] at hj
  exact Option.some.inj hj

/-- Ordered definitions are acyclic: every nodeset denotes a set. -/
theorem ordered_den {ast tab env travs} (c : Checked ast tab env travs) (ho : Ordered env) (m : Nat) :
    ∀ (k : Nat) x, env.length - k ≤ m → env[k]? = some x → ∃ S, Den env x.2 S := by
  induction m with
  | zero =>
    intro k x hm hx
    rw [List.getElem?_eq_none (by omega)] at hx
    cases hx
  | succ m ih =>
    intro k x hm hx
    apply den_exists
    intro i hi
    obtain ⟨_, y, hy, hs⟩ := c.refs x.2
      (List.mem_append_left _ (List.mem_map.2 ⟨x, List.mem_of_getElem? hx, rfl⟩)) i hi
    obtain ⟨j, hj⟩ := List.getElem?_of_mem hy
    refine ⟨y, hy, hs, ?_⟩
    rcases ho k x hx i hi j y hj hs with h | h
    · exact ih j y (by omega) hj
    · cases he : y.2 with
      | lit names => exact ⟨_, .lit names⟩
      | ref _ => rw [he] at h; exact h.elim
      | op _ _ _ => rw [he] at h; exact h.elim

theorem valid_noDup {h t} (v : Valid h t) : NoDup t := by
  refine List.Pairwise.imp_of_mem ?_ v.sorted
  intro a b ha hb hl hs
  exact hl.ne ((sameName_iff (v.wf a ha) (v.wf b hb)).1 hs)

/-- The position that the table gives for a name. -/
def position (tab : List (Ste Decl)) (i : Id) : Nat :=
  match STlookup tab (some i) with
  | .ok (some d) => d.index
  | _ => 0

/-- C23, partial: for specifications in which every nodeset refers to nodesets that are linked later (that is, declared
earlier in the source: the parser prepends) or to literals, resolution succeeds, and every traversal and every nodeset
ends up with the set its expression denotes, each name in it once.  References in traversals are arbitrary.  Missing: other acyclic
definitions; for these see `C23_forward_false`. -/
theorem C23_resolve_partial (ast : Ast) (tab : List (Ste Decl)) (env : List (Id × Expr)) (travs : List Expr)
    (c : Checked ast tab env travs) (ho : Ordered env) :
    ∃ (qs : List (Option Nat)) (st : St) (N : Nat),
      (∀ fuel, N ≤ fuel → USEast tab fuel (env.map (·.2)) travs = .ok (qs, st)) ∧
      (∀ (j : Nat) e, travs[j]? = some e → ∃ (q : Option Nat) (t : Tree) (S : CStr → Prop), qs[j]? = some q ∧ litAt st q = .ok t ∧ Den env e S ∧
        (∀ n, Has t n ↔ S n) ∧ NoDup t ∧ ∀ i ∈ elems t, WfId i) ∧
      ∀ (k : Nat) x, env[k]? = some x → ∃ (p : Option Nat) (t : Tree) (S : CStr → Prop), st.nodesets[k]? = some p ∧ litAt st p = .ok t ∧ Den env x.2 S ∧
        (∀ n, Has t n ↔ S n) ∧ NoDup t ∧ ∀ i ∈ elems t, WfId i := by
  have hden : ∀ (k : Nat) x, env[k]? = some x → ∃ S, Den env x.2 S := fun k x hx => ordered_den c ho _ k x (Nat.le_refl _) hx
  have hres : ∀ e ∈ env.map (·.2) ++ travs, ∀ i ∈ refs e, ∃ (k : Nat) (x : Id × Expr), env[k]? = some x ∧ SameName x.1.orig i.orig ∧
      STlookup tab (some i) = .ok (some ⟨.nodeset, k⟩) ∧ position tab i = k := by
    intro e he i hi
    obtain ⟨hw, y, hy, hs⟩ := c.refs e he i hi
    obtain ⟨k, hk⟩ := List.getElem?_of_mem hy
    have := c.lookup hw hk hs
    exact ⟨k, y, hk, hs, this, by simp [position, this]⟩
  have hidx : ∀ e ∈ env.map (·.2) ++ travs, ∀ i ∈ refs e, ∃ x, env[position tab i]? = some x ∧ SameName x.1.orig i.orig := by
    intro e he i hi
    obtain ⟨k, x, h1, h2, h3, h4⟩ := hres e he i hi
    exact ⟨x, by rw [h4]; exact h1, h2⟩
  have hmem : ∀ {k : Nat} {x}, env[k]? = some x → x.2 ∈ env.map (·.2) ++ travs := fun hx =>
    List.mem_append_left _ (List.mem_map.2 ⟨_, List.mem_of_getElem? hx, rfl⟩)
  have hD : ∀ k e, (env.map (·.2))[k]? = some e → ∀ n, denAt env k n ↔ sem (denAt env) (position tab) e n := by
    intro k e he n
    rw [List.getElem?_map] at he
    obtain ⟨x, hx, rfl⟩ := Option.map_eq_some_iff.1 he
    obtain ⟨S, hS⟩ := hden k x hx
    rw [← den_sem (position tab) c.unique (hidx x.2 (hmem hx)) hS n]
    constructor
    · rintro ⟨y, S', h1, h2, h3⟩
      rw [hx] at h1
      cases h1
      exact (Den.unique c.unique hS h2 n).2 h3
    · intro h
      exact ⟨x, S, hx, hS, h⟩
  have hlt : ∀ {k : Nat} {x}, env[k]? = some x → k < (env.map (·.2)).length := by
    intro k x hx
    rw [List.length_map]
    exact (List.getElem?_eq_some_iff.1 hx).1
  obtain ⟨qs, st, N, h1, h2, h3⟩ := USE_ok (tab := tab) (es := env.map (·.2)) (idx := position tab) (D := denAt env) travs
    (fun e he => c.members e (List.mem_append_left _ he)) (fun e he => c.members e (List.mem_append_right _ he))
    (by
      intro k e he hnl i hi
      rw [List.getElem?_map] at he
      obtain ⟨x, hx, rfl⟩ := Option.map_eq_some_iff.1 he
      obtain ⟨j, y, h1, h2, h3, h4⟩ := hres x.2 (hmem hx) i hi
      refine ⟨by simp [target, h3, h4], ?_⟩
      rw [h4]
      refine ⟨hlt h1, ?_⟩
      rcases ho k x hx i hi j y h1 h2 with h | h
      · exact Or.inl h
      · exact Or.inr ⟨y.2, by simp [h1], h⟩)
    (by
      intro e he i hi
      obtain ⟨j, y, h1, h2, h3, h4⟩ := hres e (List.mem_append_right _ he) i hi
      refine ⟨by simp [target, h3, h4], ?_⟩
      rw [h4]
      exact ⟨hlt h1, Or.inl (Nat.zero_le _)⟩)
    hD
  refine ⟨qs, st, N, h1, ?_, ?_⟩
  · intro j e he
    obtain ⟨q, t, h4, h5, hv, h6⟩ := h2 j e he
    have hin : e ∈ env.map (·.2) ++ travs := List.mem_append_right _ (List.mem_of_getElem? he)
    obtain ⟨S, hS⟩ := den_exists env e (fun i hi => by
      obtain ⟨k, x, h1, h2, _⟩ := hres e hin i hi
      exact ⟨x, List.mem_of_getElem? h1, h2, hden k x h1⟩)
    exact ⟨q, t, S, h4, h5, hS, fun n => (h6 n).trans (den_sem (position tab) c.unique (hidx e hin) hS n).symm, valid_noDup hv, hv.wf⟩
  · intro k x hx
    obtain ⟨p, t, h4, h5, hv, h6⟩ := h3 k (hlt hx)
    obtain ⟨S, hS⟩ := hden k x hx
    refine ⟨p, t, S, h4, h5, hS, fun n => (h6 n).trans ?_, valid_noDup hv, hv.wf⟩
    rw [hD k x.2 (by simp [hx]) n]
    exact (den_sem (position tab) c.unique (hidx x.2 (hmem hx)) hS n).symm

/-- Nodes `x`, `y`, nodesets `m`, `n`. -/
def astMN (first second : CStr) : Ast := { nodes := [mkId [120], mkId [121]], nodesets := [mkId first, mkId second] }

/-- Their symbol table. -/
def tabMN (first second : CStr) : List (Ste Decl) :=
  [⟨mkId [120], ⟨.node, 0⟩⟩, ⟨mkId [121], ⟨.node, 1⟩⟩, ⟨mkId first, ⟨.nodeset, 0⟩⟩, ⟨mkId second, ⟨.nodeset, 1⟩⟩]

/-- `m = {x} | {y}`. -/
def exprM : Expr := .op .union (.lit [mkId [120]]) (.lit [mkId [121]])

/-- `n = M`. -/
def exprN : Expr := .ref (mkId [77])

theorem mk_wf (s : CStr) : WfId (mkId s) := ⟨rfl, rfl⟩

theorem checkedMN (env : List (Id × Expr)) (first second : CStr) (h1 : env.map (·.1) = [mkId first, mkId second])
    (hb : BSTast (astMN first second) = .ok (tabMN first second))
    (he : ∀ x ∈ env, x.2 = exprM ∨ x.2 = exprN) (hm : (mkId [109], exprM) ∈ env) (hn : (mkId [110], exprN) ∈ env) :
    Checked (astMN first second) (tabMN first second) env [.ref (mkId [78])] := by
  refine ⟨⟨?_, ?_⟩, hb, h1, ?_, ?_⟩
  · intro x hx
    simp only [declared, astMN, namedDecls, plainDecls, List.map_nil, List.nil_append, List.mem_append, List.mem_cons,
      List.not_mem_nil, or_false] at hx
    rcases hx with (rfl | rfl) | rfl | rfl <;> exact mk_wf _
  · intro f hf
    simp [functions, astMN] at hf
  · intro e hx i hi
    simp only [List.mem_append, List.mem_map, List.mem_cons, List.not_mem_nil, or_false] at hx
    rcases hx with ⟨x, hx, rfl⟩ | rfl
    · rcases he x hx with h | h <;> rw [h] at hi
      · simp only [exprM, members, List.mem_append, List.mem_cons, List.not_mem_nil, or_false] at hi
        rcases hi with rfl | rfl <;> exact mk_wf _
      · simp [exprN, members] at hi
    · simp [members] at hi
  · intro e hx i hi
    simp only [List.mem_append, List.mem_map, List.mem_cons, List.not_mem_nil, or_false] at hx
    rcases hx with ⟨x, hx, rfl⟩ | rfl
    · rcases he x hx with h | h <;> rw [h] at hi
      · simp [exprM, refs] at hi
      · simp only [exprN, refs, List.mem_cons, List.not_mem_nil, or_false] at hi
        subst hi
        exact ⟨mk_wf _, _, hm, by unfold SameName; decide⟩
    · simp only [refs, List.mem_cons, List.not_mem_nil, or_false] at hi
      subst hi
      exact ⟨mk_wf _, _, hn, by unfold SameName; decide⟩

example : Checked (astMN [110] [109]) (tabMN [110] [109]) [(mkId [110], exprN), (mkId [109], exprM)] [.ref (mkId [78])] ∧
    Ordered [(mkId [110], exprN), (mkId [109], exprM)] := by
  refine ⟨checkedMN _ _ _ rfl rfl (by simp) (by simp) (by simp), ?_⟩
  intro k x hx i hi j y hj hs
  match k, hx with
  | 0, hx =>
    simp only [List.getElem?_cons_zero, Option.some.injEq] at hx
    subst hx
    simp only [exprN, refs, List.mem_cons, List.not_mem_nil, or_false] at hi
    subst hi
    match j, hj with
    | 0, hj =>
      simp only [List.getElem?_cons_zero, Option.some.injEq] at hj
      subst hj
      exact absurd hs (by unfold SameName; decide)
    | j + 1, _ => exact Or.inl (by omega)
  | 1, hx =>
    simp only [List.getElem?_cons_zero, List.getElem?_cons_succ, Option.some.injEq] at hx
    subst hx
    simp [exprM, refs] at hi

/-- C23 is false in general: with `nodeset n = m` before `nodeset m = {x} | {y}` in the source (the list is linked in
reverse) and a traversal of `n`, all names resolve and every expression denotes a set, but resolution frees the
reference to `m` twice. -/
theorem C23_forward_false : ∃ (ast : Ast) (tab : List (Ste Decl)) (env : List (Id × Expr)) (travs : List Expr),
    Checked ast tab env travs ∧ (∀ x ∈ env, ∃ S, Den env x.2 S) ∧ (∀ e ∈ travs, ∃ S, Den env e S) ∧
    ∀ fuel, (USEast tab (fuel + 20) (env.map (·.2)) travs).isUB = true := by
  have hM : Den [(mkId [109], exprM), (mkId [110], exprN)] exprM _ := .union (.lit _) (.lit _)
  have hN : Den [(mkId [109], exprM), (mkId [110], exprN)] exprN _ :=
    .ref (x := (mkId [109], exprM)) (by simp) (by unfold SameName; decide) hM
  refine ⟨astMN [109] [110], tabMN [109] [110], [(mkId [109], exprM), (mkId [110], exprN)], [.ref (mkId [78])],
    checkedMN _ _ _ rfl rfl (by simp) (by simp) (by simp), ?_, ?_, ?_⟩
  · intro x hx
    simp only [List.mem_cons, List.not_mem_nil, or_false] at hx
    rcases hx with rfl | rfl
    · exact ⟨_, hM⟩
    · exact ⟨_, hN⟩
  · intro e he
    simp only [List.mem_cons, List.not_mem_nil, or_false] at he
    subst he
    exact ⟨_, .ref (x := (mkId [110], exprN)) (by simp) (by unfold SameName; decide) hN⟩
  · intro fuel
    rfl

end Verif.Props
