import Verif.Spec.Ids
import Verif.Lemmas.Str

/-!
# Lemmas about names and the symbol table
-/

namespace Verif.Ids
open Verif.Str Verif.Spec.Ids Verif.Spec.Str

theorem sameName_iff {a b : Id} (ha : WfId a) (hb : WfId b) : SameName a.orig b.orig ↔ a.lwr = b.lwr := by
  rw [SameName, ha.1, hb.1]

theorem stFind_none {V : Type} (k : CStr) (t : List (Ste V)) : stFind k t = none ↔ ∀ e ∈ t, e.key.lwr ≠ k := by
  induction t with
  | nil => simp [stFind]
  | cons e t ih =>
    simp only [stFind, STReq, strcmpEq]
    by_cases h : e.key.lwr = k
    · simp [h]
    · simp [h, ih]

theorem stFind_some {V : Type} (k : CStr) (t : List (Ste V)) (v : V) (h : stFind k t = some v) :
    ∃ e ∈ t, e.key.lwr = k ∧ e.value = v := by
  induction t with
  | nil => simp [stFind] at h
  | cons e t ih =>
    simp only [stFind, STReq, strcmpEq] at h
    by_cases hk : e.key.lwr = k
    · simp only [hk, beq_self_eq_true, if_true, Option.some.injEq] at h
      exact ⟨e, by simp, hk, h⟩
    · simp only [beq_iff_eq, hk, if_false] at h
      obtain ⟨e', he, h1, h2⟩ := ih h
      exact ⟨e', by simp [he], h1, h2⟩

theorem stFind_of_mem {V : Type} (t : List (Ste V)) (hp : t.Pairwise fun a b => a.key.lwr ≠ b.key.lwr)
    (e : Ste V) (he : e ∈ t) : stFind e.key.lwr t = some e.value := by
  induction t with
  | nil => simp at he
  | cons x t ih =>
    simp only [List.pairwise_cons] at hp
    simp only [stFind, STReq, strcmpEq]
    rcases List.mem_cons.1 he with rfl | he
    · simp
    · have := hp.1 e he
      simp [this, ih hp.2 he]

/-- The handler for a list of names, seen as one loop. -/
def declareAll (st : BST) : List (Id × Decl) → BST
  | [] => st
  | (k, v) :: rest =>
    declareAll (match stFind k.lwr st.table with
      | some _ => { st with errors := st.errors + 1 }
      | none => addToST st k v) rest

theorem declare_eq (st : BST) (k : Id) (v : Decl) : declare st k v = .ok (declareAll st [(k, v)]) := by
  simp only [declare, STlookup, Res.bind_ok, declareAll]
  cases stFind k.lwr st.table <;> rfl

theorem declareAll_append (st : BST) (a b : List (Id × Decl)) :
    declareAll st (a ++ b) = declareAll (declareAll st a) b := by
  induction a generalizing st with
  | nil => rfl
  | cons x a ih => obtain ⟨k, v⟩ := x; simp only [List.cons_append, declareAll, ih]

theorem declareAll_funcs (st : BST) (l : List (Id × Decl)) : (declareAll st l).funcs = st.funcs := by
  induction l generalizing st with
  | nil => rfl
  | cons x l ih =>
    obtain ⟨k, v⟩ := x
    simp only [declareAll, ih]
    cases stFind k.lwr st.table <;> rfl

theorem declareOpt_eq (st : BST) (k : Option Id) (v : Decl) :
    declareOpt st k v = .ok (declareAll st (k.toList.map fun x => (x, v))) := by
  cases k with
  | none => rfl
  | some k => exact declare_eq st k v

theorem bstNamed_eq (kind : Kind) (l : List (Id × Option Id)) (i : Nat) (st : BST) :
    bstNamed kind i l st = .ok (declareAll st (namedDecls kind i l)) := by
  induction l generalizing i st with
  | nil => rfl
  | cons x l ih =>
    obtain ⟨n, u⟩ := x
    simp only [bstNamed, declare_eq, declareOpt_eq, Res.bind_ok, ih, namedDecls]
    rw [← declareAll_append, ← declareAll_append]
    rfl

theorem bstPlain_eq (kind : Kind) (l : List Id) (i : Nat) (st : BST) :
    bstPlain kind i l st = .ok (declareAll st (plainDecls kind i l)) := by
  induction l generalizing i st with
  | nil => rfl
  | cons x l ih =>
    simp only [bstPlain, declare_eq, Res.bind_ok, ih, plainDecls]
    rw [← declareAll_append]
    rfl

/-- Keep the functions of one state and the rest of another. -/
def withFuncs (st : BST) (f : List (Ste Decl)) : BST := { st with funcs := f }

theorem declareAll_withFuncs (st : BST) (f : List (Ste Decl)) (l : List (Id × Decl)) :
    declareAll (withFuncs st f) l = withFuncs (declareAll st l) f := by
  induction l generalizing st with
  | nil => rfl
  | cons x l ih =>
    obtain ⟨k, v⟩ := x
    simp only [declareAll]
    rw [← ih]
    show declareAll (match stFind k.lwr st.table with | some _ => _ | none => _) l = _
    cases stFind k.lwr st.table <;> rfl

/-- `bstPasses` succeeds with the functions recorded, if the function names are fresh and distinct. -/
theorem bstPasses_ok (l : List (Id × Option Id × Option Id)) (i : Nat) (st : BST)
    (h1 : ∀ f ∈ l.filterMap (fun p => p.2.2), ∀ e ∈ st.funcs, e.key.lwr ≠ f.lwr)
    (h2 : (l.filterMap fun p => p.2.2).Pairwise fun a b => a.lwr ≠ b.lwr) :
    ∃ fs, bstPasses i l st =
      .ok (withFuncs (declareAll st (namedDecls .pass i (l.map fun p => (p.1, p.2.1)))) fs) := by
  induction l generalizing i st with
  | nil => exact ⟨st.funcs, rfl⟩
  | cons x l ih =>
    obtain ⟨n, u, f⟩ := x
    simp only [bstPasses, declare_eq, declareOpt_eq, Res.bind_ok, List.map_cons, namedDecls, ← declareAll_append]
    cases f with
    | none =>
      simp only [List.filterMap_cons] at h1 h2
      simp only [declareFunc, Res.bind_ok]
      obtain ⟨fs, hfs⟩ := ih (i + 1) (declareAll st ([(n, (⟨.pass, i⟩ : Decl))] ++ u.toList.map fun x => (x, ⟨.pass, i⟩)))
        (by rw [declareAll_funcs]; exact h1) h2
      refine ⟨fs, ?_⟩
      rw [hfs, declareAll_append _ _ (namedDecls _ _ _)]
      rfl
    | some f =>
      simp only [List.filterMap_cons, List.mem_cons, forall_eq_or_imp, List.pairwise_cons] at h1 h2
      have hn : stFind f.lwr (declareAll st ([(n, (⟨.pass, i⟩ : Decl))] ++
          u.toList.map fun x => (x, ⟨.pass, i⟩))).funcs = none := by
        rw [declareAll_funcs, stFind_none]
        exact fun e he => h1.1 e he
      simp only [declareFunc, STlookup, Res.bind_ok, hn]
      obtain ⟨fs, hfs⟩ := ih (i + 1) (withFuncs (declareAll st ([(n, (⟨.pass, i⟩ : Decl))] ++
          u.toList.map fun x => (x, ⟨.pass, i⟩))) (STadd st.funcs f ⟨.pass, i⟩))
        (by
          intro g hg e he
          simp only [withFuncs, STadd, List.mem_cons] at he
          rcases he with rfl | he
          · exact h2.1 g hg
          · exact h1.2 g hg e he) h2.2
      refine ⟨fs, ?_⟩
      rw [declareAll_funcs]
      refine hfs.trans ?_
      rw [declareAll_withFuncs, declareAll_append _ _ (namedDecls _ _ _)]
      rfl

/-- A function name that is used again is met, whatever happens before. -/
theorem bstPasses_ub (l : List (Id × Option Id × Option Id)) (i : Nat) (st : BST)
    (h : ¬ ((∀ f ∈ l.filterMap (fun p => p.2.2), ∀ e ∈ st.funcs, e.key.lwr ≠ f.lwr) ∧
      (l.filterMap fun p => p.2.2).Pairwise fun a b => a.lwr ≠ b.lwr)) :
    (bstPasses i l st).isUB = true := by
  induction l generalizing i st with
  | nil => exact absurd ⟨by simp, by simp⟩ h
  | cons x l ih =>
    obtain ⟨n, u, f⟩ := x
    simp only [bstPasses, declare_eq, declareOpt_eq, Res.bind_ok, ← declareAll_append]
    cases f with
    | none =>
      simp only [declareFunc, Res.bind_ok]
      apply ih
      rw [declareAll_funcs]
      simpa only [List.filterMap_cons] using h
    | some f =>
      simp only [declareFunc, STlookup, Res.bind_ok]
      rw [declareAll_funcs]
      cases hf : stFind f.lwr st.funcs with
      | some v => rfl
      | none =>
        rw [stFind_none] at hf
        simp only [Res.bind_ok]
        apply ih
        intro hh
        apply h
        simp only [STadd, List.mem_cons, forall_eq_or_imp] at hh
        simp only [List.filterMap_cons, List.mem_cons, forall_eq_or_imp, List.pairwise_cons]
        exact ⟨⟨hf, fun g hg e he => (hh.1 g hg).2 e he⟩, ⟨fun g hg => (hh.1 g hg).1, hh.2⟩⟩

theorem bstRun_ok (ast : Ast) (h : (functions ast).Pairwise fun a b => a.lwr ≠ b.lwr) :
    ∃ fs, bstRun ast = .ok (withFuncs (declareAll {} (declared ast)) fs) := by
  simp only [bstRun, bstNamed_eq, Res.bind_ok]
  obtain ⟨fs, hfs⟩ := bstPasses_ok ast.passes 0
    (declareAll (declareAll {} (namedDecls .phase 0 ast.phases)) (namedDecls .traversal 0 ast.traversals))
    (by simp [declareAll_funcs]) h
  refine ⟨fs, ?_⟩
  rw [hfs]
  simp only [Res.bind_ok, bstPlain_eq, declareAll_withFuncs, declared, declareAll_append]

/-- What the table looks like after a loop, and when it reports errors. -/
theorem declareAll_spec (l : List (Id × Decl)) (st : BST)
    (hp : st.table.Pairwise fun a b => a.key.lwr ≠ b.key.lwr) :
    st.errors ≤ (declareAll st l).errors ∧
    ((declareAll st l).errors = st.errors ↔
      (∀ e ∈ st.table, ∀ x ∈ l, e.key.lwr ≠ x.1.lwr) ∧ l.Pairwise fun a b => a.1.lwr ≠ b.1.lwr) ∧
    ((declareAll st l).errors = st.errors → (declareAll st l).table = st.table ++ l.map fun x => ⟨x.1, x.2⟩) := by
  induction l generalizing st with
  | nil => simp [declareAll]
  | cons x l ih =>
    obtain ⟨k, v⟩ := x
    simp only [declareAll]
    cases hf : stFind k.lwr st.table with
    | some w =>
      obtain ⟨e, he, hek, _⟩ := stFind_some _ _ _ hf
      obtain ⟨h1, h2, h3⟩ := ih { st with errors := st.errors + 1 } hp
      simp only at h1 h2 h3 ⊢
      refine ⟨by omega, ⟨fun hc => by omega, fun hc => ?_⟩, fun hc => by omega⟩
      exact absurd hek (hc.1 e he (k, v) (by simp))
    | none =>
      rw [stFind_none] at hf
      have hp' : (addToST st k v).table.Pairwise fun a b => a.key.lwr ≠ b.key.lwr := by
        simp only [addToST, List.pairwise_append]
        refine ⟨hp, by simp, ?_⟩
        intro a ha b hb
        simp only [List.mem_singleton] at hb
        subst hb
        exact hf a ha
      obtain ⟨h1, h2, h3⟩ := ih (addToST st k v) hp'
      have he : (addToST st k v).errors = st.errors := rfl
      rw [he] at h1 h2 h3
      refine ⟨h1, h2.trans ?_, fun hc => ?_⟩
      · simp only [addToST, List.mem_append, List.mem_cons, List.not_mem_nil, or_false, List.pairwise_cons]
        constructor
        · rintro ⟨ha, hb⟩
          refine ⟨fun e hm x hx => ?_, fun x hx => ha ⟨k, v⟩ (Or.inr rfl) x hx, hb⟩
          rcases hx with rfl | hx
          · exact hf e hm
          · exact ha e (Or.inl hm) x hx
        · rintro ⟨ha, hb, hc⟩
          refine ⟨fun e hm x hx => ?_, hc⟩
          rcases hm with hm | rfl
          · exact ha e hm x (Or.inr hx)
          · exact hb x hx
      · rw [h3 hc]
        simp [addToST]

end Verif.Ids
