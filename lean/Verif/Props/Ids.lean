import Verif.Lemmas.Ids
import Verif.Props.Str

/-!
# Property C24: the symbol table
-/

namespace Verif.Props
open Verif.Ids Verif.Str Verif.Spec.Str Verif.Spec.Ids

/-- Test identifier with the right folded forms. -/
def mkId (s : CStr) : Id := ⟨s, s.map lowerB, s.map upperB⟩

/-- All identifiers of a specification carry the folded forms of their names. -/
def WfAst (ast : Ast) : Prop := (∀ x ∈ declared ast, WfId x.1) ∧ ∀ f ∈ functions ast, WfId f

/-- The names (and unique ids) a specification declares. -/
def names (ast : Ast) : List Id := (declared ast).map (·.1)

/-- C24: identifiers made by the parser carry the folded forms of their names (names are 7-bit). -/
theorem C24_ids (s : CStr) (hs : Ascii s) (hn : NoNul s) (hl : s.length + 1 < 2 ^ 63) :
    ∃ i, newId s = .ok i ∧ i.orig = s ∧ WfId i := by
  obtain ⟨lo, up, h1, h2, h3, h4, _⟩ := C12_fold s hs hn hl
  exact ⟨⟨s, s.map lowerB, s.map upperB⟩, by simp [newId, h1, h2, h3, h4], rfl, rfl, rfl⟩

example : newId [84, 95] = .ok ⟨[84, 95], [116, 95], [84, 95]⟩ := by
  obtain ⟨i, h, ho, hl, hu⟩ := C24_ids [84, 95] (by unfold Ascii; decide) (by unfold NoNul; decide) (by decide)
  rw [h]
  obtain ⟨o, l, u⟩ := i
  simp only at ho hl hu
  subst ho hl hu
  rfl

theorem clash_iff (l : List Id) (h : ∀ i ∈ l, WfId i) : Clash l ↔ ¬ l.Pairwise fun a b => a.lwr ≠ b.lwr := by
  rw [Clash]
  apply not_congr
  constructor
  · intro hp
    refine List.Pairwise.imp_of_mem ?_ hp
    intro a b ha hb hab he
    exact hab ((sameName_iff (h a ha) (h b hb)).2 he)
  · intro hp
    refine List.Pairwise.imp_of_mem ?_ hp
    intro a b ha hb hab he
    exact hab ((sameName_iff (h a ha) (h b hb)).1 he)

/-- C24, partial: if no two passes share a target function (else see `C24_functions_false`), construction reports an error (and stops the compiler) exactly when
two names clash, and otherwise produces a table. -/
theorem C24_reports_partial (ast : Ast) (hw : WfAst ast) (hf : ¬ Clash (functions ast)) :
    (Clash (names ast) → BSTast ast = .abort "CTIabortOnError") ∧
    (¬ Clash (names ast) → ∃ t, BSTast ast = .ok t) := by
  rw [clash_iff _ hw.2, Decidable.not_not] at hf
  obtain ⟨fs, hr⟩ := bstRun_ok ast hf
  obtain ⟨_, h2, _⟩ := declareAll_spec (declared ast) {} (by simp)
  have hn : Clash (names ast) ↔ (declareAll {} (declared ast)).errors ≠ 0 := by
    rw [clash_iff _ (by
      intro i hi
      obtain ⟨x, hx, rfl⟩ := List.mem_map.1 hi
      exact hw.1 x hx)]
    apply not_congr
    refine Iff.trans ?_ h2.symm
    simp [names, List.pairwise_map]
  constructor
  · intro hc
    simp only [BSTast, hr, Res.bind_ok, withFuncs, if_pos (hn.1 hc)]
  · intro hc
    have : ¬ (declareAll {} (declared ast)).errors ≠ 0 := fun h => hc (hn.2 h)
    exact ⟨(declareAll {} (declared ast)).table, by simp only [BSTast, hr, Res.bind_ok, withFuncs, if_neg this]⟩

example : Clash (names { nodes := [mkId [97]], enums := [mkId [65]] }) ∧
    ¬ Clash (functions { nodes := [mkId [97]], enums := [mkId [65]] }) := by
  unfold Clash SameName
  constructor <;> decide

/-- C24: a table that was built resolves a name, in any letter case, to the declaration of that name. -/
theorem C24_lookup (ast : Ast) (hw : WfAst ast) (t : List (Ste Decl)) (h : BSTast ast = .ok t) (key : Id)
    (hk : WfId key) :
    (∀ x ∈ declared ast, SameName x.1.orig key.orig → STlookup t (some key) = .ok (some x.2)) ∧
    ((∀ x ∈ declared ast, ¬ SameName x.1.orig key.orig) → STlookup t (some key) = .ok none) := by
  by_cases hf : (functions ast).Pairwise fun a b => a.lwr ≠ b.lwr
  · obtain ⟨fs, hr⟩ := bstRun_ok ast hf
    obtain ⟨_, h2, h3⟩ := declareAll_spec (declared ast) {} (by simp)
    simp only [BSTast, hr, Res.bind_ok, withFuncs] at h
    split at h
    · simp at h
    rename_i he
    simp only [ne_eq, Decidable.not_not] at he
    simp only [Res.ok.injEq] at h
    have hp := (h2.1 he).2
    have ht := h3 he
    simp only [List.nil_append] at ht
    rw [← h, ht]
    have hpw : ((declared ast).map fun x => (⟨x.1, x.2⟩ : Ste Decl)).Pairwise fun a b => a.key.lwr ≠ b.key.lwr := by
      rw [List.pairwise_map]; exact hp
    constructor
    · intro x hx hs
      simp only [STlookup]
      rw [← (sameName_iff (hw.1 x hx) hk).1 hs]
      exact congrArg _ (stFind_of_mem _ hpw ⟨x.1, x.2⟩ (List.mem_map.2 ⟨x, hx, rfl⟩))
    · intro hs
      simp only [STlookup, Res.ok.injEq, stFind_none]
      intro e he heq
      obtain ⟨x, hx, rfl⟩ := List.mem_map.1 he
      exact hs x hx ((sameName_iff (hw.1 x hx) hk).2 heq)
  · have : (bstRun ast).isUB = true := by
      simp only [bstRun, bstNamed_eq, Res.bind_ok]
      have := bstPasses_ub ast.passes 0
        (declareAll (declareAll {} (namedDecls .phase 0 ast.phases)) (namedDecls .traversal 0 ast.traversals))
        (fun hh => hf hh.2)
      revert this
      cases bstPasses 0 ast.passes _ <;> simp [Res.isUB]
    revert this h
    simp only [BSTast]
    cases bstRun ast <;> simp [Res.isUB]

example : (BSTast { phases := [(mkId [112], some (mkId [80, 80]))], nodes := [mkId [97]] }).isOk = true ∧
    ((BSTast { phases := [(mkId [112], some (mkId [80, 80]))], nodes := [mkId [97]] }) >>= fun t =>
      STlookup t (some (mkId [80]))) = .ok (some ⟨.phase, 0⟩) ∧ SameName (mkId [112]).orig (mkId [80]).orig := by
  decide

/-- C24 is not true of target functions: two passes with the same target function make the compiler pass a node
pointer to `%s` in its error message. -/
theorem C24_functions_false (ast : Ast) (hw : WfAst ast) (h : Clash (functions ast)) :
    (BSTast ast).isUB = true := by
  rw [clash_iff _ hw.2] at h
  have := bstPasses_ub ast.passes 0
    (declareAll (declareAll {} (namedDecls .phase 0 ast.phases)) (namedDecls .traversal 0 ast.traversals))
    (fun hh => h hh.2)
  simp only [BSTast, bstRun, bstNamed_eq, Res.bind_ok]
  revert this
  cases bstPasses 0 ast.passes _ <;> simp [Res.isUB]

example : Clash (functions { passes := [(mkId [112], none, some (mkId [102])), (mkId [113], none, some (mkId [102]))] }) := by
  unfold Clash SameName
  decide

end Verif.Props
