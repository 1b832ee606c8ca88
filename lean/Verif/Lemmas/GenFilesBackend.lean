import Verif.Lemmas.GenFilesFlow

/-!
# Other backends
-/

namespace Verif.GenFiles
open Verif.Str Verif.Ids Verif.Semantic
open Verif.Spec.GenFiles (GenDir Room below Translates worldOf)

variable {A : Parse.Ast} {o : Out}

/-- The files of other backends. -/
def fewer (A : Parse.Ast) (s : Bool) : List Block :=
  (match s with
   | true => [(b!"ccngen/ast.h", [.once, .text (words [b!"ccn_node"]) []])]
   | false => []) ++
  [(b!"ccngen/action_handling.h", actionH), (b!"action_handling.c", actionC A), (b!"ccngen/gate.h", gateH A), (b!"ast.dot", []),
    (b!"ccngen/ccn_defs.h", defsH false)]

/-- Their names. -/
def fewNames (s : Bool) : List CStr :=
  (match s with
   | true => [b!"ccngen/ast.h"]
   | false => []) ++
  [b!"ccngen/action_handling.h", b!"action_handling.c", b!"ccngen/gate.h", b!"ast.dot", b!"ccngen/ccn_defs.h"]

theorem few_names (A : Parse.Ast) (s : Bool) : (fewer A s).map (·.1) = fewNames s := by cases s <;> rfl

theorem fewer_start {backend : CStr} (hb : backendIsDynamic backend = .ok false) {ss : List Step} (h : startPhase backend A o = .ok ss) :
    ∃ s, ss = unblock (fewer A s) := by
  unfold startPhase at h
  obtain ⟨q, _, h⟩ := Res.bind_eq_ok.1 h
  obtain ⟨c, _, h⟩ := Res.bind_eq_ok.1 h
  rw [hb, Res.bind_ok] at h
  dsimp only at h
  rw [Res.bind_ok] at h
  cases hs : backendIsStatic backend with
  | false =>
    rw [hs] at h
    dsimp only at h
    rw [Res.bind_ok] at h
    cases h
    refine ⟨false, ?_⟩
    simp [fewer, unblock, phaseDriver, GDast, genDefines, GNopenIncludeFile, GNopenSourceFile, actionH, actionC, gateH, defsH]
  | true =>
    rw [hs] at h
    dsimp only at h
    obtain ⟨s2, h2, h⟩ := Res.bind_eq_ok.1 h
    unfold SGNSast at h2
    obtain ⟨_, _, h2⟩ := Res.bind_eq_ok.1 h2
    cases h2
    cases h
    refine ⟨true, ?_⟩
    simp [fewer, unblock, phaseDriver, GDast, genDefines, GNopenIncludeFile, GNopenSourceFile, actionH, actionC, gateH, defsH]

theorem no_enum {g d backend : CStr} (hg : GenDir g d) {k k' : Disk} (hr : Room k.dirs k.file d) (hb : backendIsDynamic backend = .ok false)
    (h : main g backend A o k = .ok k') (he : k.file (d ++ b!"ccngen/enum.h") = none) (user : Option (List CStr)) :
    ¬ Translates (worldOf k'.file d (library user)) b!"action_handling.c" := by
  obtain ⟨hd1, hd2⟩ := dirify hg
  obtain ⟨k1, k2, k3, k4, k5, k6, e1, e2, e3, e4, e5, e6, hf, hdirs⟩ := dirs_ok hd2 hr
  unfold main at h
  simp only [hd1, e1, e2, e3, e4, e5, e6, Res.bind_ok] at h
  obtain ⟨ss, h1, hx⟩ := Res.bind_eq_ok.1 h
  obtain ⟨s, rfl⟩ := fewer_start hb h1
  have hnd : ((fewer A s).map (·.1)).Nodup := by rw [few_names]; cases s <;> decide +kernel
  have hin : ∀ b ∈ fewer A s, dirName b.1 ∈ [[], b!"ccngen/"] := by
    intro b hb
    have : b.1 ∈ (fewer A s).map (·.1) := List.mem_map_of_mem hb
    rw [few_names] at this
    revert this
    generalize b.1 = p
    revert p
    cases s <;> decide +kernel
  have hnot : ∀ b ∈ fewer A s, b.1 ≠ b!"ccngen/enum.h" := by
    intro b hb
    have : b.1 ∈ (fewer A s).map (·.1) := List.mem_map_of_mem hb
    rw [few_names] at this
    revert this
    generalize b.1 = p
    revert p
    cases s <;> decide +kernel
  have ht : Spec.GenFiles.t "/" = [47] := by decide +kernel
  obtain ⟨k7, e7, _, hfile, hrest⟩ := exec_blocks d (fewer A s) (k := k6) hnd (by
    intro b hb
    rw [dirName_append hd2, hdirs, ht]
    have := hin b hb
    simp only [List.mem_cons, List.not_mem_nil, or_false] at this
    rcases this with h | h
    · rw [h, List.append_nil]; exact Or.inl rfl
    · exact Or.inr (Or.inl ⟨b!"ccngen", by decide +kernel, by rw [h, List.append_assoc]; rfl⟩))
  cases e7.symm.trans hx
  have hc : k'.file (d ++ b!"action_handling.c") = some (actionC A) := hfile _ _ (by cases s <;> simp [fewer])
  have hn : k'.file (d ++ b!"ccngen/enum.h") = none := by
    rw [hrest _ fun b hb e => hnot b hb (List.append_cancel_left e).symm, hf]
    exact he
  refine Spec.GenFiles.not_found (c := actionC A) hc (name := b!"ccngen/enum.h")
    (d := [.incl true b!"stddef.h", .incl false b!"ccn/action_types.h", .incl false b!"ccngen/action_handling.h"]) rfl ?_
  have hfold : Spec.GenFiles.folder b!"action_handling.c" = [] := by decide +kernel
  have hw : (worldOf k'.file d (library user)).file b!"ccngen/enum.h" = none := hn
  have hl : (library user).lookup b!"ccngen/enum.h" = none := by
    cases user with
    | none => decide +kernel
    | some l =>
      have e : library (some l) = library Option.none ++ [(b!"user_types.h", [.once, .text (words l) []])] := by simp [library]
      rw [e, lookup_append, (by decide +kernel : (library Option.none).lookup b!"ccngen/enum.h" = none)]
      rfl
  rw [hfold]
  unfold Spec.GenFiles.find
  dsimp only
  rw [List.nil_append, hw]
  dsimp only
  unfold Spec.GenFiles.findPath
  rw [hw]
  dsimp only
  unfold Spec.GenFiles.findLib
  rw [show (worldOf k'.file d (library user)).lib b!"ccngen/enum.h" = none from hl]
  rfl

end Verif.GenFiles
