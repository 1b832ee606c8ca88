import Verif.Lemmas.DeclaredFiles
import Verif.Props.Targets

/-!
# Property C68: every function of a generated compiler is declared and defined, once

The phase `semantic`, the resolution of set expressions, and the generators of headers, tables and functions together, for all
descriptions.
-/

namespace Verif.Props
open Verif.Str Verif.Ids Verif.Tables Verif.Declared Verif.Semantic Verif.Spec.Declared
open Verif.Spec.Str (lowerB upperB SameName)
open Verif.Spec.Semantic (TypesNamed Earlier)
open Verif.Spec.Targets (Aimed Numbered Target handler)
open Verif.Spec.Compiled (passFunction)

/-- C68, declarations: the generators end with files, and the tables refer to exactly the functions of the compiler, those that only the
generated functions for data call aside; all that belong to no pass are declared with their types, and all for which no pass has a name of
its own for the function.

Missing: passes with a `func` (`C68_func_false`), a traversal for an empty set of nodes (as for C67), and nodesets that name a nodeset
declared later (C23). -/
theorem C68_declared_partial {addr : Loc → Nat} {fuel : Nat} {A : Parse.Ast} {o : Semantic.Out} (ha : Spec.Semantic.Apart addr)
    (hp : TypesNamed A) (he : Earlier A) (h : checks addr fuel A = .ok o) (hn : Numbered A) (hm : Aimed A) :
    ∃ N, ∀ fuel, N ≤ fuel → ∃ F, files fuel A o.tab = .ok F ∧
      (∀ f, f ∈ F.refs ↔ Function A f ∧ f.2 ≠ .plain) ∧
      (∀ f, Other A f → f.2 ≠ .plain → f ∈ F.decls) ∧
      ((∀ p ∈ A.passes, p.func = none) → ∀ f ∈ F.refs, f ∈ F.decls) := by
  obtain ⟨N, hN⟩ := files_ok (checks_facts ha hp he h).1.right he hn hm
  refine ⟨N, fun fuel hf => ?_⟩
  obtain ⟨F, h1, c⟩ := hN fuel hf
  refine ⟨F, h1, c.refs, fun f h2 h3 => (c.decls f).2 (.inl ⟨h2, h3⟩), fun hfunc f h2 => ?_⟩
  obtain ⟨h3 | ⟨p, h3, rfl⟩, h4⟩ := (c.refs f).1 h2
  · exact (c.decls f).2 (.inl ⟨h3, h4⟩)
  · refine (c.decls _).2 (.inr ⟨p, h3, ?_⟩)
    simp only [passFunction, hfunc p h3, passName]
    cases p.uid <;> rfl

/-- C68, definitions: exactly the functions of the compiler are defined, and exactly those for data that the user writes are called.

Missing: as for `C68_declared_partial`, but not passes with a `func`. -/
theorem C68_defined_partial {addr : Loc → Nat} {fuel : Nat} {A : Parse.Ast} {o : Semantic.Out} (ha : Spec.Semantic.Apart addr)
    (hp : TypesNamed A) (he : Earlier A) (h : checks addr fuel A = .ok o) (hn : Numbered A) (hm : Aimed A) :
    ∃ N, ∀ fuel, N ≤ fuel → ∃ F, files fuel A o.tab = .ok F ∧
      (∀ f, f ∈ F.defs ↔ Function A f) ∧ (∀ f, f ∈ F.calls ↔ Other A f ∧ f.2 = .plain) := by
  obtain ⟨N, hN⟩ := files_ok (checks_facts ha hp he h).1.right he hn hm
  refine ⟨N, fun fuel hf => ?_⟩
  obtain ⟨F, h1, c⟩ := hN fuel hf
  exact ⟨F, h1, c.defs, c.calls⟩

/-- C68, all together: the C compiler and the linker accept the generated files, as far as functions are concerned, if and only if the
names of the description are clear: so the four conditions of `Clear` are all that the user has to see to, and there is a description with an
error in the C compiler or the linker for each (`C68_node_false`, `C68_twice_false`, `C68_pass_false`, `C68_func_false`).  That unique ids
do not clash with `CPY`, `DEL` and `CHK` is checked.

Missing: a traversal for an empty set of nodes (as for C67), and nodesets that name a nodeset declared later (C23). -/
theorem C68_links_partial {addr : Loc → Nat} {fuel : Nat} {A : Parse.Ast} {o : Semantic.Out} (ha : Spec.Semantic.Apart addr)
    (hp : TypesNamed A) (he : Earlier A) (h : checks addr fuel A = .ok o) (hn : Numbered A) (hm : Aimed A) (hl : Lettered A) :
    ∃ N, ∀ fuel, N ≤ fuel → ∃ F, files fuel A o.tab = .ok F ∧ (Links F ↔ Clear A) := by
  obtain ⟨N, hN⟩ := files_ok (checks_facts ha hp he h).1.right he hn hm
  refine ⟨N, fun fuel hf => ?_⟩
  obtain ⟨F, h1, c⟩ := hN fuel hf
  exact ⟨F, h1, links_iff c hl⟩

/-! ## Samples -/

/-- As a check. -/
def linksB (F : Files) : Bool :=
  F.refs.all (fun r => F.decls.contains r) &&
  F.decls.all (fun d => F.decls.all fun d' => decide (d.1 = d'.1 → d = d')) &&
  (F.refs ++ F.calls).all fun r => decide (F.defs.filter (fun d => decide (d.1 = r.1)) = [r])

theorem linksB_iff (F : Files) : linksB F = true ↔ Links F := by
  simp only [linksB, Bool.and_eq_true, List.all_eq_true, decide_eq_true_eq, List.contains_iff_mem]
  exact ⟨fun h => ⟨h.1.1, h.1.2, h.2⟩, fun h => ⟨⟨h.declared, h.agree⟩, h.defined⟩⟩

/-- As a check. -/
theorem lettered_of {A : Parse.Ast} (h : (A.nodes.all fun n => match n.name.orig with
    | c :: _ => Spec.Text.isLetter c
    | [] => false) = true) : Lettered A := by
  intro n hn
  have := List.all_eq_true.1 h n hn
  revert this
  cases n.name.orig with
  | nil => exact fun h => by cases h
  | cons c cs => exact fun h => ⟨c, cs, rfl, h⟩

/-- Traversals without a set are for all nodes. -/
theorem aimed_of {A : Parse.Ast} (h : (A.traversals.all fun t => t.nodes.isNone) = true) : Aimed A := by
  intro t ht he
  have := List.all_eq_true.1 h t ht
  rw [Option.isNone_iff_eq_none] at this
  rw [this] at he
  exact absurd rfl he

/-- `start phase All { <actions> }  root node Prog { children { <leaf> v } }  node <leaf>;` -/
def small (leaf : String) (as : Spec.Syntax.Actions) : List Spec.Syntax.Entry :=
  [.phase (.mk true false (nm "All" 0) none none none as),
    .node ⟨true, nm "Prog" 0, [⟨nm leaf 0, nm "v" 0, none⟩], [], [], [], false⟩, .node ⟨false, nm leaf 0, [], [], [], [], false⟩]

/-- `traversal Rename { uid = <uid>, travdata { int depth } }` -/
def rename (uid : String) : Spec.Syntax.Action := .traversal ⟨nm "Rename" 0, none, nm uid 0, none, [⟨.prim .int, nm "depth" 0⟩]⟩

/-- What there is to know about a small description. -/
structure Small (f : List Spec.Syntax.Entry) : Prop where
  named : TypesNamed (ast f)
  earlier : Earlier (ast f)
  numbered : Numbered (ast f)
  aimed : Aimed (ast f)
  lettered : Lettered (ast f)

/-- The same as a check. -/
theorem small_of {f : List Spec.Syntax.Entry} (h1 : TypesNamed (ast f)) (h2 : Earlier (ast f))
    (h3 : (ast f).nodes.map (·.index) = (List.range (ast f).numNodes).reverse ∧
      (ast f).traversals.map (·.index) = (List.range (ast f).numTraversals).reverse)
    (h4 : ((ast f).traversals.all fun t => t.nodes.isNone) = true)
    (h5 : ((ast f).nodes.all fun n => match n.name.orig with
      | c :: _ => Spec.Text.isLetter c
      | [] => false) = true) : Small f :=
  ⟨h1, h2, numbered_of h3, aimed_of h4, lettered_of h5⟩

/-- The description is accepted, the generators end, and what they write compiles and links, or not. -/
def gives (b : Bool) (f : List Spec.Syntax.Entry) : Prop :=
  ∃ o F, checks sampleAddr 60 (ast f) = .ok o ∧ o.errors = 0 ∧ files 60 (ast f) o.tab = .ok F ∧ (Links F ↔ b = true)

/-- The same as a run. -/
def givesB (f : List Spec.Syntax.Entry) : Option Bool :=
  match checks sampleAddr 60 (ast f) with
  | .ok o => match files 60 (ast f) o.tab with
    | .ok F => if o.errors == 0 then some (linksB F) else none
    | _ => none
  | _ => none

theorem gives_of {b : Bool} {f : List Spec.Syntax.Entry} (h : givesB f = some b) : gives b f := by
  rw [givesB] at h
  split at h
  · rename_i o ho
    split at h
    · rename_i F hF
      split at h
      · rename_i he
        refine ⟨o, F, ho, by simpa using he, hF, ?_⟩
        rw [← linksB_iff]
        injection h with h
        rw [h]
      · cases h
    · cases h
  · cases h

/-- `start phase All { pass scan; traversal Rename { uid = RN, travdata { int depth } }; pass gen { uid = cg }; }`
`root node Prog { children { Var v } }  node Var;` -/
def clearFile : List Spec.Syntax.Entry :=
  small "Var" (.cons (.pass (.plain (nm "scan" 0))) (.cons (rename "RN") (.one (.pass (.long (nm "gen" 0) none (some (nm "cg" 0)) none)))))

/-- The theorems about C68 apply to the sample, and its files compile and link. -/
example : Small clearFile ∧ gives true clearFile ∧ ∃ o F, checks sampleAddr 60 (ast clearFile) = .ok o ∧ files 60 (ast clearFile) o.tab = .ok F ∧
    F.refs = [(by8 "RNvar", .node), (by8 "RNprog", .node), (by8 "CPYvar", .node), (by8 "CPYprog", .node), (by8 "CHKvar", .node),
      (by8 "CHKprog", .node), (by8 "DELvar", .node), (by8 "DELprog", .node), (by8 "CGgen", .node), (by8 "scan", .node),
      (by8 "TRAVdataInitRename", .data), (by8 "TRAVdataFreeRename", .data)] ∧
    F.calls = [(by8 "RNinit", .plain), (by8 "RNfini", .plain)] := by
  refine ⟨small_of (named_of_plain (by decide +kernel)) (earlier_of_flat (by decide +kernel)) (by decide +kernel) (by decide +kernel)
    (by decide +kernel), gives_of (by decide +kernel), ?_⟩
  have run : (match checks sampleAddr 60 (ast clearFile) with
    | .ok o => match files 60 (ast clearFile) o.tab with
      | .ok F => decide (F.refs = [(by8 "RNvar", .node), (by8 "RNprog", .node), (by8 "CPYvar", .node), (by8 "CPYprog", .node), (by8 "CHKvar", .node),
      (by8 "CHKprog", .node), (by8 "DELvar", .node), (by8 "DELprog", .node), (by8 "CGgen", .node), (by8 "scan", .node),
      (by8 "TRAVdataInitRename", .data), (by8 "TRAVdataFreeRename", .data)] ∧
    F.calls = [(by8 "RNinit", .plain), (by8 "RNfini", .plain)])
      | _ => false
    | _ => false) = true := by decide +kernel
  split at run
  · rename_i o ho
    split at run
    · rename_i F hF
      exact ⟨o, F, ho, hF, by simpa using run⟩
    · cases run
  · cases run

/-! ## Where it is false -/

/-- The pass of the manual (`docs/source/codegen.rst:115-119`): `pass scanParse { uid = SP, func = doScanParse };` -/
def funcFile : List Spec.Syntax.Entry :=
  small "Var" (.one (.pass (.long (nm "scanParse" 0) none (some (nm "SP" 0)) (some (nm "doScanParse" 0)))))

/-- C68 is false for a pass with a function of its own: the manual says that `doScanParse` is declared, and the table of passes refers to it,
but the header declares `SPscanParse`. -/
theorem C68_func_false : Small funcFile ∧ gives false funcFile ∧ ∃ o F, checks sampleAddr 60 (ast funcFile) = .ok o ∧
    files 60 (ast funcFile) o.tab = .ok F ∧ (by8 "doScanParse", .node) ∈ F.refs ∧ (by8 "doScanParse", .node) ∉ F.decls ∧
    (by8 "SPscanParse", .node) ∈ F.decls := by
  refine ⟨small_of (named_of_plain (by decide +kernel)) (earlier_of_flat (by decide +kernel)) (by decide +kernel) (by decide +kernel)
    (by decide +kernel), gives_of (by decide +kernel), ?_⟩
  have run : (match checks sampleAddr 60 (ast funcFile) with
    | .ok o => match files 60 (ast funcFile) o.tab with
      | .ok F => decide ((by8 "doScanParse", .node) ∈ F.refs ∧ (by8 "doScanParse", .node) ∉ F.decls ∧ (by8 "SPscanParse", .node) ∈ F.decls)
      | _ => false
    | _ => false) = true := by decide +kernel
  split at run
  · rename_i o ho
    split at run
    · rename_i F hF
      exact ⟨o, F, ho, hF, by simpa using run⟩
    · cases run
  · cases run

/-- C68 is false for a node `Init` and a traversal with data: `RNinit` is for the node and for the data. -/
theorem C68_node_false : Small (small "Init" (.one (rename "RN"))) ∧ gives false (small "Init" (.one (rename "RN"))) :=
  ⟨small_of (named_of_plain (by decide +kernel)) (earlier_of_flat (by decide +kernel)) (by decide +kernel) (by decide +kernel)
    (by decide +kernel), gives_of (by decide +kernel)⟩

/-- `pass RNvar; traversal Rename { uid = RN, … };` -/
def passFile : List Spec.Syntax.Entry := small "Var" (.cons (.pass (.plain (nm "RNvar" 0))) (.one (rename "RN")))

/-- C68 is false for a pass that is named like the function of a traversal. -/
theorem C68_pass_false : Small passFile ∧ gives false passFile :=
  ⟨small_of (named_of_plain (by decide +kernel)) (earlier_of_flat (by decide +kernel)) (by decide +kernel) (by decide +kernel)
    (by decide +kernel), gives_of (by decide +kernel)⟩

/-- `pass b { uid = a }; pass Ab;` -/
def sharedFile : List Spec.Syntax.Entry :=
  small "Var" (.cons (.pass (.long (nm "b" 0) none (some (nm "a" 0)) none)) (.one (.pass (.plain (nm "Ab" 0)))))

/-- C68 is false for two passes with the same function. -/
theorem C68_twice_false : Small sharedFile ∧ gives false sharedFile :=
  ⟨small_of (named_of_plain (by decide +kernel)) (earlier_of_flat (by decide +kernel)) (by decide +kernel) (by decide +kernel)
    (by decide +kernel), gives_of (by decide +kernel)⟩

end Verif.Props
