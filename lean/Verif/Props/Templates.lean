import Verif.Lemmas.Templates
import Verif.Props.Declared

/-!
# Property theorems C76: the files for the user

The theorems quantify over all descriptions that the phase `semantic` accepts.
-/

namespace Verif.Props
open Verif.Str Verif.Ids Verif.Semantic Verif.Templates
open Verif.Spec.Templates
open Verif.Spec.Str (lowerB upperB SameName)
open Verif.Spec.Semantic (TypesNamed Earlier Pairs)
open Verif.Spec.Targets (Target handler Aimed)
open Verif.Spec.Compiled (passFunction)
open Verif.Spec.Declared (userNames)

theorem include_eq : t "include \"ccn/ccn.h\"" = b!"include \"ccn/ccn.h\"" ∧ t "include \"ccngen/ast.h\"" = b!"include \"ccngen/ast.h\"" ∧
    t "include \"ccngen/trav.h\"" = b!"include \"ccngen/trav.h\"" := by decide +kernel

theorem parts {α : Type} (ds : List CStr) (l : List Function) (g : α → Function) (xs : List α) :
    functions (ds.map Ext.directive ++ (l.map Ext.function ++ xs.map fun i => Ext.function (g i))) = l ++ xs.map g ∧
    directives (ds.map Ext.directive ++ (l.map Ext.function ++ xs.map fun i => Ext.function (g i))) = ds := by
  simp [functions, directives, List.filterMap_append, List.filterMap_map, Function.comp_def]

section
variable {A : Parse.Ast} {x : Parse.Traversal} {s : Sets.Tree}

/-- The functions of the nodes. -/
theorem stubs_of (h : Declared.Written A x s) :
    (∀ i ∈ idsOf (A.nodes.map fun n => idOf n.name) s, ∃ n ∈ A.nodes, Target x A n ∧ x.uid.orig.map upperB ++ i.lwr = handler x n) ∧
    (∀ n ∈ A.nodes, Target x A n → ∃ i ∈ idsOf (A.nodes.map fun n => idOf n.name) s, x.uid.orig.map upperB ++ i.lwr = handler x n) ∧
    (idsOf (A.nodes.map fun n => idOf n.name) s).Pairwise fun i j => x.uid.orig.map upperB ++ i.lwr ≠ x.uid.orig.map upperB ++ j.lwr := by
  have h1 := h.stubs
  have h2 := h.once
  rw [stubsOf_ids] at h1 h2
  refine ⟨fun i hi => ?_, fun n hn ht => ?_, ?_⟩
  · obtain ⟨n, h3, h4, h5⟩ := (h1 _).1 (List.mem_map.2 ⟨i, hi, rfl⟩)
    exact ⟨n, h3, h4, congrArg Prod.fst h5⟩
  · obtain ⟨i, h3, h4⟩ := List.mem_map.1 ((h1 _).2 ⟨n, hn, ht, rfl⟩)
    exact ⟨i, h3, congrArg Prod.fst h4⟩
  · exact (List.pairwise_map.1 h2).imp fun h e => h e

theorem user_names {y : CStr} : y ∈ userNames ↔ y = b!"init" ∨ y = b!"fini" := by
  simp [userNames]

theorem mem_hooks {f : Function} : f ∈ hooksOf x ↔ x.data ≠ [] ∧ ∃ y ∈ userNames, f = hook (x.uid.orig.map upperB ++ y) := by
  unfold hooksOf
  cases x.data with
  | nil => exact ⟨nofun, fun h => absurd rfl h.1⟩
  | cons d l =>
    simp only [List.mem_cons, List.not_mem_nil, or_false, ne_eq, reduceCtorEq, not_false_eq_true, true_and, user_names]
    constructor
    · rintro (h | h)
      · exact ⟨_, .inl rfl, h⟩
      · exact ⟨_, .inr rfl, h⟩
    · rintro ⟨y, rfl | rfl, h⟩
      · exact .inl h
      · exact .inr h

theorem hooks_nodup : (hooksOf x).Nodup := by
  unfold hooksOf
  cases x.data with
  | nil => exact .nil
  | cons d l =>
    refine List.nodup_cons.2 ⟨?_, by simp⟩
    rw [List.mem_singleton, hook, hook, Function.mk.injEq]
    rintro ⟨_, h, _⟩
    exact absurd (List.append_cancel_left h) (by decide)

/-- What is in the file of a traversal. -/
theorem template_of (hl : Legible A) (hx : x ∈ A.traversals) (h : Declared.Written A x s) :
    ∃ u, Spec.Templates.read (DUGTitraversal (A.nodes.map fun n => idOf n.name) x s) = some u ∧ Template A x u := by
  obtain ⟨h1, h2, h3⟩ := stubs_of h
  have hu := hl.uids x hx
  have hh : ∀ n ∈ A.nodes, Word (handler x n) ∧ handler x n ∉ keywords := fun n hn => uid_name hu fun c hc => by
    obtain ⟨d, hd, rfl⟩ := List.mem_map.1 hc
    exact inWord_lower d ((hl.nodes n hn).2 d hd)
  have hi : ∀ i ∈ idsOf (A.nodes.map fun n => idOf n.name) s, Word (x.uid.orig.map upperB ++ i.lwr) ∧ x.uid.orig.map upperB ++ i.lwr ∉ keywords := by
    intro i hi
    obtain ⟨n, hn, _, e⟩ := h1 i hi
    rw [e]
    exact hh n hn
  refine ⟨extsOf (A.nodes.map fun n => idOf n.name) x s, read_of (fun e he => ?_)
    (lex_file (hl.travs x hx) hu (fun i h => (hi i h).1) (hl.lines x hx) (hl.comments x hx)), ?_, ?_, ?_⟩
  · rw [extsOf, List.mem_append, List.mem_append] at he
    rcases he with he | he | he
    · simp only [List.mem_cons, List.not_mem_nil, or_false] at he
      rcases he with rfl | rfl | rfl <;> exact reads_dir _
    · obtain ⟨f, hf, rfl⟩ := List.mem_map.1 he
      obtain ⟨_, y, hy, rfl⟩ := mem_hooks.1 hf
      refine reads_hook (uid_name hu ?_).2
      rcases user_names.1 hy with rfl | rfl <;> decide
    · obtain ⟨i, h4, rfl⟩ := List.mem_map.1 he
      exact reads_stub (hi i h4).2
  · rw [include_eq.1, include_eq.2.1, include_eq.2.2]
    exact (parts [_, _, _] _ _ _).2
  all_goals
    rw [show functions (extsOf (A.nodes.map fun n => idOf n.name) x s) = hooksOf x ++
      (idsOf (A.nodes.map fun n => idOf n.name) s).map fun i => stub (x.uid.orig.map upperB ++ i.lwr) from (parts [_, _, _] _ _ _).1]
  · intro f
    rw [List.mem_append, mem_hooks, or_comm, List.mem_map]
    refine or_congr ⟨?_, ?_⟩ Iff.rfl
    · rintro ⟨i, h4, rfl⟩
      obtain ⟨n, h5, h6, h7⟩ := h1 i h4
      exact ⟨n, h5, h6, by rw [h7]⟩
    · rintro ⟨n, h5, h6, rfl⟩
      obtain ⟨i, h7, h8⟩ := h2 n h5 h6
      exact ⟨i, h7, by rw [h8]⟩
  · refine List.nodup_append.2 ⟨hooks_nodup, ?_, ?_⟩
    · rw [List.Nodup, List.pairwise_map]
      exact h3.imp fun h e => h (congrArg Function.name e)
    · intro f hf g hg e
      obtain ⟨i, _, rfl⟩ := List.mem_map.1 hg
      obtain ⟨_, y, _, rfl⟩ := mem_hooks.1 hf
      have := congrArg (fun z => z.type.length) e
      simp [hook, stub] at this

/-- What is in the file of the passes. -/
theorem passFile_of (hl : Legible A) :
    ∃ u, Spec.Templates.read (DUGPast (Compiled.declsOf A).passes) = some u ∧ PassFile A u := by
  have hn : ∀ p, Tables.DGHpassFuncName ⟨idOf p.name, p.uid.map idOf, p.func.map idOf⟩ = passFunction p := by
    intro p
    unfold Tables.DGHpassFuncName passFunction
    cases p.func <;> cases p.uid <;> rfl
  have hp : ∀ p ∈ (Compiled.declsOf A).passes, Word (Tables.DGHpassFuncName p) ∧ Tables.DGHpassFuncName p ∉ keywords := by
    intro p hp
    obtain ⟨q, hq, rfl⟩ := List.mem_map.1 hp
    rw [hn]
    exact hl.passes q hq
  refine ⟨passExts (Compiled.declsOf A).passes, read_of (fun e he => ?_) (lex_passFile fun p h => (hp p h).1), ?_, ?_⟩
  · rw [passExts, List.mem_append] at he
    rcases he with he | he
    · simp only [List.mem_cons, List.not_mem_nil, or_false] at he
      rcases he with rfl | rfl <;> exact reads_dir _
    · obtain ⟨p, h4, rfl⟩ := List.mem_map.1 he
      exact reads_pass (hp p h4).2
  · rw [include_eq.1, include_eq.2.1]
    exact (parts [_, _] [] (fun p => passStub (Tables.DGHpassFuncName p)) _).2
  · refine ((parts [_, _] [] (fun p => passStub (Tables.DGHpassFuncName p)) _).1).trans ?_
    simp [Compiled.declsOf, hn]

end

/-- C76: for an accepted description, the files for the user are C text: the file of a traversal has, besides its includes, exactly one function
for each node that the traversal is for, and two for its data if it has any; `passes.c` has one function for each pass.  Missing: a traversal
whose information has the end of a comment (`C76_comment_false`, `C76_inject_false`); a traversal for an empty set of nodes (as for C67), and
nodesets that name a nodeset declared later (C23). -/
theorem C76_templates_partial {addr : Semantic.Loc → Nat} {fuel : Nat} {A : Parse.Ast} {o : Semantic.Out} (ha : Spec.Semantic.Apart addr)
    (hp : TypesNamed A) (he : Earlier A) (h : checks addr fuel A = .ok o) (hm : Aimed A) (hl : Legible A) :
    ∃ N, ∀ fuel, N ≤ fuel → ∃ texts passes, templates fuel A o.tab = .ok (texts, passes) ∧
      Pairs (fun x text => ∃ u, Spec.Templates.read text = some u ∧ Template A x u) A.traversals texts ∧
      ∃ u, Spec.Templates.read passes = some u ∧ PassFile A u := by
  have hr := (checks_facts ha hp he h).1.right
  obtain ⟨qs, st, sets, N, h1, _, _, h3⟩ := Targets.unwrap_sets hr he
  obtain ⟨trees, h4, h5⟩ := Declared.inodesOf_ok A.traversals qs h3
  refine ⟨N, fun fuel hf => ⟨(A.traversals.zip trees).map fun x => DUGTitraversal (Compiled.declsOf A).nodes x.1 x.2, _, ?_, ?_, passFile_of hl⟩⟩
  · unfold templates
    rw [h1 fuel hf]
    simp only [Res.bind_ok, h4]
  · have key : ∀ {ts : List Parse.Traversal} {xs : List Sets.Tree}, Pairs (Declared.Inodes A) ts xs → (∀ y ∈ ts, y ∈ A.traversals) →
        Pairs (fun x text => ∃ u, Spec.Templates.read text = some u ∧ Template A x u) ts
          ((ts.zip xs).map fun x => DUGTitraversal (Compiled.declsOf A).nodes x.1 x.2) := by
      intro ts xs hps
      induction hps with
      | nil => intro _; exact .nil
      | cons h6 _ ih =>
        intro hs
        exact .cons (template_of hl (hs _ List.mem_cons_self) (Declared.written_of hr hm (hs _ List.mem_cons_self) h6))
          (ih fun y hy => hs y (List.mem_cons_of_mem _ hy))
    exact key h5 fun _ h => h

/-! ## Samples -/

/-- `start phase All { pass scan; traversal Rename { info = <info>, uid = RN, travdata { int depth } }; pass gen { uid = cg }; }`
`root node Prog { children { Var v } }  node Var;` -/
def infoFile (info : String) : List Spec.Syntax.Entry :=
  small "Var" (.cons (.pass (.plain (nm "scan" 0)))
    (.cons (.traversal ⟨nm "Rename" 0, some (by8 info), nm "RN" 0, none, [⟨.prim .int, nm "depth" 0⟩]⟩)
      (.one (.pass (.long (nm "gen" 0) none (some (nm "cg" 0)) none)))))

/-- `Word` as a check. -/
def wordyB (w : CStr) : Bool := (match w with | c :: _ => letter c | [] => false) && w.all inWord

theorem wordy_of {w : CStr} (h : wordyB w = true) : Word w := by
  unfold wordyB at h
  rw [Bool.and_eq_true] at h
  refine ⟨?_, List.all_eq_true.1 h.2⟩
  cases w with
  | nil => cases h.1
  | cons c r => exact ⟨c, r, rfl, h.1⟩

/-- `Beside` as a check. -/
def besideB (a b : UInt8) : CStr → Bool
  | c :: d :: rest => (c == a && d == b) || besideB a b (d :: rest)
  | _ => false

theorem beside_of {a b : UInt8} {s : CStr} (h : besideB a b s = false) : ¬ Beside a b s := by
  rintro ⟨x, y, rfl⟩
  induction x with
  | nil => simp [besideB] at h
  | cons c x ih =>
    refine ih ?_
    cases x with
    | nil => simpa [besideB] using (Bool.or_eq_false_iff.1 h).2
    | cons d x => exact (Bool.or_eq_false_iff.1 h).2

/-- `Legible` as a check, but for the ends of comments. -/
def legibleB (A : Parse.Ast) : Bool :=
  (A.nodes.all fun n => wordyB n.name.orig) &&
  (A.traversals.all fun x => wordyB x.name.orig && (match x.uid.orig with | c :: _ => Spec.Text.isLetter c | [] => false) && x.uid.orig.all inWord &&
    (match x.info with | some i => !besideB 92 10 i | none => true)) &&
  A.passes.all fun p => wordyB (passFunction p) && !keywords.contains (passFunction p)

theorem legible_of {A : Parse.Ast} (h : legibleB A = true)
    (hc : (A.traversals.all fun x => match x.info with | some i => !besideB 42 47 i | none => true) = true) : Legible A := by
  unfold legibleB at h
  simp only [Bool.and_eq_true, List.all_eq_true] at h
  obtain ⟨⟨h1, h2⟩, h3⟩ := h
  refine ⟨fun n hn => wordy_of (h1 n hn), fun x hx => wordy_of (h2 x hx).1.1.1, fun x hx => ?_, fun p hp => ⟨wordy_of (h3 p hp).1, ?_⟩, ?_, ?_⟩
  · have h4 := (h2 x hx).1.1.2
    have h5 := (h2 x hx).1.2
    cases e : x.uid.orig with
    | nil => rw [e] at h4; cases h4
    | cons c r =>
      rw [e] at h4 h5
      exact ⟨c, r, rfl, h4, h5⟩
  · simpa using (h3 p hp).2
  · intro x hx i hi
    have h4 := (h2 x hx).2
    rw [Option.mem_def.1 hi] at h4
    exact beside_of (by simpa using h4)
  · intro x hx i hi
    have h4 := List.all_eq_true.1 hc x hx
    rw [Option.mem_def.1 hi] at h4
    exact beside_of (by simpa using h4)

/-- The description is accepted, and what `P` says is true of the files for the user. -/
def Writes (f : List Spec.Syntax.Entry) (P : List CStr × CStr → Prop) : Prop :=
  ∃ o texts, checks sampleAddr 60 (ast f) = .ok o ∧ o.errors = 0 ∧ templates 60 (ast f) o.tab = .ok texts ∧ P texts

/-- The same as a run. -/
def writesB (f : List Spec.Syntax.Entry) (p : List CStr × CStr → Bool) : Bool :=
  match checks sampleAddr 60 (ast f) with
  | .ok o => match templates 60 (ast f) o.tab with
    | .ok texts => o.errors == 0 && p texts
    | _ => false
  | _ => false

theorem writes_of {f : List Spec.Syntax.Entry} {P : List CStr × CStr → Prop} {p : List CStr × CStr → Bool} (hp : ∀ x, p x = true → P x)
    (h : writesB f p = true) : Writes f P := by
  unfold writesB at h
  split at h
  · rename_i o ho
    split at h
    · rename_i texts ht
      rw [Bool.and_eq_true] at h
      exact ⟨o, texts, ho, by simpa using h.1, ht, hp _ h.2⟩
    · cases h
  · cases h

/-- The theorem about C76 applies to the sample; what its files have. -/
example : Spec.Semantic.Apart sampleAddr ∧ Small (infoFile "Gives each name a number, 2 * 3 / 4.") ∧
    Legible (ast (infoFile "Gives each name a number, 2 * 3 / 4.")) ∧
    Writes (infoFile "Gives each name a number, 2 * 3 / 4.") fun x => ∃ text, x.1 = [text] ∧
      (Spec.Templates.read text).map functions = some [hook (t "RNinit"), hook (t "RNfini"), stub (t "RNprog"), stub (t "RNvar")] ∧
      (Spec.Templates.read x.2).map functions = some [passStub (t "CGgen"), passStub (t "scan")] :=
  ⟨sampleAddr_apart, small_of (named_of_plain (by decide +kernel)) (earlier_of_flat (by decide +kernel)) (by decide +kernel) (by decide +kernel)
    (by decide +kernel), legible_of (by decide +kernel) (by decide +kernel),
    writes_of (p := fun x => match x.1 with
      | [text] => decide ((Spec.Templates.read text).map functions = some [hook (t "RNinit"), hook (t "RNfini"), stub (t "RNprog"), stub (t "RNvar")] ∧
        (Spec.Templates.read x.2).map functions = some [passStub (t "CGgen"), passStub (t "scan")])
      | _ => false) (fun x h => by
        split at h
        · rename_i text e
          exact ⟨text, e, of_decide_eq_true h⟩
        · cases h) (by decide +kernel)⟩

/-! ## Where it is false -/

/-- C76 is false if the information on a traversal has the end of a comment (`cocogen/dynamic_backend/gen_user_traversals.c:35-37`): the file is
no C text. -/
theorem C76_comment_false : ∃ f, Small f ∧ legibleB (ast f) = true ∧ Writes f fun x => ∃ text, x.1 = [text] ∧ Spec.Templates.read text = none :=
  ⟨infoFile "Handles a */ b.", small_of (named_of_plain (by decide +kernel)) (earlier_of_flat (by decide +kernel)) (by decide +kernel)
    (by decide +kernel) (by decide +kernel), by decide +kernel,
    writes_of (p := fun x => match x.1 with
      | [text] => (Spec.Templates.read text).isNone
      | _ => false) (fun x h => by
        split at h
        · rename_i text e
          exact ⟨text, e, Option.isNone_iff_eq_none.1 h⟩
        · cases h) (by decide +kernel)⟩

/-- C76 is false if the information on a traversal has the end of a comment and the begin of another: what is between them is code. -/
theorem C76_inject_false : ∃ f, Small f ∧ legibleB (ast f) = true ∧ Writes f fun x => ∃ text u, x.1 = [text] ∧ Spec.Templates.read text = some u ∧
    hook (t "other") ∈ functions u ∧ ∀ y ∈ (ast f).traversals, ¬ Template (ast f) y u := by
  refine ⟨infoFile "Handles a */ void other() { return; } /* b.", small_of (named_of_plain (by decide +kernel)) (earlier_of_flat (by decide +kernel))
    (by decide +kernel) (by decide +kernel) (by decide +kernel), by decide +kernel,
    writes_of (p := fun x => match x.1 with
      | [text] => match Spec.Templates.read text with
        | some u => decide (hook (t "other") ∈ functions u)
        | none => false
      | _ => false) (fun x h => by
        split at h
        · rename_i text e
          split at h
          · rename_i u hu
            refine ⟨text, u, e, hu, of_decide_eq_true h, fun y hy ht => ?_⟩
            have hn : ((ast (infoFile "Handles a */ void other() { return; } /* b.")).traversals.all fun y =>
              userNames.all fun z => (hook (y.uid.orig.map upperB ++ z)).name != t "other") = true := by decide +kernel
            rcases (ht.functions _).1 (of_decide_eq_true h) with ⟨n, _, _, e⟩ | ⟨_, z, hz, e⟩
            · have := congrArg (fun z => z.type.length) e
              simp [hook, stub] at this
            · have := List.all_eq_true.1 (List.all_eq_true.1 hn y hy) z hz
              rw [← e] at this
              simp [hook] at this
          · cases h
        · cases h) (by decide +kernel)⟩

end Verif.Props
