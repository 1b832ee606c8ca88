import Verif.Lemmas.FileNames
import Verif.Props.TableText

/-!
# Property theorems C78: the names of a description that is read from a file

The theorems quantify over all files.
-/

namespace Verif.Props
open Verif.Str
open Verif.Parse (SPparseDSL Name)
open Verif.Semantic hiding declsOf
open Verif.Spec.FileNames
open Verif.Spec.TableText (Ident Wordy Dispatch Spared)
open Verif.Spec.Semantic (Earlier)
open Verif.Spec.Targets (Aimed)
open Verif.Spec.Compiled (passFunction Free)
open Verif.Spec.Templates (Legible Beside Template PassFile)

section
variable {input : CStr} {A : Parse.Ast}

/-- C78: the names that a file declares, and the types of its children and attributes, are identifiers and no words of C; the values of enumerations
are identifiers or `->`.  Missing: values of enumerations that are `->` (`C78_arrow_false`) or words of C, which is what they may be. -/
theorem C78_names_partial (h : SPparseDSL input (.ok A)) : Spelled A := FileNames.parsed_spelled h

/-- No value of an enumeration is called `->`. -/
def Armless (A : Parse.Ast) : Prop := ∀ e ∈ A.enums, ∀ v ∈ e.vals, v.orig ≠ b!"->"

theorem ident_word {w : CStr} (h : Ident w) : Spec.Templates.Word w := by
  obtain ⟨⟨c, r, h1, h2⟩, h3⟩ := h
  exact ⟨⟨c, r, h1, TableText.letter_of c h2⟩, h3⟩

/-- The functions of passes. -/
theorem function_good (h : Spelled A) {p : Parse.Pass} (hp : p ∈ A.passes) : Spec.Templates.Word (passFunction p) ∧
    passFunction p ∉ Spec.Templates.keywords := by
  obtain ⟨h1, h2, h3⟩ := h.passes p hp
  unfold passFunction
  cases hf : p.func with
  | some f => exact ⟨ident_word (h3 f (by rw [hf]; rfl)).1, (h3 f (by rw [hf]; rfl)).2⟩
  | none =>
    cases hu : p.uid with
    | some u => exact TableText.fine_uid (h2 u (by rw [hu]; rfl)).1 h1.1.2
    | none => exact ⟨ident_word h1.1, h1.2⟩

theorem wordy_spelled (h : Spelled A) (ha : Armless A) : Wordy A :=
  ⟨fun n hn => (h.nodes n hn).1.1, fun n hn => (h.nodesets n hn).1.1, fun x hx => (h.traversals x hx).1.1, fun x hx => (h.traversals x hx).2.1.1,
    fun p hp => (h.passes p hp).1.1, fun _ hp => function_good h hp, fun e he => (h.enums e he).1, fun e he => (h.enums e he).2.1.1,
    fun e he v hv => ((h.enums e he).2.2 v hv).resolve_right (ha e he v hv)⟩

/-- C78: from the bytes of a file to the tables of the program.  If a file is read and accepted, `enum.h` and `vtables.c` are C text, and the
program calls what the file says.

Missing: a value `->` (`C78_arrow_false`); the conditions `Earlier`, `Free` and `Aimed`, as in C64, C66 and C67. -/
theorem C78_tables_partial {addr : Semantic.Loc → Nat} {fuel : Nat} {o : Semantic.Out} (ha : Spec.Semantic.Apart addr)
    (hr : SPparseDSL input (.ok A)) (he : Earlier A) (h : checks addr fuel A = .ok o) (hf : Free A) (hm : Aimed A) (hv : Armless A) :
    ∃ N, ∀ fuel, N ≤ fuel → ∃ text E V, TableText.vtables fuel A o.tab = .ok text ∧ Spec.TableText.read (TableText.enumText A) = some E ∧
      Spec.TableText.read text = some V ∧ Dispatch A E V ∧ ((Spec.TableText.names V).Nodup ↔ Spared A) :=
  C77_tables_partial ha (Semantic.parsed_named hr) he h (FileNames.parsed_numbered hr) hf hm (wordy_spelled (C78_names_partial hr) hv)

/-- C78: from the bytes of a file to the files for the user.

Missing: the conditions `Earlier` and `Aimed`, as in C64 and C67; information on a traversal with the end of a comment (`C76_comment_false`), or with
`\` at the end of a line. -/
theorem C78_templates_partial {addr : Semantic.Loc → Nat} {fuel : Nat} {o : Semantic.Out} (ha : Spec.Semantic.Apart addr)
    (hr : SPparseDSL input (.ok A)) (he : Earlier A) (h : checks addr fuel A = .ok o) (hm : Aimed A)
    (hl : ∀ x ∈ A.traversals, ∀ i ∈ x.info, ¬ Beside 92 10 i ∧ ¬ Beside 42 47 i) :
    ∃ N, ∀ fuel, N ≤ fuel → ∃ texts passes, Templates.templates fuel A o.tab = .ok (texts, passes) ∧
      Spec.Semantic.Pairs (fun x text => ∃ u, Spec.Templates.read text = some u ∧ Template A x u) A.traversals texts ∧
      ∃ u, Spec.Templates.read passes = some u ∧ PassFile A u := by
  have hs := C78_names_partial hr
  refine C76_templates_partial ha (Semantic.parsed_named hr) he h hm ⟨fun n hn => ident_word (hs.nodes n hn).1.1,
    fun x hx => ident_word (hs.traversals x hx).1.1, fun x hx => ?_, fun _ hp => function_good hs hp, fun x hx i hi => (hl x hx i hi).1,
    fun x hx i hi => (hl x hx i hi).2⟩
  obtain ⟨⟨c, r, h1, h2⟩, h3⟩ := (hs.traversals x hx).2.1.1
  exact ⟨c, r, h1, h2, h3⟩

end

/-! ## Examples -/

/-- The words of the text are those of the description. -/
def readsAs (input : CStr) (es : List Spec.Syntax.Entry) : Bool :=
  match Lex.lex input with
  | .ok (ts, _) => decide (ts.map Parse.term = Spec.Syntax.spell es)
  | _ => false

theorem parsed_text {input : CStr} {es : List Spec.Syntax.Entry} (h : readsAs input es = true) (hes : ∀ e ∈ es, e.Ok) :
    SPparseDSL input (.ok (ast es)) := by
  unfold readsAs at h
  split at h
  · rename_i ts lines hl
    obtain ⟨s, h1, h2⟩ := Lemmas.Syntax.file_reads es hes
    rw [ast, ← h2]
    refine .ok ts lines s hl ?_
    rw [of_decide_eq_true h]
    exact .accept s h1
  · cases h

/-- A small file, with a value of an enumeration. -/
def arrowText (value : String) : CStr :=
  Lex.bytes "start phase All { actions { pass scan; traversal Rename { uid = RN }; } }; root node Prog { children { Var v } }; node Var {}; " ++
    (Lex.bytes "enum op { prefix = BO, values { " ++ (Lex.bytes value ++ Lex.bytes " } };"))

/-- What it says. -/
def arrowFile (value : String) : List Spec.Syntax.Entry :=
  [.phase (.mk true false (pn "All" 1 13 15) none none none (.cons (.pass (.plain (pn "scan" 1 34 37)))
      (.one (.traversal ⟨pn "Rename" 1 50 55, none, pn "RN" 1 65 66, none, []⟩)))),
    .node ⟨true, pn "Prog" 1 86 89, [⟨pn "Var" 1 104 106, pn "v" 1 108 108, none⟩], [], [], [], false⟩,
    .node ⟨false, pn "Var" 1 120 122, [], [], [], [], false⟩,
    .enum ⟨pn "op" 1 133 134, none, pn "BO" 1 147 148, [pn value 1 160 (159 + (Lex.bytes value).length)]⟩]

theorem arrow_ok (value : String) : ∀ e ∈ arrowFile value, e.Ok := by
  intro e he
  simp only [arrowFile, List.mem_cons, List.not_mem_nil, or_false] at he
  rcases he with rfl | rfl | rfl | rfl
  · simp [Spec.Syntax.Entry.Ok, Spec.Syntax.Phase.Ok, Spec.Syntax.Actions.Ok, Spec.Syntax.Action.Ok, Spec.Syntax.Traversal.Ok, Spec.Syntax.Pass.Ok]
  · refine ⟨?_, ?_, ?_, ?_, ?_⟩ <;> simp [Spec.Syntax.Child.Ok, Spec.Syntax.Attr.Ok, Spec.Syntax.Life.Ok, Spec.Syntax.Opt.life]
  · refine ⟨?_, ?_, ?_, ?_, ?_⟩ <;> simp [Spec.Syntax.Child.Ok, Spec.Syntax.Attr.Ok, Spec.Syntax.Life.Ok, Spec.Syntax.Opt.life]
  · simp [Spec.Syntax.Entry.Ok, Spec.Syntax.Enum.Ok]

theorem arrow_small {value : String} (h1 : plainAst (ast (arrowFile value)) = true) (h2 : flatSets (ast (arrowFile value)) = true)
    (h3 : (ast (arrowFile value)).nodes.map (·.index) = (List.range (ast (arrowFile value)).numNodes).reverse ∧
      (ast (arrowFile value)).traversals.map (·.index) = (List.range (ast (arrowFile value)).numTraversals).reverse)
    (h4 : ((ast (arrowFile value)).traversals.all fun t => t.nodes.isNone) = true)
    (h5 : ((ast (arrowFile value)).nodes.all fun n => match n.name.orig with
      | c :: _ => Spec.Text.isLetter c
      | [] => false) = true) : Small (arrowFile value) := small_of (named_of_plain h1) (earlier_of_flat h2) h3 h4 h5

/-- The check accepts the description without message. -/
def acceptsB (A : Parse.Ast) : Bool := match checks sampleAddr 20 A with
  | .ok o => o.errors == 0
  | _ => false

theorem accepts_of {A : Parse.Ast} (h : acceptsB A = true) : ∃ o, checks sampleAddr 20 A = .ok o ∧ o.errors = 0 := by
  unfold acceptsB at h
  split at h
  · rename_i o ho
    exact ⟨o, ho, by simpa using h⟩
  · cases h

theorem armless_of {A : Parse.Ast} (h : (A.enums.all fun e => e.vals.all fun v => v.orig != b!"->") = true) : Armless A := fun e he v hv => by
  have := List.all_eq_true.1 (List.all_eq_true.1 h e he) v hv
  simpa using this

theorem add_small : Small (arrowFile "add") :=
  arrow_small (by decide +kernel) (by decide +kernel) (by decide +kernel) (by decide +kernel) (by decide +kernel)

theorem arrow_small' : Small (arrowFile "->") :=
  arrow_small (by decide +kernel) (by decide +kernel) (by decide +kernel) (by decide +kernel) (by decide +kernel)

theorem add_parsed : SPparseDSL (arrowText "add") (.ok (ast (arrowFile "add"))) := parsed_text (by decide +kernel) (arrow_ok _)

theorem arrow_parsed : SPparseDSL (arrowText "->") (.ok (ast (arrowFile "->"))) := parsed_text (by decide +kernel) (arrow_ok _)

theorem add_free : Free (ast (arrowFile "add")) := free_of (by unfold Spec.Compiled.Null; decide +kernel)

theorem arrow_free : Free (ast (arrowFile "->")) := free_of (by unfold Spec.Compiled.Null; decide +kernel)

theorem add_accepted : ∃ o, checks sampleAddr 20 (ast (arrowFile "add")) = .ok o ∧ o.errors = 0 := accepts_of (by decide +kernel)

theorem arrow_accepted : ∃ o, checks sampleAddr 20 (ast (arrowFile "->")) = .ok o ∧ o.errors = 0 := accepts_of (by decide +kernel)

theorem add_armless : Armless (ast (arrowFile "add")) := armless_of (by decide +kernel)

theorem add_info : ∀ x ∈ (ast (arrowFile "add")).traversals, ∀ i ∈ x.info, ¬ Beside 92 10 i ∧ ¬ Beside 42 47 i := by
  have h : ((ast (arrowFile "add")).traversals.all fun x => x.info.isNone) = true := by decide +kernel
  intro x hx i hi
  have := List.all_eq_true.1 h x hx
  rw [Option.isNone_iff_eq_none.1 this] at hi
  cases hi

theorem add_counts : (ast (arrowFile "add")).traversals.length = 1 ∧ (ast (arrowFile "add")).nodes.length = 2 := by decide +kernel

theorem arrow_unread : Spec.TableText.read (TableText.enumText (ast (arrowFile "->"))) = none :=
  Option.isNone_iff_eq_none.1 (by decide +kernel)

theorem arrow_value : ∃ e ∈ (ast (arrowFile "->")).enums, ∃ v ∈ e.vals, ¬ Ident v.orig := by
  have h : ((ast (arrowFile "->")).enums.any fun e => e.vals.any fun v => v.orig.any fun c => !Spec.Templates.inWord c) = true := by decide +kernel
  obtain ⟨e, he, h⟩ := List.any_eq_true.1 h
  obtain ⟨v, hv, h⟩ := List.any_eq_true.1 h
  obtain ⟨c, hc, h⟩ := List.any_eq_true.1 h
  refine ⟨e, he, v, hv, fun hi => ?_⟩
  rw [hi.2 c hc] at h
  cases h

/-- The theorems about C78 apply to the sample. -/
example : ∃ A o, SPparseDSL (arrowText "add") (.ok A) ∧ Spec.Semantic.Apart sampleAddr ∧ Earlier A ∧ checks sampleAddr 20 A = .ok o ∧ Free A ∧
    Aimed A ∧ Armless A ∧ (∀ x ∈ A.traversals, ∀ i ∈ x.info, ¬ Beside 92 10 i ∧ ¬ Beside 42 47 i) ∧ A.traversals.length = 1 ∧ A.nodes.length = 2 := by
  obtain ⟨o, ho, _⟩ := add_accepted
  exact ⟨_, o, add_parsed, sampleAddr_apart, add_small.earlier, ho, add_free, add_small.aimed, add_armless, add_info, add_counts⟩

/-- C78 is false for the values of enumerations: `->` is read as one, and the file is accepted without message, but `enum.h` is no C text. -/
theorem C78_arrow_false : ∃ A, SPparseDSL (arrowText "->") (.ok A) ∧ Earlier A ∧ Free A ∧ Aimed A ∧
    (∃ o, checks sampleAddr 20 A = .ok o ∧ o.errors = 0) ∧ (∃ e ∈ A.enums, ∃ v ∈ e.vals, ¬ Ident v.orig) ∧
    Spec.TableText.read (TableText.enumText A) = none :=
  ⟨_, arrow_parsed, arrow_small'.earlier, arrow_free, arrow_small'.aimed, arrow_accepted, arrow_value, arrow_unread⟩

end Verif.Props
