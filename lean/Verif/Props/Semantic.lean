import Mathlib.Data.Nat.Pairing
import Verif.Lemmas.SemanticText
import Verif.Props.Evaluator
import Verif.Props.Parse

/-!
# C64: what the phase `semantic` hands to the scheduler

The earlier results about the scheduler and the evaluator (C57, C58, C59, C63) are about specifications that passed the earlier checks.
Here it is shown that the earlier checks do establish this, and that the specification is what the description says.
-/

namespace Verif.Props
open Verif.Str Verif.Ids Verif.Induce Verif.Graph Verif.Schedule Verif.Visits Verif.Evaluator
open Verif.Spec.Induce Verif.Spec.AttrTree Verif.Spec.Evaluate Verif.Spec.Evaluator
open Verif.Semantic (Loc checks semantic progOf)
open Verif.Parse (T Yyparse SPparseDSL)
open Verif.Spec.Semantic
open Verif.Spec.Ids (Clash functions)

/-- C64: the parser gives types their names. -/
theorem C64_parsed {ts : List T} {s : Parse.St} (h : Yyparse ts (.ok s)) : TypesNamed s.ast := by
  cases h with
  | accept _ h => refine Semantic.entries_state h ⟨fun n hn => ?_, fun n hn => ?_, fun n hn => ?_⟩ <;> cases hn

/-- C64, partial.  If the actions before the scheduler end without error, then what the scheduler reads is what the description says:
the nodes and nodesets in their order, the types of children, the references of equations, the members of nodesets, and the attributes
with those that come from nodesets.  And it has what the earlier checks are there for.

Missing: nodesets that name a nodeset declared later, which the resolution of set expressions does not handle (C23). -/
theorem C64_checked_partial (addr : Loc → Nat) (ha : Spec.Semantic.Apart addr) (A : Parse.Ast) (hp : TypesNamed A) (he : Earlier A) (fuel : Nat)
    (o : Semantic.Out) (h : checks addr fuel A = .ok o) (h0 : o.errors = 0) :
    Describes A o.spec ∧ Spec.Induce.Checked o.spec ∧ Classic o.spec := by
  obtain ⟨attrs, env, members, w⟩ := Semantic.checks_world ha hp he h h0
  exact ⟨w.describes, w.checked, w.classic⟩

/-- C64, partial: what the actions before the scheduler do not check, but the scheduler and the evaluator need, in terms of the
description.  If no attribute is declared to be both inherited and synthesized, there are equations for all attributes that are to be
computed; if no two equations are for the same attribute and none uses an attribute twice or for itself, this is so for the
specification; and so are nodesets without members. -/
theorem C64_needs_partial (addr : Loc → Nat) (ha : Spec.Semantic.Apart addr) (A : Parse.Ast) (hp : TypesNamed A) (he : Earlier A) (fuel : Nat)
    (o : Semantic.Out) (h : checks addr fuel A = .ok o) (h0 : o.errors = 0) :
    (OneKind A → Equipped o.spec) ∧ (Tidy A → SpecOk o.spec ∧ OneEach o.spec) ∧ (Peopled A → Filled o.spec) := by
  obtain ⟨attrs, env, members, w⟩ := Semantic.checks_world ha hp he h h0
  exact ⟨w.equipped, fun ht => ⟨w.specOk ht, w.oneEach ht⟩, w.filled⟩

/-- C64, partial: what the checks of attributes establish, in terms of the description.  If the actions before the scheduler end without
error, then types that are names are declared, no child has the name of an attribute of its node, attributes of nodesets are declared once
more only in nodes, with the constructor keyword, nodesets with attributes are unions, and the first attribute of a node or nodeset that
receives none is one that may be there.

Missing: the other attributes, which are not checked (C45); see also `C64_checked_partial`. -/
theorem C64_rules_partial (addr : Loc → Nat) (ha : Spec.Semantic.Apart addr) (A : Parse.Ast) (hp : TypesNamed A) (he : Earlier A) (fuel : Nat)
    (o : Semantic.Out) (h : checks addr fuel A = .ok o) (h0 : o.errors = 0) : Rules A :=
  (Semantic.checks_facts ha hp he h).1.rules h0

/-- C64, partial: the actions before the scheduler always end, with a specification or with an error that is reported.

Missing: two passes or traversals that have the same function, which is not handled (C24), and what is missing in
`C64_checked_partial`. -/
theorem C64_progress_partial (addr : Loc → Nat) (ha : Spec.Semantic.Apart addr) (A : Parse.Ast) (hp : TypesNamed A) (he : Earlier A)
    (hf : ¬ Clash (functions (progOf A).ids)) : ∃ N, ∀ fuel, N ≤ fuel → checks addr fuel A = .abort "CTIabortOnError" ∨
      checks addr fuel A = .abort "action error" ∨ ∃ o, checks addr fuel A = .ok o := by
  obtain ⟨R, N, h1, h2⟩ := Semantic.checks_run ha hp he hf
  refine ⟨N, fun fuel hN => ?_⟩
  rw [h1 fuel hN]
  rcases h2 with h2 | h2 | ⟨o, h2, _⟩
  · exact Or.inl h2
  · exact Or.inr (Or.inl h2)
  · exact Or.inr (Or.inr ⟨o, h2⟩)

/-- The phase accepts only if no action reports errors. -/
theorem semantic_ok {addr : Loc → Nat} {fuel max : Nat} {order : List (Nat × List Graph) → List (Nat × List Graph)} {A : Parse.Ast}
    {S : Spec} {P : Plan} (h : semantic addr fuel max order A = .ok (S, P)) :
    ∃ o, checks addr fuel A = .ok o ∧ o.errors = 0 ∧ o.spec = S ∧ SAVast fuel max order S = .ok (some P) := by
  unfold semantic at h
  obtain ⟨o, h1, h⟩ := Res.bind_eq_ok.1 h
  obtain ⟨p, h2, h⟩ := Res.bind_eq_ok.1 h
  cases p with
  | none => cases h
  | some p =>
    simp only at h
    cases he : o.errors with
    | succ n => rw [he] at h; cases h
    | zero =>
      rw [he] at h
      cases h
      exact ⟨o, h1, he, rfl, h2⟩

/-- C64, partial: descriptions that are accepted.  From the bytes of a file on: if the file is parsed and the phase `semantic` accepts it,
then no tree of the grammar has an attribute that is needed to compute itself.

Missing: see `C64_checked_partial`; and descriptions with equations that use an attribute twice or for itself, which are accepted or make
the scheduler fail (`C64_self_false`, `C64_twice_false`). -/
theorem C64_acyclic_partial (addr : Loc → Nat) (ha : Spec.Semantic.Apart addr) (input : CStr) (A : Parse.Ast) (hi : SPparseDSL input (.ok A))
    (he : Earlier A) (ht : Tidy A) (order : List (Nat × List Graph) → List (Nat × List Graph)) (ho : ∀ l, (order l).Perm l)
    (fuel max : Nat) (S : Spec) (P : Plan) (h : semantic addr fuel max order A = .ok (S, P)) :
    Describes A S ∧ ∀ T, Fits S T → ¬ T.Circular := by
  obtain ⟨o, h1, h2, rfl, h3⟩ := semantic_ok h
  have hp := Semantic.parsed_named hi
  obtain ⟨c1, c2, c3⟩ := C64_checked_partial addr ha A hp he fuel o h1 h2
  obtain ⟨_, n2, _⟩ := C64_needs_partial addr ha A hp he fuel o h1 h2
  exact ⟨c1, plan_acyclic (n2 ht).1 ho h3⟩

/-- C64, partial: descriptions that are accepted, and what is generated for them.  If the phase accepts a description, whose equations are
tidy, whose attributes have one kind, and whose nodesets have members, then C63 holds without its conditions on the specification that
are about the checks.

Missing: see `C64_acyclic_partial`, and the conditions of C63 on the plan. -/
theorem C64_evaluates_partial (addr : Loc → Nat) (ha : Spec.Semantic.Apart addr) (input : CStr) (A : Parse.Ast) (hi : SPparseDSL input (.ok A))
    (he : Earlier A) (ht : Tidy A) (hk : OneKind A) (hm : Peopled A) (order : List (Nat × List Graph) → List (Nat × List Graph))
    (ho : ∀ l, (order l).Perm l) (fuel max : Nat) (S : Spec) (P : Plan) (h : semantic addr fuel max order A = .ok (S, P)) (D : Evaluator.Names)
    (hN : Named D S) (hu : UsesNoInherited S) (hc : (OneVisit S ∧ Plain D S P) ∨ (Agree S P ∧ Generable D S P)) :
    ∃ prog, generate D S P = .ok (0, prog) ∧
      ∀ (V : Type) (user : CStr → List V → V) (T : Tree) (s : Store V), Fits S T → Complete D T → CanStart P T → Given T s →
        ∃ z, CCNevaluateAttributes ⟨D, S, prog, user⟩ T s = .ok z ∧ Solution D S user T s z ∧
          ∀ z', Solution D S user T s z' → z' = z := by
  obtain ⟨o, h1, h2, rfl, h3⟩ := semantic_ok h
  have hp := Semantic.parsed_named hi
  obtain ⟨c1, c2, c3⟩ := C64_checked_partial addr ha A hp he fuel o h1 h2
  obtain ⟨n1, n2, n3⟩ := C64_needs_partial addr ha A hp he fuel o h1 h2
  rcases hc with ⟨hv, hpl⟩ | ⟨hag, hg⟩
  · exact C63_oneVisit D _ (n2 ht).1 (n1 hk) (n3 hm) hv order ho fuel max P h3 hN c3 hu (n2 ht).2 hpl
  · exact C63_evaluates_partial D _ (n2 ht).1 (n1 hk) (n3 hm) order ho fuel max P h3 hag hN c3 hu (n2 ht).2 hg

/-! ## Samples -/

/-- Addresses for everything. -/
def sampleAddr : Loc → Nat
  | .node i => 5 * i
  | .set i => 5 * i + 1
  | .child i n => 5 * Nat.pair i n + 2
  | .attr (.node i) n => 5 * Nat.pair i n + 3
  | .attr (.set i) n => 5 * Nat.pair i n + 4

theorem sampleAddr_apart : Spec.Semantic.Apart sampleAddr := by
  intro x y h
  rcases x with i | i | ⟨i, n⟩ | ⟨i | i, n⟩ <;> rcases y with j | j | ⟨j, m⟩ | ⟨j | j, m⟩ <;> simp only [sampleAddr] at h <;>
    first
    | (exfalso; omega)
    | (have : i = j := by omega
       rw [this])
    | (have h := Nat.pair_eq_pair.1 (show Nat.pair i n = Nat.pair j m by omega)
       rw [h.1, h.2])

/-- An attribute of type `int`. -/
def intAttr (s : String) (os : List Spec.Syntax.Opt) : Spec.Syntax.Attr := ⟨.prim .int, nm s 0, some os⟩

/-- An equation. -/
def eqn (c : Option String) (a : String) (args : List (Option String × String)) : Spec.Syntax.Equation :=
  ⟨⟨c.map (nm · 0), nm a 0⟩, match args with
    | [] => none
    | _ => some (args.map fun x => ⟨x.1.map (nm · 0), nm x.2 0⟩)⟩

/-- A name with its place. -/
def pn (s : String) (row first last : Nat) : Parse.Name := ⟨Lex.bytes s, row, first, last⟩

/-- A word or sign. -/
def lexeme (s : String) : Spec.Text.Lexeme :=
  match Lex.bytes s with
  | [c] => if Spec.Text.isLetter c then .word [c] else .sym c
  | w => .word w

/-- The words and signs of a line. -/
def wordLine : List String → List (List Spec.Text.Piece × Spec.Text.Lexeme)
  | [] => []
  | w :: ws => ([.newline], lexeme w) :: ws.map fun w => ([.blank 32], lexeme w)

/-- A text that is written in words and signs, line by line; the first line is empty. -/
def wordText (ls : List (List String)) : Spec.Text.Text := ⟨ls.flatMap wordLine, []⟩

/-- A description, line by line: sums of numbers at a depth. -/
def sumText : Spec.Text.Text := wordText
  [["root", "node", "Prog", "{", "children", "{", "Expr", "e", "}", ",", "attributes", "{", "int", "res", "{", "synthesized", "}", "}", ","],
    ["equations", "{", "this", ".", "res", "=", "{", "args", "=", "{", "e", ".", "val", "}", "}", ",", "e", ".", "depth", "=", "{", "}", "}", "}", ";"],
    ["node", "Num", "{", "attributes", "{", "int", "lit", "{", "constructor", "}", "}", ","],
    ["equations", "{", "this", ".", "val", "=", "{", "args", "=", "{", "this", ".", "lit", ",", "this", ".", "depth", "}", "}", "}", "}", ";"],
    ["node", "Add", "{", "children", "{", "Expr", "l", ",", "Expr", "r", "}", ","],
    ["equations", "{", "this", ".", "val", "=", "{", "args", "=", "{", "l", ".", "val", ",", "r", ".", "val", "}", "}", ",", "l", ".", "depth", "=", "{", "args", "=", "{", "this", ".", "depth", "}", "}", ","],
    ["r", ".", "depth", "=", "{", "args", "=", "{", "this", ".", "depth", "}", "}", "}", "}", ";"],
    ["nodeset", "Expr", "{", "nodes", "=", "{", "Num", ",", "Add", "}", ","],
    ["attributes", "{", "int", "val", "{", "synthesized", "}", ",", "int", "depth", "{", "inherited", "}", "}", "}", ";"]]

/-- What it says. -/
def sumFile : List Spec.Syntax.Entry :=
  [.node ⟨true, pn "Prog" 2 11 14,
      [⟨pn "Expr" 2 29 32, pn "e" 2 34 34, none⟩],
      [⟨.prim .int, pn "res" 2 57 59, some [.synthesized]⟩],
      [⟨⟨none, pn "res" 3 20 22⟩, some [⟨some (pn "e" 3 37 37), pn "val" 3 41 43⟩]⟩,
        ⟨⟨some (pn "e" 3 51 51), pn "depth" 3 55 59⟩, none⟩], [], false⟩,
    .node ⟨false, pn "Num" 4 6 8,
      [],
      [⟨.prim .int, pn "lit" 4 29 31, some [.constructor]⟩],
      [⟨⟨none, pn "val" 5 20 22⟩, some [⟨none, pn "lit" 5 44 46⟩, ⟨none, pn "depth" 5 57 61⟩]⟩], [], false⟩,
    .node ⟨false, pn "Add" 6 6 8,
      [⟨pn "Expr" 6 23 26, pn "l" 6 28 28, none⟩, ⟨pn "Expr" 6 32 35, pn "r" 6 37 37, none⟩],
      [],
      [⟨⟨none, pn "val" 7 20 22⟩, some [⟨some (pn "l" 7 37 37), pn "val" 7 41 43⟩, ⟨some (pn "r" 7 47 47), pn "val" 7 51 53⟩]⟩,
        ⟨⟨some (pn "l" 7 61 61), pn "depth" 7 65 69⟩, some [⟨none, pn "depth" 7 91 95⟩]⟩,
        ⟨⟨some (pn "r" 8 1 1), pn "depth" 8 5 9⟩, some [⟨none, pn "depth" 8 31 35⟩]⟩], [], false⟩,
    .nodeset (.long (pn "Expr" 9 9 12) none ⟨.lit (pn "Num" 9 26 28) [pn "Add" 9 32 34], .nil⟩
      [⟨.prim .int, pn "val" 10 18 20, some [.synthesized]⟩, ⟨.prim .int, pn "depth" 10 44 48, some [.inherited]⟩])]

theorem sumFile_ok : ∀ e ∈ sumFile, e.Ok := by
  intro e he
  simp only [sumFile, List.mem_cons, List.not_mem_nil, or_false] at he
  rcases he with rfl | rfl | rfl | rfl
  · refine ⟨?_, ?_, ?_, ?_, ?_⟩ <;> simp [Spec.Syntax.Child.Ok, Spec.Syntax.Attr.Ok, Spec.Syntax.Life.Ok, Spec.Syntax.Opt.life]
  · refine ⟨?_, ?_, ?_, ?_, ?_⟩ <;> simp [Spec.Syntax.Child.Ok, Spec.Syntax.Attr.Ok, Spec.Syntax.Life.Ok, Spec.Syntax.Opt.life]
  · refine ⟨?_, ?_, ?_, ?_, ?_⟩ <;> simp [Spec.Syntax.Child.Ok, Spec.Syntax.Attr.Ok, Spec.Syntax.Life.Ok, Spec.Syntax.Opt.life]
  · simp [Spec.Syntax.Entry.Ok, Spec.Syntax.NodeSet.Ok, Spec.Syntax.Attr.Ok, Spec.Syntax.Opt.life]

/-- What the files say. -/
abbrev ast (f : List Spec.Syntax.Entry) : Parse.Ast := Spec.Syntax.tree f

instance (A : Parse.Ast) : Decidable (Tidy A) := by unfold Tidy; infer_instance
instance (A : Parse.Ast) : Decidable (OneKind A) := by unfold OneKind; infer_instance

/-- As a check: all types of attributes have names, and set expressions name nothing. -/
def plainAst (A : Parse.Ast) : Bool :=
  A.nodes.all (fun n => n.attrs.all fun a => a.type != .link_or_enum || a.ref.isSome) &&
  A.nodesets.all (fun n => n.attrs.all fun a => a.type != .link_or_enum || a.ref.isSome) &&
  A.traversals.all (fun t => t.data.all fun a => a.type != .link_or_enum || a.ref.isSome)

theorem named_of_plain {A : Parse.Ast} (h : plainAst A = true) : TypesNamed A := by
  simp only [plainAst, Bool.and_eq_true, List.all_eq_true, Bool.or_eq_true, bne_iff_ne, ne_eq] at h
  exact ⟨fun n hn a ha e => (h.1.1 n hn a ha).resolve_left (· e), fun n hn a ha e => (h.1.2 n hn a ha).resolve_left (· e),
    fun n hn a ha e => (h.2 n hn a ha).resolve_left (· e)⟩

/-- As a check: set expressions name nodesets that are literals. -/
def flatSets (A : Parse.Ast) : Bool :=
  A.nodesets.all fun s => (named s.expr).all fun n => A.nodesets.all fun t =>
    (t.name.orig.map Spec.Str.lowerB != n.orig.map Spec.Str.lowerB) || match t.expr with
      | .lit _ => true
      | _ => false

theorem earlier_of_flat {A : Parse.Ast} (h : flatSets A = true) : Earlier A := by
  intro i s hi n hn j t hj e
  simp only [flatSets, List.all_eq_true, Bool.or_eq_true, bne_iff_ne, ne_eq] at h
  rcases h s (List.mem_of_getElem? hi) n hn t (List.mem_of_getElem? hj) with h | h
  · exact absurd e h
  · right
    cases ht : t.expr with
    | lit l => exact ⟨l, rfl⟩
    | ref m => rw [ht] at h; cases h
    | op o l r => rw [ht] at h; cases h

/-- How the actions end: the specification and the number of errors, or why not. -/
def ending : Res Semantic.Out → Sum (Spec × Nat) String
  | .ok o => .inl (o.spec, o.errors)
  | .ub w => .inr ("ub " ++ w)
  | .abort w => .inr w
  | .diverge => .inr "diverge"

theorem ending_ok {r : Res Semantic.Out} {S : Spec} {n : Nat} (h : ending r = .inl (S, n)) : ∃ o, r = .ok o ∧ o.spec = S ∧ o.errors = n := by
  cases r with
  | ok o => cases h; exact ⟨o, rfl, rfl, rfl⟩
  | ub w => cases h
  | abort w => cases h
  | diverge => cases h

/-- Whether the phase accepts. -/
def accepts : Res (Spec × Plan) → Option String
  | .ok _ => none
  | .ub w => some ("ub " ++ w)
  | .abort w => some w
  | .diverge => some "diverge"

theorem accepts_ok {r : Res (Spec × Plan)} (h : accepts r = none) : ∃ S P, r = .ok (S, P) := by
  cases r with
  | ok o => exact ⟨o.1, o.2, rfl⟩
  | ub w => cases h
  | abort w => cases h
  | diverge => cases h

theorem stops {r : Res (Spec × Plan)} {w : String} (h : (match r with
    | .abort v => v == w
    | _ => false) = true) : r = .abort w := by
  cases r with
  | ok o => cases h
  | ub w => cases h
  | abort v => rw [eq_of_beq h]
  | diverge => cases h

theorem errors_none {r : Res Semantic.Out} (h : (match r with
    | .ok o => o.errors == 0
    | _ => false) = true) : ∃ o, r = .ok o ∧ o.errors = 0 := by
  cases r with
  | ok o => exact ⟨o, rfl, eq_of_beq h⟩
  | ub w => cases h
  | abort v => cases h
  | diverge => cases h

/-- The descriptions of these examples meet the conditions. -/
theorem sum_conditions : TypesNamed (ast sumFile) ∧ Earlier (ast sumFile) ∧ Tidy (ast sumFile) ∧ OneKind (ast sumFile) :=
  ⟨named_of_plain (by decide +kernel), earlier_of_flat (by decide +kernel), by decide +kernel, by decide +kernel⟩

theorem sum_peopled : Peopled (ast sumFile) := by
  intro n _ c _ i s hs _
  have hi : i = 0 := by
    have := (List.getElem?_eq_some_iff.1 hs).1
    have e : (ast sumFile).nodesets.length = 1 := by decide +kernel
    omega
  subst hi
  obtain ⟨n, hn, hm⟩ : ∃ n : Parse.Node, (ast sumFile).nodes[0]? = some n ∧ n.name.orig = Lex.bytes "Add" :=
    ⟨_, rfl, by decide +kernel⟩
  have he : s.expr = .lit [pn "Num" 9 26 28, pn "Add" 9 32 34] := by
    have : (ast sumFile).nodesets[0]?.map (·.expr) = some (.lit [pn "Num" 9 26 28, pn "Add" 9 32 34]) := by decide +kernel
    rw [hs] at this
    exact Option.some.inj this
  have hd := Means.lit (A := ast sumFile) [pn "Num" 9 26 28, pn "Add" 9 32 34]
  rw [← he] at hd
  refine ⟨0, s, n, _, hs, hn, hd, ?_⟩
  exact ⟨pn "Add" 9 32 34, by decide +kernel, by rw [hm]; unfold Spec.Str.SameName; decide +kernel⟩

/-- As a check: a text of words and signs is well formed. -/
def wordsOk (ls : List (List String)) : Bool :=
  ls.all fun l => l.all fun w => match lexeme w with
    | .word (c :: cs) => Spec.Text.isLetter c && cs.all Spec.Text.isWord && c :: cs != Lex.bytes "enum"
    | .sym c => Spec.Text.symbols.contains c
    | _ => false

theorem line_item {l : List String} {x : List Spec.Text.Piece × Spec.Text.Lexeme} (h : x ∈ wordLine l) :
    (x.1 = [.newline] ∨ x.1 = [.blank 32]) ∧ ∃ w ∈ l, x.2 = lexeme w := by
  cases l with
  | nil => cases h
  | cons w ws =>
    rcases List.mem_cons.1 h with rfl | h
    · exact ⟨Or.inl rfl, w, by simp, rfl⟩
    · obtain ⟨v, hv, rfl⟩ := List.mem_map.1 h
      exact ⟨Or.inr rfl, v, by simp [hv], rfl⟩

theorem words_item {ls : List (List String)} (h : wordsOk ls = true) {x : List Spec.Text.Piece × Spec.Text.Lexeme}
    (hx : x ∈ (wordText ls).items) : (x.1 = [.newline] ∨ x.1 = [.blank 32]) ∧ x.2.Ok ∧ x.2 ≠ .word (Lex.bytes "enum") ∧ x.2 ≠ .arrow := by
  obtain ⟨l, hl, hx⟩ := List.mem_flatMap.1 hx
  obtain ⟨h1, w, hw, h2⟩ := line_item hx
  rw [wordsOk, List.all_eq_true] at h
  have := (List.all_eq_true.1 (h l hl)) w hw
  rw [← h2] at this
  refine ⟨h1, ?_⟩
  obtain ⟨g, y⟩ := x
  simp only at this ⊢
  cases y with
  | word w =>
    cases w with
    | nil => cases this
    | cons c cs =>
      simp only [Bool.and_eq_true, List.all_eq_true, bne_iff_ne, ne_eq] at this
      exact ⟨⟨c, cs, rfl, this.1.1, this.1.2⟩, by simpa using this.2, by simp⟩
  | sym c => exact ⟨(by simpa using this : c ∈ Spec.Text.symbols), by simp, by simp⟩
  | _ => cases this

theorem apart_gaps : ∀ {l : List (List Spec.Text.Piece × Spec.Text.Lexeme)}, (∀ x ∈ l, x.1 ≠ []) → Spec.Text.Apart l
  | [], _ => trivial
  | [_], _ => trivial
  | _ :: y :: _, h => ⟨fun _ => h y (by simp), apart_gaps fun x hx => h x (by simp [List.mem_cons.1 hx])⟩

theorem plain_words : ∀ {l : List (List Spec.Text.Piece × Spec.Text.Lexeme)} {m : Spec.Text.Mode},
    (∀ x ∈ l, x.2 ≠ .word (Lex.bytes "enum") ∧ x.2 ≠ .arrow) → Spec.Text.Plain m l
  | [], _, _ => trivial
  | (_, _) :: _, _, h => ⟨fun _ => h _ (List.mem_cons_self ..), plain_words fun x hx => h x (List.mem_cons_of_mem _ hx)⟩

/-- Texts of words and signs are parsed as what they say. -/
theorem words_parsed {ls : List (List String)} (h : wordsOk ls = true) {es : List Spec.Syntax.Entry} (hes : ∀ e ∈ es, e.Ok)
    (hs : ((Spec.Text.place (wordText ls)).map fun ts => decide (Spec.Syntax.Stand ts (Spec.Syntax.spell es))) = some true) :
    SPparseDSL (Spec.Text.bytesOf (wordText ls)) (.ok (ast es)) := by
  cases hp : Spec.Text.place (wordText ls) with
  | none => rw [hp] at hs; cases hs
  | some ts =>
    rw [hp] at hs
    refine (C62_source_partial ⟨fun x hx => (words_item h hx).2.1, fun x hx p hg => ?_, (fun p hp => by cases hp), ?_⟩ ?_ hp
      (of_decide_eq_true (Option.some.inj hs)) hes _).2 rfl
    · rcases (words_item h hx).1 with e | e <;> rw [e] at hg <;> obtain rfl := List.mem_singleton.1 hg
      · trivial
      · exact Or.inl rfl
    · refine apart_gaps fun x hx => ?_
      rcases (words_item h hx).1 with e | e <;> rw [e] <;> simp
    · exact plain_words fun x hx => (words_item h hx).2.2

theorem sum_parsed : SPparseDSL (Spec.Text.bytesOf sumText) (.ok (ast sumFile)) :=
  words_parsed (by decide +kernel) sumFile_ok (by decide +kernel)

/-- `C64_parsed`, and from there the others, on the example: it is what was parsed. -/
example : ∃ s, Yyparse (Spec.Syntax.spell sumFile) (.ok s) ∧ s.ast = ast sumFile := by
  obtain ⟨⟨s, h1⟩, h2⟩ := C62_parse_partial sumFile_ok
  obtain ⟨s', h3, h4⟩ := h2 _ h1
  cases h3
  exact ⟨s, h1, h4⟩

/-- `C64_checked_partial` and `C64_needs_partial` on the example: the nodeset has two members, which have received its attributes. -/
example : Spec.Semantic.Apart sampleAddr ∧ TypesNamed (ast sumFile) ∧ Earlier (ast sumFile) ∧ OneKind (ast sumFile) ∧
    Tidy (ast sumFile) ∧ Peopled (ast sumFile) ∧
    ∃ o, checks sampleAddr 20 (ast sumFile) = .ok o ∧ o.errors = 0 ∧ o.spec.nodes.map (·.attrs.length) = [2, 3, 1] ∧
      o.spec.sets.map (·.members.length) = [2] := by
  obtain ⟨h1, h2, h3, h4⟩ := sum_conditions
  refine ⟨sampleAddr_apart, h1, h2, h4, h3, sum_peopled, ?_⟩
  have : (match ending (checks sampleAddr 20 (ast sumFile)) with
      | .inl (S, n) => some (n, S.nodes.map (·.attrs.length), S.sets.map (·.members.length))
      | .inr _ => none) = some (0, [2, 3, 1], [2]) := by decide +kernel
  cases h : checks sampleAddr 20 (ast sumFile) with
  | ok o =>
    rw [h] at this
    simp only [ending, Option.some.injEq, Prod.mk.injEq] at this
    exact ⟨o, rfl, this⟩
  | ub w => rw [h] at this; cases this
  | abort w => rw [h] at this; cases this
  | diverge => rw [h] at this; cases this

/-- `C64_progress_partial` on the example: there is nothing with functions. -/
example : Spec.Semantic.Apart sampleAddr ∧ TypesNamed (ast sumFile) ∧ Earlier (ast sumFile) ∧
    ¬ Clash (functions (progOf (ast sumFile)).ids) := by
  obtain ⟨h1, h2, _, _⟩ := sum_conditions
  refine ⟨sampleAddr_apart, h1, h2, ?_⟩
  have e : functions (progOf (ast sumFile)).ids = [] := by decide +kernel
  rw [e]
  exact fun h => by simp [Clash] at h

/-- `C64_acyclic_partial` on the example: the phase accepts it. -/
example : SPparseDSL (Spec.Text.bytesOf sumText) (.ok (ast sumFile)) ∧ Earlier (ast sumFile) ∧ Tidy (ast sumFile) ∧
    ∃ S P, semantic sampleAddr 60 100 id (ast sumFile) = .ok (S, P) :=
  ⟨sum_parsed, sum_conditions.2.1, sum_conditions.2.2.1, accepts_ok (by decide +kernel)⟩

/-- What the checks give for the example. -/
def sumSpec : Spec :=
  match ending (checks sampleAddr 60 (ast sumFile)) with
  | .inl x => x.1
  | .inr _ => ⟨[], []⟩

/-- The name of the attribute at an address. -/
def sumAttr (a : Nat) : CStr := (((attributes sumSpec).find? fun x => x.addr == a).map (·.name)).getD [110]

/-- Names of types, children and attributes of the example; all children are mandatory. -/
def sumNames : Evaluator.Names where
  type t := evId [110, 97 + UInt8.ofNat (t % 26)]
  child c := evId [99, 97 + UInt8.ofNat (c % 26)]
  attr a := if (40 : UInt8) ∈ (evId (sumAttr a)).upr then evId [110] else evId (sumAttr a)
  mandatory _ := true
  ctype _ := [105, 110, 116]

theorem sum_named : Named sumNames sumSpec := by
  refine ⟨by decide +kernel, fun a => ?_, fun c => ⟨rfl, rfl⟩, fun t => ⟨rfl, rfl⟩, fun a => ?_, by decide +kernel, by decide +kernel,
    by decide +kernel⟩
  · show Spec.Ids.WfId (if (40 : UInt8) ∈ (evId (sumAttr a)).upr then evId [110] else evId (sumAttr a))
    split <;> exact ⟨rfl, rfl⟩
  · have h : ∀ k < 26, (40 : UInt8) ∉ (evId [110, 97 + UInt8.ofNat k]).upr ∧ (40 : UInt8) ∉ (evId [99, 97 + UInt8.ofNat k]).upr := by
      decide
    obtain ⟨a1, a2⟩ := h (a % 26) (Nat.mod_lt _ (by decide))
    refine ⟨a1, ?_, a2⟩
    show (40 : UInt8) ∉ (if (40 : UInt8) ∈ (evId (sumAttr a)).upr then evId [110] else evId (sumAttr a)).upr
    split
    · decide
    · assumption

/-- `C64_evaluates_partial` on the example: a value and a depth, in one visit. -/
example : SPparseDSL (Spec.Text.bytesOf sumText) (.ok (ast sumFile)) ∧ Earlier (ast sumFile) ∧ Tidy (ast sumFile) ∧
    OneKind (ast sumFile) ∧ Peopled (ast sumFile) ∧ Named sumNames sumSpec ∧ UsesNoInherited sumSpec ∧
    ∃ P, semantic sampleAddr 60 100 id (ast sumFile) = .ok (sumSpec, P) ∧ OneVisit sumSpec ∧ Plain sumNames sumSpec P := by
  obtain ⟨h1, h2, h3, h4⟩ := sum_conditions
  refine ⟨sum_parsed, h2, h3, h4, sum_peopled, sum_named, by unfold UsesNoInherited; decide +kernel, ?_⟩
  obtain ⟨S, P, h⟩ := accepts_ok (r := semantic sampleAddr 60 100 id (ast sumFile)) (by decide +kernel)
  obtain ⟨o, ho, he, hs, hp⟩ := semantic_ok h
  have e : S = sumSpec := by rw [← hs, sumSpec, ho]; rfl
  subst e
  rw [← hs] at hp ⊢
  obtain ⟨c1, c2, c3⟩ := C64_checked_partial sampleAddr sampleAddr_apart _ h1 h2 60 o ho he
  obtain ⟨n1, n2, n3⟩ := C64_needs_partial sampleAddr sampleAddr_apart _ h1 h2 60 o ho he
  rw [hs] at hp c2 n1 n2 ⊢
  refine ⟨P, h, topDown_one c2 (n1 h4) (by unfold TopDown; decide +kernel), ?_⟩
  obtain ⟨P', hP', hv⟩ := planVisits_some (l := sumSpec.nodes.map (·.addr)) (r := SAVast 60 100 id sumSpec)
    (x := ((planVisits (sumSpec.nodes.map (·.addr)) (SAVast 60 100 id sumSpec))).getD []) (by decide +kernel)
  rw [hp] at hP'
  cases hP'
  apply plain_of <;> try decide +kernel
  · unfold Only; decide +kernel
  · intro s hs' m hm
    have hmem : ∀ s ∈ sumSpec.sets, ∀ m ∈ s.members, m ∈ sumSpec.nodes := by decide +kernel
    have hn := hmem s hs' m hm
    have : P.visits m.addr ∈ (sumSpec.nodes.map (·.addr)).map P.visits := List.mem_map_of_mem (List.mem_map_of_mem hn)
    rw [hv] at this
    intro e
    rw [e] at this
    revert this
    decide +kernel

/-! ## What is false -/

/-- A file in which an attribute is declared to be inherited and synthesized. -/
def kindsFile : List Spec.Syntax.Entry :=
  [.node ⟨true, nm "Prog" 0, [⟨nm "Leaf" 0, nm "l" 0, none⟩], [], [eqn (some "l") "a" []], [], false⟩,
    .node ⟨false, nm "Leaf" 0, [], [intAttr "a" [.inherited, .synthesized]], [eqn none "a" []], [], false⟩]

/-- What is accepted, as a check. -/
def acceptedWith (p : Spec → Bool) : Res (Spec × Plan) → Bool
  | .ok x => p x.1
  | _ => false

theorem accepted_with {p : Spec → Bool} {r : Res (Spec × Plan)} (h : acceptedWith p r = true) : ∃ S P, r = .ok (S, P) ∧ p S = true := by
  cases r with
  | ok x => exact ⟨x.1, x.2, rfl, h⟩
  | ub w => cases h
  | abort w => cases h
  | diverge => cases h

/-- Nothing checks that attributes have one kind: one that is declared to be inherited and synthesized is accepted, with two equations
that are for it, one in its node and one in the parent. -/
theorem C64_kinds_false : ∃ A, TypesNamed A ∧ Earlier A ∧ Tidy A ∧ ∃ S P, semantic sampleAddr 60 100 id A = .ok (S, P) ∧
    ¬ Equipped S := by
  refine ⟨ast kindsFile, named_of_plain (by decide +kernel), earlier_of_flat (by decide +kernel), by decide +kernel, ?_⟩
  obtain ⟨S, P, h1, h2⟩ := accepted_with (r := semantic sampleAddr 60 100 id (ast kindsFile))
    (p := fun S => (attributes S).any fun a => a.inh && a.syn) (by decide +kernel)
  obtain ⟨a, ha, h3⟩ := List.any_eq_true.1 h2
  exact ⟨S, P, h1, fun q => q.kinds a ha (by simpa using h3)⟩

/-- A node with an attribute that is used for itself: `this.a = { args = { this.a } }`. -/
def selfFile : List Spec.Syntax.Entry :=
  [.node ⟨true, nm "X" 0, [], [intAttr "a" [.synthesized]], [eqn none "a" [(none, "a")]], [], false⟩]

/-- Its attribute. -/
def selfAttr : Attr := ⟨sampleAddr (.attr (.node 0) (Semantic.code (Lex.bytes "a"))), Lex.bytes "a", false, true⟩

/-- The node as the scheduler reads it. -/
def selfX : INode := ⟨sampleAddr (.node 0), [selfAttr], [], [⟨⟨none, selfAttr⟩, [⟨none, selfAttr⟩]⟩]⟩

/-- Nothing checks that attributes are not used for themselves: `this.a = { args = { this.a } }` is accepted, and every tree is circular
(see `C57_self_false`). -/
theorem C64_self_false : ∃ A, TypesNamed A ∧ Earlier A ∧ OneKind A ∧ ∃ S P, semantic sampleAddr 60 100 id A = .ok (S, P) ∧
    ∃ T, Fits S T ∧ T.Circular := by
  refine ⟨ast selfFile, named_of_plain (by decide +kernel), earlier_of_flat (by decide +kernel), by decide +kernel, ?_⟩
  obtain ⟨S, P, h1, h2⟩ := accepted_with (r := semantic sampleAddr 60 100 id (ast selfFile)) (p := fun S => decide (S = ⟨[selfX], []⟩))
    (by decide +kernel)
  obtain rfl := of_decide_eq_true h2
  exact ⟨_, P, h1, .node selfX fun _ => .null, ⟨by simp, fun c hc => by cases hc⟩, ([], selfAttr.addr),
    .single (.here (e := ⟨⟨none, selfAttr⟩, [⟨none, selfAttr⟩]⟩) (d := ⟨none, selfAttr⟩) (by simp [selfX]) (by simp) (by simp [selfAttr])
      (.own rfl) (.own rfl))⟩

/-- A node with an equation that uses an attribute twice. -/
def twiceFile : List Spec.Syntax.Entry :=
  [.node ⟨true, nm "X" 0, [], [intAttr "a" [.synthesized], intAttr "b" [.synthesized]],
    [eqn none "a" [(none, "b"), (none, "b")], eqn none "b" []], [], false⟩]

/-- Nothing checks that equations do not use an attribute twice: the actions before the scheduler end without error, then an assertion
fails (see `C57_repeated_false`). -/
theorem C64_twice_false : ∃ A, TypesNamed A ∧ Earlier A ∧ OneKind A ∧ Peopled A ∧
    (∃ o, checks sampleAddr 60 A = .ok o ∧ o.errors = 0) ∧
    semantic sampleAddr 60 100 id A = .abort "assert edge is new" := by
  refine ⟨ast twiceFile, named_of_plain (by decide +kernel), earlier_of_flat (by decide +kernel), by decide +kernel, ?_, ?_, ?_⟩
  · intro n hn c hc i s hs
    cases hs
  · exact errors_none (by decide +kernel)
  · exact stops (by decide +kernel)

/-- An attribute of a nodeset that a member declares once more, and one whose type is a name. -/
def againFile : List Spec.Syntax.Entry :=
  [.node ⟨true, nm "X" 0, [⟨nm "B" 0, nm "c" 0, none⟩], [intAttr "a" [.constructor]], [], [], false⟩,
    .node ⟨false, nm "Y" 0, [], [], [], [], false⟩,
    .nodeset (.long (nm "B" 0) none ⟨.lit (nm "X" 0) [nm "Y" 0], .nil⟩ [intAttr "a" [], ⟨.named (nm "x" 0), nm "next" 0, some []⟩])]

/-- `C64_rules_partial` on it; with the name of a child for the attribute, or without the keyword, it is not accepted. -/
example : TypesNamed (ast againFile) ∧ Earlier (ast againFile) ∧ (∃ o, checks sampleAddr 60 (ast againFile) = .ok o ∧ o.errors = 0) ∧
    ¬ NodeAlone (ast againFile) 1 := by
  refine ⟨named_of_plain (by decide +kernel), earlier_of_flat (by decide +kernel), errors_none (by decide +kernel), fun h => ?_⟩
  obtain ⟨n, hn, hm⟩ : ∃ n : Parse.Node, (ast againFile).nodes[1]? = some n ∧ n.name.orig = Lex.bytes "X" := ⟨_, rfl, by decide +kernel⟩
  obtain ⟨s, hs, hm'⟩ : ∃ s : Parse.NodeSet, (ast againFile).nodesets[0]? = some s ∧ s.expr = .lit [nm "X" 0, nm "Y" 0] :=
    ⟨_, rfl, by decide +kernel⟩
  have hd := Means.lit (A := ast againFile) [nm "X" 0, nm "Y" 0]
  rw [← hm'] at hd
  have := h 0 s hs ⟨s, n, _, hs, hn, hd, nm "X" 0, by decide +kernel, by rw [hm]; unfold Spec.Str.SameName; decide +kernel⟩
  have h2 : (ast againFile).nodesets[0]?.map (·.attrs.length) = some 2 := by decide +kernel
  rw [hs] at h2
  simp [this] at h2

/-- A node with two equations for the same attribute. -/
def doubleFile : List Spec.Syntax.Entry :=
  [.node ⟨true, nm "X" 0, [], [intAttr "a" [.synthesized]], [eqn none "a" [], eqn none "a" []], [], false⟩]

/-- Nothing checks that there is one equation for an attribute: two are accepted. -/
theorem C64_double_false : ∃ A, TypesNamed A ∧ Earlier A ∧ OneKind A ∧ ∃ S P, semantic sampleAddr 60 100 id A = .ok (S, P) ∧
    ¬ OneEach S := by
  refine ⟨ast doubleFile, named_of_plain (by decide +kernel), earlier_of_flat (by decide +kernel), by decide +kernel, ?_⟩
  obtain ⟨S, P, h1, h2⟩ := accepted_with (r := semantic sampleAddr 60 100 id (ast doubleFile))
    (p := fun S => S.nodes.any fun n => decide ¬ (n.eqs.map fun q => place n q.rule).Nodup) (by decide +kernel)
  obtain ⟨n, hn, h3⟩ := List.any_eq_true.1 h2
  exact ⟨S, P, h1, fun q => of_decide_eq_true h3 (q n hn)⟩

/-- A node with a child that is of a nodeset without members: `nodeset E = {X} - {X}`. -/
def emptyFile : List Spec.Syntax.Entry :=
  [.node ⟨true, nm "X" 0, [⟨nm "E" 0, nm "e" 0, none⟩], [], [], [], false⟩,
    .nodeset (.short (nm "E" 0) ⟨.lit (nm "X" 0) [], .cons .difference (.lit (nm "X" 0) []) .nil⟩)]

/-- Nothing checks that nodesets have members: the actions before the scheduler end without error, then an assertion fails. -/
theorem C64_empty_false : ∃ A, TypesNamed A ∧ Earlier A ∧ OneKind A ∧ Tidy A ∧
    (∃ o, checks sampleAddr 60 A = .ok o ∧ o.errors = 0) ∧
    semantic sampleAddr 60 100 id A = .abort "assert visits != NULL" := by
  refine ⟨ast emptyFile, named_of_plain (by decide +kernel), earlier_of_flat (by decide +kernel), by decide +kernel, by decide +kernel, ?_, ?_⟩
  · exact errors_none (by decide +kernel)
  · exact stops (by decide +kernel)

/-- The attribute of a nodeset without some of the members of another: `nodeset C = {X, Y}`, and
`nodeset B { nodes = C - {Y}, attributes { int a { synthesized } } }`. -/
def lackFile : List Spec.Syntax.Entry :=
  [.node ⟨true, nm "X" 0, [], [], [eqn none "a" []], [], false⟩,
    .node ⟨false, nm "Y" 0, [], [], [], [], false⟩,
    .nodeset (.short (nm "C" 0) ⟨.lit (nm "X" 0) [nm "Y" 0], .nil⟩),
    .nodeset (.long (nm "B" 0) none ⟨.ref (nm "C" 0), .cons .difference (.lit (nm "Y" 0) []) .nil⟩ [intAttr "a" [.synthesized]])]

/-- The check of attributes reports this one, but only to the phase: the scheduler still runs, for a specification it cannot handle, and
an assertion fails. -/
theorem C64_phase_false : ∃ A, TypesNamed A ∧ Earlier A ∧ OneKind A ∧ Tidy A ∧
    (∃ o, checks sampleAddr 60 A = .ok o ∧ o.errors ≠ 0 ∧ ¬ Spec.Induce.Checked o.spec) ∧
    semantic sampleAddr 60 100 id A = .abort "assert equiv_attr" := by
  refine ⟨ast lackFile, named_of_plain (by decide +kernel), earlier_of_flat (by decide +kernel), by decide +kernel, by decide +kernel, ?_, ?_⟩
  · have h : (match checks sampleAddr 60 (ast lackFile) with
        | .ok o => o.errors != 0 && o.spec.sets.any fun s => s.members.any fun m => s.attrs.any fun a => a.syn && m.attrs.all fun b =>
          b.name != a.name
        | _ => false) = true := by decide +kernel
    cases hc : checks sampleAddr 60 (ast lackFile) with
    | ok o =>
      rw [hc] at h
      simp only [Bool.and_eq_true, bne_iff_ne, ne_eq, List.any_eq_true, List.all_eq_true] at h
      obtain ⟨h1, s, hs, m, hm, a, ha, h2, h3⟩ := h
      refine ⟨o, rfl, h1, fun hk => ?_⟩
      obtain ⟨b, hb, e, _⟩ := hk.equivalent s hs m hm a ha (Or.inr h2)
      exact h3 b hb e
    | ub w => rw [hc] at h; cases h
    | abort w => rw [hc] at h; cases h
    | diverge => rw [hc] at h; cases h
  · exact stops (by decide +kernel)

/-- Nodesets that name one that is declared behind them, and a traversal:
`nodeset N = M; nodeset M = {X} | {Y}; traversal T { uid = T, nodes = N }`. -/
def forwardFile : List Spec.Syntax.Entry :=
  [.node ⟨true, nm "X" 0, [], [], [], [], false⟩, .node ⟨false, nm "Y" 0, [], [], [], [], false⟩,
    .nodeset (.short (nm "N" 0) ⟨.ref (nm "M" 0), .nil⟩),
    .nodeset (.short (nm "M" 0) ⟨.lit (nm "X" 0) [], .cons .iunion (.lit (nm "Y" 0) []) .nil⟩),
    .traversal ⟨nm "T" 0, none, nm "TT" 0, some ⟨.ref (nm "N" 0), .nil⟩, []⟩]

/-- Nothing checks the order of nodesets: if one names a later one, the phase frees an expression twice (see `C23_forward_false`). -/
theorem C64_forward_false : ∃ A, TypesNamed A ∧ Tidy A ∧ OneKind A ∧ (semantic sampleAddr 60 100 id A).isUB = true :=
  ⟨ast forwardFile, named_of_plain (by decide +kernel), by decide +kernel, by decide +kernel, by decide +kernel⟩

end Verif.Props
