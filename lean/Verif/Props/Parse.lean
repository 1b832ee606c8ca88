import Verif.Lemmas.ParsePhase
import Verif.Lemmas.Syntax
import Verif.Props.Lex

/-!
# The parser (C62)

What is written according to the manual is accepted and read as what it says; no file has two readings.
-/

namespace Verif.Props
open Verif.Str (CStr)
open Verif.Lex (Token bytes)
open Verif.Parse (Name T Yyparse SPparseDSL term)

/-- Reading signs. -/
theorem term_stands {t : Token} {x : T} (h : Spec.Syntax.Stands t x) : term t = x := by
  obtain ⟨k, text, l, f, e⟩ := t
  cases x with
  | id n =>
    obtain ⟨h1, h2, h3, h4⟩ := h
    obtain ⟨o, a, b, c⟩ := n
    simp only at h1 h2 h3 h4
    subst h1 h2 h3 h4
    rfl
  | other => cases h
  | str s =>
    simp only [Spec.Syntax.Stands, Spec.Syntax.ink, Option.some.injEq] at h
    subst h
    rfl
  | _ =>
    simp only [Spec.Syntax.Stands, Spec.Syntax.ink, Option.some.injEq] at h
    subst h
    simp only [term]
    decide +kernel

theorem terms_stand : ∀ {ts : List Token} {xs : List T}, Spec.Syntax.Stand ts xs → ts.map term = xs
  | [], [], _ => rfl
  | t :: ts, x :: xs, h => by rw [List.map_cons, term_stands h.1, terms_stand h.2]
  | [], _ :: _, h => by cases h
  | _ :: _, [], h => by cases h

/-- C62: no sequence of tokens has two readings, whether it is written according to the manual or not. -/
theorem C62_unique {ts : List T} {a b : Res Parse.St} (ha : Yyparse ts a) (hb : Yyparse ts b) : a = b :=
  Parse.yyparse_unique ha hb

/-- C62: a file that is written according to the manual is accepted, and the tree has what it says.  Missing: the forms excluded by
`Ok`, for which it is false. -/
theorem C62_parse_partial {es : List Spec.Syntax.Entry} (h : ∀ e ∈ es, e.Ok) :
    (∃ s, Yyparse (Spec.Syntax.spell es) (.ok s)) ∧
      ∀ v, Yyparse (Spec.Syntax.spell es) v → ∃ s, v = .ok s ∧ s.ast = Spec.Syntax.tree es := by
  obtain ⟨s, h1, h2⟩ := Lemmas.Syntax.file_reads es h
  exact ⟨⟨s, .accept s h1⟩, fun v hv => ⟨s, C62_unique hv (.accept s h1), h2⟩⟩

/-- C62: from the bytes of a file to the tree.  The text may have any gaps and comments; its tokens stand for what is written in the
description, at their places.  Missing: as in `C62_parse_partial` and `C60_text_partial`. -/
theorem C62_source_partial {t : Spec.Text.Text} (hok : t.Ok) (hpl : Spec.Text.Plain .outside t.items) {ts : List Token}
    (hts : Spec.Text.place t = some ts) {es : List Spec.Syntax.Entry} (hes : Spec.Syntax.Stand ts (Spec.Syntax.spell es))
    (h : ∀ e ∈ es, e.Ok) (v : Res Parse.Ast) : SPparseDSL (Spec.Text.bytesOf t) v ↔ v = .ok (Spec.Syntax.tree es) := by
  obtain ⟨lines, hl⟩ := C60_text_partial hok hpl hts
  obtain ⟨s, h1, h2⟩ := Lemmas.Syntax.file_reads es h
  have hm := terms_stand hes
  constructor
  · intro hv
    cases hv with
    | ok us l s' h3 h4 =>
      rw [hl] at h3
      cases h3
      rw [hm] at h4
      have := C62_unique h4 (.accept s h1)
      injection this with this
      rw [this, h2]
    | abort us l w h3 h4 =>
      rw [hl] at h3
      cases h3
      rw [hm] at h4
      cases C62_unique h4 (.accept s h1)
    | lexUb w h3 => rw [hl] at h3; cases h3
    | lexAbort w h3 => rw [hl] at h3; cases h3
    | lexDiverge h3 => rw [hl] at h3; cases h3
  · rintro rfl
    rw [← h2]
    exact .ok ts lines s hl (by rw [hm]; exact .accept s h1)

/-- C62: descriptions that are written with the same tokens say the same. -/
theorem C62_meaning_partial {es fs : List Spec.Syntax.Entry} (h : ∀ e ∈ es, e.Ok) (h' : ∀ e ∈ fs, e.Ok)
    (he : Spec.Syntax.spell es = Spec.Syntax.spell fs) : Spec.Syntax.tree es = Spec.Syntax.tree fs := by
  obtain ⟨s, h1, h2⟩ := Lemmas.Syntax.file_reads es h
  obtain ⟨s', h3, h4⟩ := Lemmas.Syntax.file_reads fs h'
  rw [he] at h1
  rw [← h2, ← h4, Parse.entries_unique h1 h3]

/-! ## Examples -/

/-- A name at a place. -/
def nm (s : String) (k : Nat) : Name := ⟨bytes s, 1, k, k⟩

/-- A description with one of each kind: nested phases, a node with all its blocks, a nodeset, an enumeration. -/
def exampleFile : List Spec.Syntax.Entry :=
  [.phase (.mk true false (nm "All" 1) (some (bytes "x")) none (some (nm "on" 2))
      (.cons (.pass (.short (nm "scan" 3) (nm "doScan" 4)))
        (.cons (.phase (.mk false true (nm "Opt" 5) none (some (nm "O" 6)) none (.one (.ref (nm "Fold" 7)))))
          (.one (.traversal ⟨nm "Print" 8, none, nm "PR" 9, none, [⟨.prim .int, nm "depth" 10⟩, ⟨.user (nm "S" 11), nm "s" 12⟩]⟩))))),
    .traversal ⟨nm "Fold" 13, none, nm "F" 14,
      some ⟨.lit (nm "Add" 15) [nm "Num" 16], .cons .iunion (.paren (.ref (nm "Expr" 17)) .difference (.lit (nm "Num" 18) []) .nil) .nil⟩, []⟩,
    .node ⟨true, nm "Add" 19, [⟨nm "Expr" 20, nm "left" 21, some (true, [⟨.mandatory, none⟩])⟩, ⟨nm "Expr" 22, nm "right" 23, none⟩],
      [⟨.prim .int, nm "val" 24, some [.synthesized, .constructor]⟩], [⟨⟨none, nm "val" 25⟩, some [⟨some (nm "left" 26), nm "val" 27⟩]⟩],
      [⟨.disallowed, some (⟨false, [nm "All" 28, nm "O" 29]⟩, ⟨false, []⟩)⟩], false⟩,
    .node ⟨false, nm "Num" 30, [], [], [], [], false⟩,
    .nodeset (.short (nm "Expr" 31) ⟨.lit (nm "Add" 32) [nm "Num" 33], .nil⟩),
    .enum ⟨nm "Kind" 34, none, nm "K" 35, [nm "node" 36]⟩]

theorem exampleFile_ok : ∀ e ∈ exampleFile, e.Ok := by
  intro e he
  simp only [exampleFile, List.mem_cons, List.not_mem_nil, or_false] at he
  rcases he with rfl | rfl | rfl | rfl | rfl | rfl
  · simp [Spec.Syntax.Entry.Ok, Spec.Syntax.Phase.Ok, Spec.Syntax.Actions.Ok, Spec.Syntax.Action.Ok, Spec.Syntax.Pass.Ok,
      Spec.Syntax.Traversal.Ok]
  · simp [Spec.Syntax.Entry.Ok, Spec.Syntax.Traversal.Ok]
  · refine ⟨?_, ?_, ?_, ?_, ?_⟩ <;>
      simp [Spec.Syntax.Child.Ok, Spec.Syntax.Attr.Ok, Spec.Syntax.Life.Ok, Spec.Syntax.Opt.life]
  · refine ⟨?_, ?_, ?_, ?_, ?_⟩ <;> simp
  · trivial
  · simp [Spec.Syntax.Entry.Ok, Spec.Syntax.Enum.Ok]

/-- `C62_parse_partial` on the example: two traversals, numbered in the order of the text. -/
example : (∀ e ∈ exampleFile, e.Ok) ∧ (Spec.Syntax.tree exampleFile).traversals.map (·.index) = [1, 0] ∧
    (Spec.Syntax.tree exampleFile).phases.map (·.actions.map (·.first)) = [[3, 5, 8], [7]] ∧
    100 < (Spec.Syntax.spell exampleFile).length :=
  ⟨exampleFile_ok, by decide +kernel, by decide +kernel, by decide +kernel⟩

/-- `C62_unique` on the example. -/
example : ∃ v, Yyparse (Spec.Syntax.spell exampleFile) v := (C62_parse_partial exampleFile_ok).1.imp' _ (fun _ h => h)

/-- `C62_meaning_partial` on the example and a copy of it put together from two halves. -/
example : (∀ e ∈ exampleFile, e.Ok) ∧ (∀ e ∈ exampleFile.take 2 ++ exampleFile.drop 2, e.Ok) ∧
    Spec.Syntax.spell exampleFile = Spec.Syntax.spell (exampleFile.take 2 ++ exampleFile.drop 2) :=
  ⟨exampleFile_ok, exampleFile_ok, rfl⟩

/-- A text: `pass a; // x` and `pass b = f;` on the next line. -/
def exampleText : Spec.Text.Text :=
  ⟨[([], .word (bytes "pass")), ([.blank 32], .word (bytes "a")), ([], .sym 59),
    ([.blank 9, .line (bytes " x")], .word (bytes "pass")), ([.block (bytes "node")], .word (bytes "b")), ([.blank 32], .sym 61),
    ([], .word (bytes "f")), ([.newline], .sym 59)], [.newline]⟩

/-- What it says. -/
def exampleEntries : List Spec.Syntax.Entry :=
  [.pass (.plain ⟨bytes "a", 1, 6, 6⟩), .pass (.short ⟨bytes "b", 2, 13, 13⟩ ⟨bytes "f", 2, 16, 16⟩)]

/-- `C62_source_partial` on this text. -/
example : exampleText.Ok ∧ Spec.Text.Plain .outside exampleText.items ∧
    (∃ ts, Spec.Text.place exampleText = some ts ∧ Spec.Syntax.Stand ts (Spec.Syntax.spell exampleEntries)) ∧
    ∀ e ∈ exampleEntries, e.Ok := by
  refine ⟨⟨?_, ?_, ?_, ?_⟩, ?_, ?_, ?_⟩
  · intro x hx
    simp only [exampleText, List.mem_cons, List.not_mem_nil, or_false] at hx
    rcases hx with rfl | rfl | rfl | rfl | rfl | rfl | rfl | rfl
    · exact ⟨112, [97, 115, 115], by decide +kernel, by decide, by decide⟩
    · exact ⟨97, [], by decide +kernel, by decide, by decide⟩
    · show (59 : UInt8) ∈ Spec.Text.symbols; decide
    · exact ⟨112, [97, 115, 115], by decide +kernel, by decide, by decide⟩
    · exact ⟨98, [], by decide +kernel, by decide, by decide⟩
    · show (61 : UInt8) ∈ Spec.Text.symbols; decide
    · exact ⟨102, [], by decide +kernel, by decide, by decide⟩
    · show (59 : UInt8) ∈ Spec.Text.symbols; decide
  · intro x hx p hp
    simp only [exampleText, List.mem_cons, List.not_mem_nil, or_false] at hx
    rcases hx with rfl | rfl | rfl | rfl | rfl | rfl | rfl | rfl <;>
      simp only [List.mem_cons, List.not_mem_nil, or_false] at hp
    · subst hp; exact .inl rfl
    · rcases hp with rfl | rfl
      · exact .inr (.inl rfl)
      · show (10 : UInt8) ∉ bytes " x"; decide +kernel
    · subst hp
      show ¬ [42, 47] <:+: bytes "node"
      have e : bytes "node" = [110, 111, 100, 101] := by decide +kernel
      rw [e]; decide
    · subst hp; exact .inl rfl
    · subst hp; trivial
  · intro p hp
    simp only [exampleText, List.mem_cons, List.not_mem_nil, or_false] at hp
    subst hp; trivial
  · simp [exampleText, Spec.Text.Apart, Spec.Text.Touch]
  · have e1 : bytes "pass" ≠ bytes "enum" := by decide +kernel
    have e2 : bytes "a" ≠ bytes "enum" := by decide +kernel
    have e3 : bytes "b" ≠ bytes "enum" := by decide +kernel
    have e4 : bytes "f" ≠ bytes "enum" := by decide +kernel
    simp [exampleText, Spec.Text.Plain, Spec.Text.Mode.next, e1, e2, e3, e4]
  · cases h : Spec.Text.place exampleText with
    | none => exact absurd h (by decide +kernel)
    | some ts =>
      have : ((Spec.Text.place exampleText).map fun ts => decide (Spec.Syntax.Stand ts (Spec.Syntax.spell exampleEntries))) =
          some true := by decide +kernel
      rw [h] at this
      exact ⟨ts, rfl, of_decide_eq_true (Option.some.inj this)⟩
  · intro e he
    simp only [exampleEntries, List.mem_cons, List.not_mem_nil, or_false] at he
    rcases he with rfl | rfl <;> trivial

/-! ## What is false -/

/-- C62: of a traversal with information, data and no nodes the information is lost. -/
theorem C62_info_false : ∃ t : Spec.Syntax.Traversal, ∃ s, Yyparse (Spec.Syntax.spell [.traversal t]) (.ok s) ∧
    s.ast ≠ Spec.Syntax.tree [.traversal t] ∧ s.traversals.map (·.info) = [none] ∧ t.info ≠ none :=
  ⟨⟨nm "T" 1, some (bytes "x"), nm "U" 2, none, [⟨.prim .int, nm "n" 3⟩]⟩, _,
    .accept _ (.cons _ _ _ _ _ _ (.traversal _ _ _ _ (.iud _ _ _ _ _ _ _ _ (.mk _ _) (.mk _ _) (.mk _ _ _ (.one _ _ _ (.prim _ _ _ _ .int)))))
      (.empty _ _)), by decide +kernel, by decide +kernel, by decide +kernel⟩

/-- C62: a gate without function, which the manual allows, is refused. -/
theorem C62_gate_false : Yyparse [.phase, .id (nm "P" 1), .lbrace, .gate, .comma, .actions, .lbrace, .id (nm "a" 2), .semi, .rbrace,
    .rbrace, .semi] (.abort "syntax error") := Parse.rejects (by decide +kernel)

/-- C62: lifetimes of a node without children and attributes are refused, with equations before them or not. -/
theorem C62_lifetime_false :
    Yyparse (Spec.Syntax.spell [.node ⟨false, nm "N" 1, [], [], [], [⟨.disallowed, none⟩], false⟩]) (.abort "syntax error") ∧
    Yyparse (Spec.Syntax.spell [.node ⟨false, nm "N" 1, [], [], [⟨⟨none, nm "a" 2⟩, none⟩], [⟨.disallowed, none⟩], false⟩])
      (.abort "syntax error") := ⟨Parse.rejects (by decide +kernel), Parse.rejects (by decide +kernel)⟩

/-- C62: a cycle with information, uid and gate is refused; without commas it is accepted. -/
theorem C62_cycle_false :
    Yyparse (Spec.Syntax.spell [.phase (.mk false true (nm "C" 1) (some (bytes "x")) (some (nm "U" 2)) (some (nm "g" 3))
      (.one (.ref (nm "a" 4))))]) (.abort "syntax error") ∧
    ∃ s, Yyparse [.cycle, .id (nm "C" 1), .lbrace, .info, .eq, .str (bytes "x"), .uid, .eq, .id (nm "U" 2), .gate, .eq,
      .id (nm "g" 3), .actions, .lbrace, .id (nm "a" 4), .semi, .rbrace, .rbrace, .semi] (.ok s) :=
  ⟨Parse.rejects (by decide +kernel), _, .accept _ (.cons _ _ _ _ _ _ (.phase _ _ _ _ _ (.cycleIug _ _ _ _ _ _ _ _ _ _ _ _ _ _
    (.mk _ _ _ _ (.empty _)) (.mk _ _) (.mk _ _) (.mk _ _) (.mk _ _ _ _ _ (.one _ _ _ _ _ (.id _ _ _))))) (.empty _ _))⟩

/-- C62: the range from the beginning to the end of the compilation, both included, is refused. -/
theorem C62_range_false :
    Yyparse (Spec.Syntax.spell [.node ⟨false, nm "N" 1, [⟨nm "A" 2, nm "a" 3, none⟩], [], [],
      [⟨.disallowed, some (⟨true, []⟩, ⟨true, []⟩)⟩], false⟩]) (.abort "syntax error") := Parse.rejects (by decide +kernel)

/-- C62: parentheses around one operand are refused. -/
theorem C62_group_false :
    Yyparse [.nodeset, .id (nm "S" 1), .eq, .lpar, .id (nm "A" 2), .rpar, .semi] (.abort "syntax error") ∧
    Yyparse [.nodeset, .id (nm "S" 1), .eq, .lpar, .lpar, .id (nm "A" 2), .bar, .id (nm "B" 3), .rpar, .rpar, .semi]
      (.abort "syntax error") := ⟨Parse.rejects (by decide +kernel), Parse.rejects (by decide +kernel)⟩

/-- C62: an equation without braces, which the manual allows, is refused. -/
theorem C62_equation_false :
    Yyparse [.node, .id (nm "N" 1), .lbrace, .equations, .lbrace, .this, .dot, .id (nm "a" 2), .eq, .rbrace, .rbrace, .semi]
      (.abort "syntax error") := Parse.rejects (by decide +kernel)

/-- C62: the example of the manual for equations (`docs/source/dsl_syntax.rst:201-213`) is refused: its block is called
`equation`. -/
theorem C62_manual_false :
    Yyparse [.root, .node, .id (nm "BinOp" 1), .lbrace, .children, .lbrace, .id (nm "Expr" 2), .id (nm "left" 3), .lbrace, .constructor,
      .comma, .mandatory, .rbrace, .comma, .id (nm "Expr" 4), .id (nm "right" 5), .lbrace, .constructor, .comma, .mandatory, .rbrace,
      .rbrace, .comma, .attributes, .lbrace, .id (nm "BinOpEnum" 6), .id (nm "op" 7), .lbrace, .constructor, .rbrace, .comma, .int,
      .id (nm "sum" 8), .lbrace, .synthesized, .rbrace, .rbrace, .comma, .id (nm "equation" 9), .lbrace, .this, .dot, .id (nm "sum" 10),
      .eq, .lbrace, .args, .eq, .lbrace, .id (nm "left" 11), .dot, .id (nm "value" 12), .comma, .id (nm "right" 13), .dot,
      .id (nm "value" 14), .rbrace, .rbrace, .rbrace, .rbrace, .semi] (.abort "syntax error") := Parse.rejects (by decide +kernel)

/-- C62: not only what the manual describes is accepted: a range may be written with its brackets the other way round. -/
theorem C62_brackets_false : ¬ ∀ ts s, Yyparse ts (.ok s) → Spec.Syntax.balanced 0 ts = true := by
  intro h
  have := h [.node, .id (nm "N" 1), .lbrace, .children, .lbrace, .id (nm "A" 2), .id (nm "a" 3), .lbrace, .mandatory, .id (nm "x" 4),
    .rpar, .arrow, .lpar, .id (nm "y" 5), .rbrace, .rbrace, .rbrace, .semi] _
    (.accept _ (.cons _ _ _ _ _ _ (.node _ _ _ _ (.c _ _ _ _ _ _ (.mk _ _ _ _ (.empty _)) (.mk _ _ _ (.one _ _ _ (.life _ _ _ _ _
      (.one _ _ _ (.mandatoryIn _ _ _ _ _ (.before _ _ _ (.one _ _)) (.after _ _ _ (.one _ _))))))))) (.empty _ _)))
  revert this
  decide

end Verif.Props
