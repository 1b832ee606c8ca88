import Verif.Lemmas.ScanPlace

/-!
# The scanner (C60, C61)

C60: a text is read as what it says, whatever the gaps between its lexemes are.  C61: every token has its place in the file, and
the line shown with an error is the line it stands in.
-/

namespace Verif.Props
open Verif.Str (CStr)
open Verif.Lex (Tok Token bytes)
open Verif.Spec.Text

/-! ## C60 -/

/-- C60: the tokens of a text are those it stands for, at the places where they stand; the gaps have no influence but on the places.
Missing: values of enumerations called `enum` and arrows among the values (`Plain`), for which it is false. -/
theorem C60_text_partial {t : Text} (hok : t.Ok) (hpl : Plain .outside t.items) {ts : List Token} (h : place t = some ts) :
    ∃ lines, Verif.Lex.lex (bytesOf t) = .ok (ts, lines) :=
  (Verif.Lex.lex_text hok hpl).1 ts h

/-- C60: a text with a C keyword as name (not a keyword of the language, not a value of an enumeration) is refused. -/
theorem C60_ckeyword_partial {t : Text} (hok : t.Ok) (hpl : Plain .outside t.items) (h : place t = none) :
    ∃ w, Verif.Lex.lex (bytesOf t) = .abort w :=
  (Verif.Lex.lex_text hok hpl).2 h

/-- The words of two texts are the same: their tokens without places. -/
theorem placeFrom_toks {xs ys : List (List Piece × Lexeme)} (h : xs.map (·.2) = ys.map (·.2)) : ∀ (m : Mode) (p q : Pos),
    (placeFrom m p xs).map (·.map Token.tok) = (placeFrom m q ys).map (·.map Token.tok) := by
  induction xs generalizing ys with
  | nil =>
    intro m p q
    cases ys with
    | nil => rfl
    | cons y ys => cases h
  | cons x xs ih =>
    intro m p q
    cases ys with
    | nil => cases h
    | cons y ys =>
      obtain ⟨g, x⟩ := x
      obtain ⟨g', y⟩ := y
      simp only [List.map_cons, List.cons.injEq] at h
      obtain ⟨rfl, h⟩ := h
      have := ih h (m.next x) ((p.move (gapText g)).move x.text) ((q.move (gapText g')).move x.text)
      simp only [placeFrom]
      cases meaning m x with
      | none => rfl
      | some t =>
        simp only [Option.bind_eq_bind, Option.bind_some]
        revert this
        cases placeFrom (m.next x) ((p.move (gapText g)).move x.text) xs <;>
          cases placeFrom (m.next x) ((q.move (gapText g')).move x.text) ys <;> intro this <;> simp at this ⊢
        exact this

/-- C60: two texts with the same lexemes are read as the same tokens; comments, blanks and ends of lines do not matter. -/
theorem C60_layout_partial {t u : Text} (ht : t.Ok) (hu : u.Ok) (hl : t.items.map (·.2) = u.items.map (·.2))
    (hpt : Plain .outside t.items) (hpu : Plain .outside u.items) :
    (∃ ts us l l', Verif.Lex.lex (bytesOf t) = .ok (ts, l) ∧ Verif.Lex.lex (bytesOf u) = .ok (us, l') ∧
      ts.map Token.tok = us.map Token.tok) ∨
    (∃ w w', Verif.Lex.lex (bytesOf t) = .abort w ∧ Verif.Lex.lex (bytesOf u) = .abort w') := by
  have := placeFrom_toks hl .outside ⟨1, 1⟩ ⟨1, 1⟩
  obtain ⟨a1, a2⟩ := Verif.Lex.lex_text ht hpt
  obtain ⟨b1, b2⟩ := Verif.Lex.lex_text hu hpu
  unfold place at a1 a2 b1 b2
  cases h1 : placeFrom .outside ⟨1, 1⟩ t.items with
  | none =>
    cases h2 : placeFrom .outside ⟨1, 1⟩ u.items with
    | none =>
      obtain ⟨w, hw⟩ := a2 h1
      obtain ⟨w', hw'⟩ := b2 h2
      exact .inr ⟨w, w', hw, hw'⟩
    | some us => rw [h1, h2] at this; cases this
  | some ts =>
    cases h2 : placeFrom .outside ⟨1, 1⟩ u.items with
    | none => rw [h1, h2] at this; cases this
    | some us =>
      rw [h1, h2] at this
      obtain ⟨l, hl⟩ := a1 ts h1
      obtain ⟨l', hl'⟩ := b1 us h2
      exact .inl ⟨ts, us, l, l', hl, hl', by simpa using this⟩

/-- `enum E { values { node, if } };  // done` with a comment before the last brace, and the same with other gaps. -/
def lexSample (g : List Piece) : Text where
  items := [([.newline], .word (bytes "enum")), ([.blank 32], .word (bytes "E")), (g, .sym 123), ([], .word (bytes "values")),
    ([.block (bytes "a\n* b")], .sym 123), ([], .word (bytes "node")), ([], .sym 44), ([.newline], .word (bytes "if")), ([], .sym 125),
    ([], .sym 125), (g, .sym 59), (g, .nat (bytes "12")), ([], .sym 45), ([], .neg (bytes "7")), ([], .arrow), ([], .dec false (bytes "1") (bytes "5")),
    ([.line (bytes "x")], .str (bytes "a\\\"b"))]
  tail := [.line (bytes " done")]

theorem lexSample_ok {g : List Piece} (hg : ∀ p ∈ g, p.Ok) : (lexSample g).Ok := by
  have word : ∀ s : String, (match bytes s with
      | [] => false
      | c :: cs => Verif.Lex.isLetter c && cs.all Verif.Lex.isWord) = true → (Lexeme.word (bytes s)).Ok := by
    intro s h
    cases e : bytes s with
    | nil => rw [e] at h; cases h
    | cons c cs =>
      rw [e] at h
      simp only [Bool.and_eq_true, List.all_eq_true] at h
      exact ⟨c, cs, rfl, h.1, h.2⟩
  have dig : ∀ s : String, bytes s ≠ [] → (bytes s).all Verif.Lex.isDigit = true → Digits (bytes s) :=
    fun s h k => ⟨h, List.all_eq_true.mp k⟩
  have q : Quoted (bytes "a\\\"b") := by
    rw [show bytes "a\\\"b" = [97, 92, 34, 98] by decide +kernel]
    exact .plain 97 _ (by decide) (by decide) (by decide) (.escape 34 _ (by decide) (.plain 98 _ (by decide) (by decide) (by decide) .nil))
  have noEnd : ∀ b : CStr, (b.zip b.tail).all (fun x => x != (42, 47)) = true → ¬ [42, 47] <:+: b := by
    intro b h ⟨u, v, e⟩
    have h := List.all_eq_true.mp h (42, 47) ?_
    · simp at h
    · subst e
      induction u with
      | nil => simp
      | cons c u ih =>
        cases u with
        | nil => simp
        | cons d u => exact List.mem_cons_of_mem _ (ih (by
            simp only [List.cons_append, List.tail_cons, List.zip_cons_cons, List.all_cons, Bool.and_eq_true] at h
            exact h.2))
  refine ⟨?_, ?_, ?_, ?_⟩
  · intro x hx
    simp only [lexSample, List.mem_cons, List.not_mem_nil, or_false] at hx
    rcases hx with rfl | rfl | rfl | rfl | rfl | rfl | rfl | rfl | rfl | rfl | rfl | rfl | rfl | rfl | rfl | rfl | rfl
    · exact word _ (by decide +kernel)
    · exact word _ (by decide +kernel)
    · exact (by decide : (123 : UInt8) ∈ Verif.Lex.symbols)
    · exact word _ (by decide +kernel)
    · exact (by decide : (123 : UInt8) ∈ Verif.Lex.symbols)
    · exact word _ (by decide +kernel)
    · exact (by decide : (44 : UInt8) ∈ Verif.Lex.symbols)
    · exact word _ (by decide +kernel)
    · exact (by decide : (125 : UInt8) ∈ Verif.Lex.symbols)
    · exact (by decide : (125 : UInt8) ∈ Verif.Lex.symbols)
    · exact (by decide : (59 : UInt8) ∈ Verif.Lex.symbols)
    · exact ⟨dig _ (by decide +kernel) (by decide +kernel), by decide +kernel⟩
    · exact (by decide : (45 : UInt8) ∈ Verif.Lex.symbols)
    · exact ⟨dig _ (by decide +kernel) (by decide +kernel), by decide +kernel⟩
    · trivial
    · exact ⟨dig _ (by decide +kernel) (by decide +kernel), dig _ (by decide +kernel) (by decide +kernel)⟩
    · exact ⟨q, by decide +kernel⟩
  · intro x hx p hp
    simp only [lexSample, List.mem_cons, List.not_mem_nil, or_false] at hx
    rcases hx with rfl | rfl | rfl | rfl | rfl | rfl | rfl | rfl | rfl | rfl | rfl | rfl | rfl | rfl | rfl | rfl | rfl <;>
      simp only [List.mem_cons, List.not_mem_nil, or_false] at hp <;> first
        | exact hg p hp
        | (subst hp; first
            | trivial
            | exact .inl rfl
            | exact noEnd _ (by decide +kernel)
            | exact (by decide +kernel : (10 : UInt8) ∉ bytes "x"))
  · intro p hp
    simp only [lexSample, List.mem_cons, List.not_mem_nil, or_false] at hp
    subst hp
    exact (by decide +kernel : (10 : UInt8) ∉ bytes " done")
  · refine ⟨fun _ => by simp, ?_⟩
    simp only [Apart, Touch]
    simp

theorem lexSample_plain (g : List Piece) : Plain .outside (lexSample g).items := by
  have h : ∀ s : String, bytes s ≠ bytes "enum" → Lexeme.word (bytes s) ≠ .word (bytes "enum") := fun s h e => h (by injection e)
  have h1 := h "node" (by decide +kernel)
  have h2 := h "if" (by decide +kernel)
  have e1 : bytes "E" ≠ bytes "values" := by decide +kernel
  simp only [lexSample, Plain, Mode.next, if_pos, if_neg e1]
  simp [h1, h2]

/-- The sample meets the hypotheses, with any gaps, and is read as tokens: `node` and `if` are names of values. -/
example : ∃ ts, place (lexSample [.blank 9, .block []]) = some ts ∧ ts.length = 17 ∧
      (ts.map Token.tok)[5]? = some (.id (bytes "node")) ∧ (ts.map Token.tok)[13]? = some (.int (-7)) ∧
      ∃ lines, Verif.Lex.lex (bytesOf (lexSample [.blank 9, .block []])) = .ok (ts, lines) := by
  have hg : ∀ p ∈ [Piece.blank 9, .block []], p.Ok := by
    intro p hp
    simp only [List.mem_cons, List.not_mem_nil, or_false] at hp
    rcases hp with rfl | rfl
    · exact .inr (.inl rfl)
    · rintro ⟨u, v, e⟩
      simp at e
  cases h : place (lexSample [.blank 9, .block []]) with
  | none => exact absurd h (by decide +kernel)
  | some ts =>
    refine ⟨ts, rfl, ?_, ?_, ?_, C60_text_partial (lexSample_ok hg) (lexSample_plain _) h⟩
    · have : (place (lexSample [.blank 9, .block []])).map List.length = some 17 := by decide +kernel
      rw [h] at this; simpa using this
    · have : ((place (lexSample [.blank 9, .block []])).map fun ts => (ts.map Token.tok)[5]?) = some (some (.id (bytes "node"))) := by
        decide +kernel
      rw [h] at this; exact Option.some.inj this
    · have : ((place (lexSample [.blank 9, .block []])).map fun ts => (ts.map Token.tok)[13]?) = some (some (.int (-7))) := by
        decide +kernel
      rw [h] at this; exact Option.some.inj this

/-- A name that is a C keyword: `node if` has no meaning, and is a text as wanted. -/
example : ∃ t : Text, t.Ok ∧ Plain .outside t.items ∧ place t = none ∧ ∃ w, Verif.Lex.lex (bytesOf t) = .abort w := by
  have hok : (Text.mk [([], .word (bytes "node")), ([.blank 32], .word (bytes "if"))] []).Ok := by
    refine ⟨?_, ?_, fun p hp => (by cases hp), ⟨fun _ => by simp, trivial⟩⟩
    · intro x hx
      simp only [List.mem_cons, List.not_mem_nil, or_false] at hx
      rcases hx with rfl | rfl
      · exact ⟨110, [111, 100, 101], by decide +kernel, by decide, by decide⟩
      · exact ⟨105, [102], by decide +kernel, by decide, by decide⟩
    · intro x hx p hp
      simp only [List.mem_cons, List.not_mem_nil, or_false] at hx
      rcases hx with rfl | rfl
      · cases hp
      · simp only [List.mem_cons, List.not_mem_nil, or_false] at hp
        subst hp; exact .inl rfl
  have hpl : Plain .outside [([], .word (bytes "node")), ([.blank 32], .word (bytes "if"))] := by
    have e1 : bytes "node" ≠ bytes "enum" := by decide +kernel
    have e2 : bytes "if" ≠ bytes "enum" := by decide +kernel
    simp [Plain, Mode.next, e1]
  exact ⟨_, hok, hpl, by decide +kernel, C60_ckeyword_partial hok hpl (by decide +kernel)⟩

/-- The same lexemes with other gaps: the hypotheses of `C60_layout_partial` are met. -/
example : (lexSample []).items.map (·.2) = (lexSample [.newline, .newline]).items.map (·.2) ∧ (lexSample []).Ok ∧ (lexSample [.newline, .newline]).Ok ∧
    bytesOf (lexSample []) ≠ bytesOf (lexSample [.newline, .newline]) :=
  ⟨rfl, lexSample_ok (fun p hp => by cases hp), lexSample_ok (fun p hp => by
    simp only [List.mem_cons, List.not_mem_nil, or_false, or_self] at hp
    subst hp; trivial), by decide +kernel⟩

/-- The values `enum`, `values` of an enumeration switch the keywords off in the braces that follow: the `children` of the node are
read as a name. -/
def enumSample : Text where
  items := [([], .word (bytes "enum")), ([.blank 32], .word (bytes "E")), ([], .sym 123), ([], .word (bytes "values")), ([], .sym 123),
    ([], .word (bytes "enum")), ([], .sym 44), ([], .word (bytes "values")), ([], .sym 125), ([], .sym 125), ([], .sym 59),
    ([], .word (bytes "node")), ([.blank 32], .word (bytes "N")), ([], .sym 123), ([], .word (bytes "children")), ([], .sym 125), ([], .sym 59)]
  tail := []

/-- C60 is false: with values of an enumeration called `enum` and `values`, keywords behind it are read as names. -/
theorem C60_false : ∃ t : Text, (∀ x ∈ t.items, x.2.Ok) ∧ Apart t.items ∧ ∃ ts lines ts', place t = some ts ∧
    Verif.Lex.lex (bytesOf t) = .ok (ts', lines) ∧ ts'.map Token.tok ≠ ts.map Token.tok ∧
    (ts.map Token.tok)[14]? = some (.kw (bytes "children")) ∧ (ts'.map Token.tok)[14]? = some (.id (bytes "children")) := by
  refine ⟨enumSample, ?_, ?_, ?_⟩
  · have word : ∀ s : String, (match bytes s with
        | [] => false
        | c :: cs => Verif.Lex.isLetter c && cs.all Verif.Lex.isWord) = true → (Lexeme.word (bytes s)).Ok := by
      intro s h
      cases e : bytes s with
      | nil => rw [e] at h; cases h
      | cons c cs =>
        rw [e] at h
        simp only [Bool.and_eq_true, List.all_eq_true] at h
        exact ⟨c, cs, rfl, h.1, h.2⟩
    intro x hx
    simp only [enumSample, List.mem_cons, List.not_mem_nil, or_false] at hx
    rcases hx with rfl | rfl | rfl | rfl | rfl | rfl | rfl | rfl | rfl | rfl | rfl | rfl | rfl | rfl | rfl | rfl | rfl <;> first
      | exact word _ (by decide +kernel)
      | exact (by decide : (123 : UInt8) ∈ Verif.Lex.symbols)
      | exact (by decide : (125 : UInt8) ∈ Verif.Lex.symbols)
      | exact (by decide : (44 : UInt8) ∈ Verif.Lex.symbols)
      | exact (by decide : (59 : UInt8) ∈ Verif.Lex.symbols)
  · simp only [enumSample, Apart, Touch]
    simp
  · cases h : place enumSample with
    | none => exact absurd h (by decide +kernel)
    | some ts =>
      cases h' : Verif.Lex.lex (bytesOf enumSample) with
      | ok r =>
        have key : ∃ r, Verif.Lex.lex (bytesOf enumSample) = .ok r ∧
            (r.1.map Token.tok)[14]? = some (.id (bytes "children")) := by
          have : (match Verif.Lex.lex (bytesOf enumSample) with
            | .ok r => decide ((r.1.map Token.tok)[14]? = some (.id (bytes "children")))
            | _ => false) = true := by decide +kernel
          rw [h'] at this ⊢
          exact ⟨r, rfl, of_decide_eq_true this⟩
        have k2 : ((place enumSample).map fun ts => (ts.map Token.tok)[14]?) = some (some (.kw (bytes "children"))) := by decide +kernel
        rw [h] at k2
        have k2 : (ts.map Token.tok)[14]? = some (.kw (bytes "children")) := Option.some.inj k2
        obtain ⟨r', e, k⟩ := key
        rw [h'] at e
        injection e with e; subst e
        refine ⟨ts, r.2, r.1, rfl, rfl, ?_, k2, k⟩
        intro e
        rw [e, k2] at k
        cases k
      | ub w =>
        have : (match Verif.Lex.lex (bytesOf enumSample) with | .ok _ => true | _ => false) = true := by decide +kernel
        rw [h'] at this; cases this
      | abort w =>
        have : (match Verif.Lex.lex (bytesOf enumSample) with | .ok _ => true | _ => false) = true := by decide +kernel
        rw [h'] at this; cases this
      | diverge =>
        have : (match Verif.Lex.lex (bytesOf enumSample) with | .ok _ => true | _ => false) = true := by decide +kernel
        rw [h'] at this; cases this

/-- C60: a number out of range is not refused; it is read as the largest one. -/
theorem C60_range_false : ∃ ds : CStr, Digits ds ∧ ∃ lines v, value ds ≠ v ∧
    Verif.Lex.lex ds = .ok ([⟨.uint v, ds, 1, 1, ds.length⟩], lines) := by
  refine ⟨bytes "18446744073709551616", ⟨by decide +kernel, by decide +kernel⟩, [(1, bytes "18446744073709551616")], 18446744073709551615,
    by decide +kernel, ?_⟩
  have : (match Verif.Lex.lex (bytes "18446744073709551616") with
    | .ok r => decide (r = ([⟨.uint 18446744073709551615, bytes "18446744073709551616", 1, 1, (bytes "18446744073709551616").length⟩],
        [(1, bytes "18446744073709551616")]))
    | _ => false) = true := by decide +kernel
  revert this
  cases Verif.Lex.lex (bytes "18446744073709551616") with
  | ok r => intro this; rw [of_decide_eq_true this]
  | ub w => intro h; cases h
  | abort w => intro h; cases h
  | diverge => intro h; cases h

/-- C60: a comment without end is not reported; the rest of the file is passed over. -/
theorem C60_comment_false : ∃ lines, Verif.Lex.lex (bytes "/* node") = .ok ([], lines) := by
  have : (match Verif.Lex.lex (bytes "/* node") with
    | .ok r => decide (r.1 = [])
    | _ => false) = true := by decide +kernel
  revert this
  cases Verif.Lex.lex (bytes "/* node") with
  | ok r => intro this; exact ⟨r.2, by rw [← of_decide_eq_true this]⟩
  | ub w => intro h; cases h
  | abort w => intro h; cases h
  | diverge => intro h; cases h

/-! ## C61 -/

/-- C61: every token stands at its place in the file, and the line kept for its place is the line it stands in.  Missing: files with
a string going over the end of a line, for which it is false. -/
theorem C61_place_partial {input : CStr} (h0 : 0 ∉ input) {ts : List Token} {lines : List (Nat × CStr)}
    (h : Verif.Lex.lex input = .ok (ts, lines)) (ht : ∀ u ∈ ts, 10 ∉ u.text) :
    ∀ u ∈ ts, StandsAt input u ∧ ∃ l, lines.lookup u.line = some l ∧ (linesOf input)[u.line - 1]? = some l :=
  Verif.Lex.lex_places h0 h ht

/-- C61: scanning ends, with tokens or with an error about a name or a character. -/
theorem C61_ends (input : CStr) : (∃ r, Verif.Lex.lex input = .ok r) ∨
    Verif.Lex.lex input = .abort "Found C-keyword as identifier, which would generate invalid C code." ∨
    Verif.Lex.lex input = .abort "Unexpected token found, quit parsing" := Verif.Lex.lex_ends input

/-- A file with three lines, a comment over two of them and tokens in the last. -/
example : ∃ ts lines, Verif.Lex.lex (bytes "a /*\n\n b*/ c\n->") = .ok (ts, lines) ∧ (0 : UInt8) ∉ bytes "a /*\n\n b*/ c\n->" ∧ (∀ u ∈ ts, 10 ∉ u.text) ∧
    ts = [⟨.id (bytes "a"), bytes "a", 1, 1, 1⟩, ⟨.id (bytes "c"), bytes "c", 3, 6, 6⟩, ⟨.kw (bytes "->"), bytes "->", 4, 1, 2⟩] := by
  have : (match Verif.Lex.lex (bytes "a /*\n\n b*/ c\n->") with
    | .ok r => decide (r.1 = [⟨.id (bytes "a"), bytes "a", 1, 1, 1⟩, ⟨.id (bytes "c"), bytes "c", 3, 6, 6⟩, ⟨.kw (bytes "->"), bytes "->", 4, 1, 2⟩])
    | _ => false) = true := by decide +kernel
  revert this
  cases Verif.Lex.lex (bytes "a /*\n\n b*/ c\n->") with
  | ok r =>
    intro this
    have := of_decide_eq_true this
    refine ⟨r.1, r.2, rfl, by decide +kernel, ?_, this⟩
    rw [this]
    decide +kernel
  | ub w => intro h; cases h
  | abort w => intro h; cases h
  | diverge => intro h; cases h

/-- C61 is false for a string over two lines: it and the token behind it are said to stand elsewhere. -/
theorem C61_false : ∃ ts lines u v, Verif.Lex.lex (bytes "x = \"a\nb\" y") = .ok (ts, lines) ∧ u ∈ ts ∧ v ∈ ts ∧
    u.tok = .str (bytes "a\nb") ∧ u.line = 2 ∧ u.first = 5 ∧ v.text = bytes "y" ∧
    (linesOf (bytes "x = \"a\nb\" y"))[v.line - 1]? = some (bytes "b\" y") ∧ v.first = 11 := by
  have : (match Verif.Lex.lex (bytes "x = \"a\nb\" y") with
    | .ok r => decide (r.1 = [⟨.id (bytes "x"), bytes "x", 1, 1, 1⟩, ⟨.sym 61, bytes "=", 1, 3, 3⟩, ⟨.str (bytes "a\nb"), bytes "\"a\nb\"", 2, 5, 9⟩,
        ⟨.id (bytes "y"), bytes "y", 2, 11, 11⟩])
    | _ => false) = true := by decide +kernel
  revert this
  cases Verif.Lex.lex (bytes "x = \"a\nb\" y") with
  | ok r =>
    intro this
    have := of_decide_eq_true this
    refine ⟨r.1, r.2, ⟨.str (bytes "a\nb"), bytes "\"a\nb\"", 2, 5, 9⟩, ⟨.id (bytes "y"), bytes "y", 2, 11, 11⟩, rfl, ?_, ?_, rfl, rfl, rfl, rfl, ?_, rfl⟩
    · rw [this]; simp
    · rw [this]; simp
    · decide +kernel
  | ub w => intro h; cases h
  | abort w => intro h; cases h
  | diverge => intro h; cases h

end Verif.Props
