import Verif.Lemmas.ScanRun

/-! # The scanner on a text -/

namespace Verif.Lex
open Verif.Str (CStr)
open Verif.Spec.Text

/-! ## Places -/

theorem move_append (p : Pos) (a b : CStr) : p.move (a ++ b) = (p.move a).move b := by
  induction a generalizing p with
  | nil => rfl
  | cons c a ih => simp only [List.cons_append, Pos.move, ih]

theorem move_plain (p : Pos) {a : CStr} (h : 10 ∉ a) : p.move a = ⟨p.row, p.col + a.length⟩ := by
  induction a generalizing p with
  | nil => rfl
  | cons c a ih =>
    have hc : c ≠ 10 := fun e => h (by simp [e])
    simp only [Pos.move, if_neg hc]
    rw [ih _ fun hm => h (by simp [hm])]
    simp only [List.length_cons, Pos.mk.injEq, true_and]
    omega

theorem newlines_plain {a : CStr} (h : 10 ∉ a) : newlines a = 0 := List.count_eq_zero.mpr h

/-! ## The state of the scanner and the place in the text -/

/-- The variables `keywords`, `in_enum` and `in_values` in each mode. -/
def Flags : Mode → St → Prop
  | .outside, s => s.keywords = true ∧ s.inEnum = false ∧ s.inValues = false
  | .afterEnum, s => s.keywords = true ∧ s.inEnum = true ∧ s.inValues = false
  | .afterValues, s => s.keywords = true ∧ s.inEnum = true ∧ s.inValues = true
  | .inside, s => s.keywords = false ∧ s.inEnum = false ∧ s.inValues = false

theorem Flags.same {m : Mode} {s s' : St} (h : Flags m s) (h1 : s'.keywords = s.keywords) (h2 : s'.inEnum = s.inEnum)
    (h3 : s'.inValues = s.inValues) : Flags m s' := by
  cases m <;> simp only [Flags, h1, h2, h3] at h ⊢ <;> exact h

/-- The scanner is at a place with the line saved. -/
structure Now (base : Start) (m : Mode) (p : Pos) (rest : CStr) (s : St) : Prop where
  input : s.input = rest
  flags : Flags m s
  start : s.start = base
  line : s.line = p.row
  col : s.col = p.col

/-- The scanner is at a place, the line saved or not. -/
inductive At (base : Start) (m : Mode) (p : Pos) (rest : CStr) (s : St) : Prop where
  | now : Now base m p rest s → At base m p rest s
  | save : s.input = rest → Flags m s → s.start = .saveline → (∃ tl, s.stack = base :: tl) → s.line = p.row → p.col = 1 →
      At base m p rest s

theorem At.input_eq {base : Start} {m : Mode} {p : Pos} {rest : CStr} {s : St} (h : At base m p rest s) : s.input = rest := by
  cases h with
  | now h => exact h.input
  | save h => exact h

theorem settle {base : Start} {m : Mode} {p : Pos} {c : UInt8} {rest : CStr} {s : St} (h : At base m p (c :: rest) s) (hc : c ≠ 10) :
    ∃ s', Run s [] s' ∧ Now base m p (c :: rest) s' := by
  cases h with
  | now h => exact ⟨s, .stop s, h⟩
  | save h1 h2 h3 h4 h5 h6 =>
    obtain ⟨tl, h4⟩ := h4
    have hs := step_pick (s := s) (n := ((c :: rest).takeWhile (· != 10)).length) (a := .save) (by rw [h3, h1]; exact pick_save hc)
    have hta : ∀ n, token_action (after s n) n = after s n := by intro n; unfold token_action; simp [after, h3]
    rw [hta] at hs
    unfold act at hs
    simp only [after, h4] at hs
    refine ⟨_, Run.one (t := none) (by rw [h1]; simp) hs, ?_⟩
    refine ⟨?_, h2.same rfl rfl rfl, rfl, ?_, h6.symm⟩
    · simp only [List.take_append_drop]; exact h1
    · simp only
      rw [newlines_plain, h5, Nat.add_zero]
      rw [h1]
      intro hm
      have e := (List.takeWhile_append_dropWhile (p := (· != (10 : UInt8))) (l := c :: rest)).symm
      have : List.take ((c :: rest).takeWhile (· != 10)).length (c :: rest) = (c :: rest).takeWhile (· != 10) := by
        conv => lhs; rw [e]
        exact List.take_left' (by rw [← e])
      rw [this] at hm
      have := List.all_eq_true.mp (List.all_takeWhile (p := (· != (10 : UInt8)))) 10 hm
      simp at this

theorem step_now {base : Start} {m : Mode} {p : Pos} {x rest : CStr} {s : St} {a : Act} (hb : base ≠ .saveline)
    (h : Now base m p (x ++ rest) s) (hp : pick (rules base) (x ++ rest) = some (x.length, a)) :
    step s = act { s with input := rest, line := p.row + newlines x, col := p.col + x.length } x a := by
  rw [step_pick (by rw [h.start, h.input]; exact hp)]
  have : token_action (after s x.length) x.length = { s with input := rest, line := p.row + newlines x, col := p.col + x.length } := by
    unfold token_action
    have : (after s x.length).start ≠ .saveline := by show s.start ≠ _; rw [h.start]; exact hb
    split
    · exact absurd (by assumption) this
    · simp [after, h.input, h.line, h.col]
  rw [this, h.input]
  simp

theorem run_newline {base : Start} (hb : base = .initial ∨ base = .comment) {m : Mode} {p : Pos} {rest : CStr} {s : St}
    (h : At base m p (10 :: rest) s) : ∃ s', Run s [] s' ∧ At base m (p.move [10]) rest s' := by
  have hbs : base ≠ .saveline := by rcases hb with rfl | rfl <;> simp
  cases h with
  | now h =>
    have hs := step_now (x := [10]) (a := .newline) hbs h (hb.elim (fun e => e ▸ pick_newline) fun e => e ▸ pick_commentNewline)
    refine ⟨_, Run.one (t := none) (by rw [h.input]; simp) hs, ?_⟩
    refine .save rfl (h.flags.same rfl rfl rfl) rfl ⟨s.stack, ?_⟩ ?_ ?_
    · simp [push, h.start]
    · simp [push, newlines, Pos.move]
    · simp [Pos.move]
  | save h1 h2 h3 h4 h5 h6 =>
    have hs := step_pick (s := s) (n := 1) (a := .saveNewline) (by rw [h3, h1]; exact pick_saveNewline)
    have hta : ∀ n, token_action (after s n) n = after s n := by intro n; unfold token_action; simp [after, h3]
    rw [hta] at hs
    refine ⟨_, Run.one (t := none) (by rw [h1]; simp) hs, ?_⟩
    refine .save ?_ (h2.same rfl rfl rfl) h3 h4 ?_ ?_
    · simp [after, h1]
    · simp [after, h1, newlines, h5, Pos.move]
    · simp [Pos.move]

theorem run_skip {base : Start} {m : Mode} {p : Pos} {x rest : CStr} {s : St} (hb : base ≠ .saveline) (hx : 10 ∉ x) (hx0 : x ≠ [])
    (h : Now base m p (x ++ rest) s) (hp : pick (rules base) (x ++ rest) = some (x.length, .skip)) :
    ∃ s', Run s [] s' ∧ At base m (p.move x) rest s' := by
  have hs := step_now hb h hp
  refine ⟨_, Run.one (t := none) (by rw [h.input]; simp [hx0]) hs, .now ⟨rfl, h.flags.same rfl rfl rfl, h.start, ?_, ?_⟩⟩
  · simp [newlines_plain hx, move_plain p hx]
  · simp [move_plain p hx]

theorem run_body {m : Mode} {b rest : CStr} (hb : ¬ [42, 47] <:+: b) : ∀ {p : Pos} {s : St}, At .comment m p (b ++ 42 :: 47 :: rest) s →
    ∃ s', Run s [] s' ∧ At .comment m (p.move b) (42 :: 47 :: rest) s' := by
  induction b with
  | nil => intro p s h; exact ⟨s, .stop s, h⟩
  | cons c b ih =>
    intro p s h
    have hb' : ¬ [42, 47] <:+: b := fun hm => hb (hm.trans (List.suffix_cons c b).isInfix)
    have key : ∃ s', Run s [] s' ∧ At .comment m (p.move [c]) (b ++ 42 :: 47 :: rest) s' := by
      by_cases hc : c = 10
      · subst hc
        exact run_newline (.inr rfl) h
      · obtain ⟨s1, r1, n1⟩ := settle h hc
        have hpre : ¬ [42, 47] <+: c :: (b ++ 42 :: 47 :: rest) := by
          rintro ⟨t, ht⟩
          simp only [List.cons_append, List.nil_append, List.cons.injEq] at ht
          cases b with
          | nil =>
            simp only [List.nil_append, List.cons.injEq] at ht
            exact absurd ht.2.1 (by decide)
          | cons d b =>
            simp only [List.cons_append, List.cons.injEq] at ht
            obtain ⟨rfl, rfl, _⟩ := ht
            exact hb ⟨[], b, rfl⟩
        obtain ⟨s2, r2, a2⟩ := run_skip (x := [c]) (by simp) (by simpa using fun e => hc e.symm) (by simp) n1 (pick_commentSkip hc hpre)
        exact ⟨s2, r1.trans r2, a2⟩
    obtain ⟨s1, r1, a1⟩ := key
    obtain ⟨s2, r2, a2⟩ := ih hb' a1
    refine ⟨s2, r1.trans r2, ?_⟩
    rw [← move_append] at a2
    exact a2

theorem run_piece {m : Mode} {p : Pos} {x : Piece} (hx : x.Ok) {rest : CStr} {s : St} (h : At .initial m p (x.text ++ rest) s) :
    ∃ s', Run s [] s' ∧ At .initial m (p.move x.text) rest s' := by
  cases x with
  | blank c =>
    have hc : isBlank c = true := by
      rcases hx with rfl | rfl | rfl <;> decide
    have hf := blank_facts c hc
    obtain ⟨s1, r1, n1⟩ := settle h hf.2.2.2.2.2.2.1
    obtain ⟨s2, r2, a2⟩ := run_skip (x := [c]) (by simp) (by simpa using fun e => hf.2.2.2.2.2.2.1 e.symm) (by simp) n1 (pick_blank hc)
    exact ⟨s2, r1.trans r2, a2⟩
  | newline => exact run_newline (.inl rfl) h
  | line b =>
    have e : Piece.text (.line b) ++ rest = (47 :: 47 :: b) ++ (10 :: rest) := by simp [Piece.text]
    rw [e] at h
    obtain ⟨s1, r1, n1⟩ := settle h (by decide)
    obtain ⟨s2, r2, a2⟩ := run_skip (x := 47 :: 47 :: b) (by simp) (by simpa using (show 10 ∉ b from hx)) (by simp) n1
      (pick_line hx (noStart_cons (by decide)))
    obtain ⟨s3, r3, a3⟩ := run_newline (.inl rfl) a2
    refine ⟨s3, r1.trans (r2.trans r3), ?_⟩
    rw [← move_append] at a3
    exact a3
  | block b =>
    have e : Piece.text (.block b) ++ rest = [47, 42] ++ (b ++ 42 :: 47 :: rest) := by simp [Piece.text]
    rw [e] at h
    obtain ⟨s1, r1, n1⟩ := settle h (by decide)
    have hs := step_now (x := [47, 42]) (a := .openComment) (by simp) n1 pick_open
    have r2 := Run.one (t := none) (by rw [n1.input]; simp) hs
    have a2 : At .comment m (p.move [47, 42]) (b ++ 42 :: 47 :: rest)
        (push { s1 with input := b ++ 42 :: 47 :: rest, line := p.row + newlines [47, 42], col := p.col + 2 } .comment) := by
      refine .now ⟨rfl, n1.flags.same rfl rfl rfl, rfl, ?_, ?_⟩
      · simp [push, newlines, Pos.move]
      · simp [push, Pos.move]
    obtain ⟨s3, r3, a3⟩ := run_body hx a2
    obtain ⟨s4, r4, n4⟩ := settle a3 (by decide)
    have hs := step_now (x := [42, 47]) (a := .closeComment) (by simp) n4 pick_close
    have r5 := Run.one (t := none) (by rw [n4.input]; simp) hs
    refine ⟨_, r1.trans (r2.trans (r3.trans (r4.trans r5))), .now ⟨rfl, n4.flags.same rfl rfl rfl, rfl, ?_, ?_⟩⟩
    · simp only [push, Piece.text, move_append]
      simp [newlines, Pos.move]
    · simp only [push, Piece.text, move_append]
      simp [Pos.move]

theorem run_gap {m : Mode} {g : List Piece} (hg : ∀ x ∈ g, x.Ok) {rest : CStr} : ∀ {p : Pos} {s : St},
    At .initial m p (gapText g ++ rest) s → ∃ s', Run s [] s' ∧ At .initial m (p.move (gapText g)) rest s' := by
  induction g with
  | nil => intro p s h; exact ⟨s, .stop s, h⟩
  | cons x g ih =>
    intro p s h
    have e : gapText (x :: g) = x.text ++ gapText g := by simp [gapText]
    rw [e, List.append_assoc] at h
    obtain ⟨s1, r1, a1⟩ := run_piece (hg x (by simp)) h
    obtain ⟨s2, r2, a2⟩ := ih (fun y hy => hg y (by simp [hy])) a1
    refine ⟨s2, r1.trans r2, ?_⟩
    rw [e, move_append]
    exact a2

/-! ## Lexemes -/

/-- What may stand directly behind a lexeme. -/
def Follow : Lexeme → CStr → Prop
  | .word _, rest => NoStart isWord rest
  | .sym c, rest => SymEnd c rest
  | .arrow, _ => True
  | .str _, _ => True
  | .nat _, rest => NumEnd rest
  | .neg _, rest => NumEnd rest
  | .dec _ _ _, rest => NoStart isDigit rest

theorem same_keywords : Spec.Text.keywords = keywords := rfl

theorem same_cKeywords : Spec.Text.cKeywords = cKeywords := rfl

theorem word_facts : ∀ c : UInt8, isWord c = true → c ≠ 10 ∧ c ≠ 0 := byte_all (by decide +kernel)

theorem quoted_body {s : CStr} (h : Quoted s) : Body s ∧ 10 ∉ s := by
  induction h with
  | nil => exact ⟨.nil, by simp⟩
  | plain c s h1 h2 h3 _ ih => exact ⟨.plain c s h1 h2 ih.1, by simpa [ih.2] using fun e => h3 e.symm⟩
  | escape c s h1 _ ih => exact ⟨.escape c s h1 ih.1, by simpa [ih.2] using fun e => h1 e.symm⟩

theorem digits_plain {ds : CStr} (h : Digits ds) : 10 ∉ ds := fun hm =>
  absurd rfl (digit_facts 10 (h.2 10 hm)).2.2.2.2.2.2.2.1

theorem text_plain {x : Lexeme} (h : x.Ok) : 10 ∉ x.text := by
  cases x with
  | word s =>
    obtain ⟨c, cs, rfl, hc, hcs⟩ := h
    intro hm
    rcases List.mem_cons.mp hm with e | hm
    · exact absurd e.symm (letter_facts hc).2.2.2.2.2.2.1
    · exact absurd rfl (word_facts 10 (hcs 10 hm)).1
  | sym c => simpa [Lexeme.text] using fun e => (sym_facts c h).2.2.2.2.2.1 e.symm
  | arrow => decide
  | str s => simpa [Lexeme.text] using (quoted_body h.1).2
  | nat ds => exact digits_plain h.1
  | neg ds => simpa [Lexeme.text] using digits_plain h.1
  | dec m ds es =>
    have h1 := digits_plain h.1
    have h2 := digits_plain h.2
    cases m <;> simp [Lexeme.text, h1, h2]

theorem text_cons {x : Lexeme} (h : x.Ok) : ∃ c cs, x.text = c :: cs := by
  cases x with
  | word s => obtain ⟨c, cs, rfl, _⟩ := h; exact ⟨c, cs, rfl⟩
  | sym c => exact ⟨c, [], rfl⟩
  | arrow => exact ⟨45, [62], rfl⟩
  | str s => exact ⟨34, s ++ [34], rfl⟩
  | nat ds => obtain ⟨c, cs, e, _⟩ := digits_start h.1; exact ⟨c, cs, e⟩
  | neg ds => exact ⟨45, ds, rfl⟩
  | dec m ds es =>
    obtain ⟨c, cs, e, _⟩ := digits_start h.1
    cases m with
    | true => exact ⟨45, ds ++ 46 :: es, by simp [Lexeme.text]⟩
    | false => exact ⟨c, cs ++ 46 :: es, by simp [Lexeme.text, e]⟩

theorem cut_eq {s : CStr} (h : 0 ∉ s) : cut s = s := by
  unfold cut
  induction s with
  | nil => rfl
  | cons c s ih =>
    have hc : c ≠ 0 := fun e => h (by simp [e])
    rw [List.takeWhile_cons, if_pos (by simpa using hc), ih fun hm => h (by simp [hm])]

theorem decimal_value (ds : CStr) : decimal ds = value ds := by
  have : ∀ v, ds.foldl (fun v c => 10 * v + (c.toNat - 48)) v = v * 10 ^ ds.length + value ds := by
    induction ds with
    | nil => intro v; simp [value]
    | cons c cs ih =>
      intro v
      rw [List.foldl_cons, ih]
      simp only [value, List.length_cons, Nat.pow_succ, Nat.add_mul]
      rw [Nat.mul_comm 10 v, Nat.mul_assoc, Nat.mul_comm 10 (10 ^ cs.length)]
      omega
  have := this 0
  simpa [decimal] using this

/-- The state with the text behind the lexeme and the token of the lexeme. -/
theorem word_zero {c : UInt8} {cs : CStr} (hc : isLetter c = true) (hcs : ∀ d ∈ cs, isWord d = true) : 0 ∉ c :: cs := by
  intro hm
  rcases List.mem_cons.mp hm with e | hm
  · exact absurd e.symm (word_facts c (letter_facts hc).2.2.2.2.2.2.2).2
  · exact absurd rfl (word_facts 0 (hcs 0 hm)).2

/-- Reading a lexeme. -/
theorem run_lexeme {m : Mode} {p : Pos} {x : Lexeme} (hx : x.Ok) {rest : CStr} (hf : Follow x rest)
    (hm : m = .inside → x ≠ .word (bytes "enum") ∧ x ≠ .arrow) {s : St} (h : Now .initial m p (x.text ++ rest) s) :
    (∀ t, meaning m x = some t → ∃ s', step s = .ok (s', some ⟨t, x.text, p.row, p.col, p.col + x.text.length - 1⟩) ∧
      Now .initial (m.next x) (p.move x.text) rest s') ∧
    (meaning m x = none → ∃ w, step s = .abort w) := by
  have hpl := text_plain hx
  have hnl := newlines_plain hpl
  have hmv := move_plain p hpl
  -- a step with a given rule
  have go : ∀ a, pick (rules .initial) (x.text ++ rest) = some (x.text.length, a) →
      step s = act { s with input := rest, line := p.row, col := p.col + x.text.length } x.text a := by
    intro a hp
    rw [step_now (by simp) h hp, hnl, Nat.add_zero]
  have done : ∀ s', s'.input = rest → Flags (m.next x) s' → s'.start = s.start → s'.line = p.row → s'.col = p.col + x.text.length →
      Now .initial (m.next x) (p.move x.text) rest s' := by
    intro s' h1 h2 h3 h4 h5
    exact ⟨h1, h2, h3.trans h.start, by rw [h4, hmv], by rw [h5, hmv]⟩
  have htok : ∀ (s0 : St) t, s0.line = p.row → s0.col = p.col + x.text.length → token s0 x.text t =
      some ⟨t, x.text, p.row, p.col, p.col + x.text.length - 1⟩ := by
    intro s0 t e1 e2
    simp [token, e1, e2]
  -- a lexeme whose action leaves the flags alone
  have simple : ∀ a t, pick (rules .initial) (x.text ++ rest) = some (x.text.length, a) → m.next x = m → meaning m x = some t →
      (∀ s0 : St, act s0 x.text a = .ok (s0, token s0 x.text t)) →
      (∀ t, meaning m x = some t → ∃ s', step s = .ok (s', some ⟨t, x.text, p.row, p.col, p.col + x.text.length - 1⟩) ∧
        Now .initial (m.next x) (p.move x.text) rest s') ∧ (meaning m x = none → ∃ w, step s = .abort w) := by
    intro a t hp hnext hme hact
    refine ⟨fun t' ht' => ?_, fun hn => by rw [hme] at hn; cases hn⟩
    rw [hme] at ht'; injection ht' with ht'; subst ht'
    refine ⟨{ s with input := rest, line := p.row, col := p.col + x.text.length }, ?_, done _ rfl ?_ rfl rfl rfl⟩
    · rw [go a hp, hact, htok _ _ rfl rfl]
    · rw [hnext]; exact h.flags.same rfl rfl rfl
  cases x with
  | arrow =>
    have hkw : m ≠ .inside := fun e => (hm e).2 rfl
    have hk : s.keywords = true := by
      have := h.flags
      cases m <;> first | exact absurd rfl hkw | exact this.1
    have hnext : m.next .arrow = m := by cases m <;> rfl
    refine ⟨fun t' ht' => ?_, fun hn => by cases hn⟩
    injection ht' with ht'; subst ht'
    have hs := go (.kw [45, 62]) pick_arrow
    have ha : act { s with input := rest, line := p.row, col := p.col + (Lexeme.text .arrow).length } (Lexeme.text .arrow) (.kw [45, 62]) =
        .ok ({ s with input := rest, line := p.row, col := p.col + (Lexeme.text .arrow).length },
          token { s with input := rest, line := p.row, col := p.col + (Lexeme.text .arrow).length } (Lexeme.text .arrow) (.kw [45, 62])) := by
      unfold act
      have e1 : decide (([45, 62] : CStr) = bytes "enum") = false := by decide +kernel
      have e2 : decide (([45, 62] : CStr) = bytes "values") = false := by decide +kernel
      simp only [e1, e2, lexKeyword, hk]
    refine ⟨{ s with input := rest, line := p.row, col := p.col + (Lexeme.text .arrow).length }, ?_, done _ rfl ?_ rfl rfl rfl⟩
    · rw [hs, ha, htok _ _ rfl rfl]
    · rw [hnext]; exact h.flags.same rfl rfl rfl
  | str b =>
    have hb := (quoted_body hx.1).1
    refine simple .str (.str b) ?_ (by cases m <;> rfl) rfl ?_
    · have := pick_str (rest := rest) hb
      rw [show Lexeme.text (.str b) ++ rest = 34 :: b ++ [34] ++ rest by rfl, this]
      simp [Lexeme.text]
    · intro s0
      have : cut (((Lexeme.text (.str b)).drop 1).take ((Lexeme.text (.str b)).length - 2)) = b := by
        have : ((Lexeme.text (.str b)).drop 1).take ((Lexeme.text (.str b)).length - 2) = b := by
          simp [Lexeme.text]
        rw [this, cut_eq hx.2]
      simp only [act, this]
  | nat ds =>
    refine simple .uint (.uint (value ds)) (pick_nat hx.1 hf) (by cases m <;> rfl) rfl fun s0 => ?_
    have : strtoull (Lexeme.text (.nat ds)) = value ds := by
      have := hx.2
      show min (decimal ds) _ = _
      rw [decimal_value]
      omega
    simp only [act, this]
  | neg ds =>
    refine simple .int (.int (-(value ds : Int))) ?_ (by cases m <;> rfl) rfl fun s0 => ?_
    · rw [show Lexeme.text (.neg ds) ++ rest = 45 :: ds ++ rest by rfl, pick_neg hx.1 hf]
      simp [Lexeme.text]
    · have : strtoll (Lexeme.text (.neg ds)) = -(value ds : Int) := by
        have := hx.2
        show max (-(decimal ds : Int)) _ = _
        rw [decimal_value]
        omega
      simp only [act, this]
  | dec b ds es =>
    exact simple .float (.float (Lexeme.text (.dec b ds es))) (pick_dec hx.1 hx.2 hf) (by cases m <;> rfl) rfl fun s0 => rfl
  | sym c =>
    have hs := go (.sym c) (pick_sym hx hf)
    refine ⟨fun t' ht' => ?_, fun hn => by cases hn⟩
    injection ht' with ht'; subst ht'
    have hfl := h.flags
    rw [hs]
    unfold act
    simp only
    by_cases h1 : c = 123
    · subst h1
      by_cases hv : s.inValues = true
      · have hmv' : m = .afterValues := by
          cases m <;> simp only [Flags, hv] at hfl <;> first | rfl | (exact absurd hfl.2.2 (by simp))
        subst hmv'
        simp only [decide_true, hv]
        rw [htok _ _ rfl rfl]
        exact ⟨_, rfl, done _ rfl (by simp [Mode.next, Flags]) rfl rfl rfl⟩
      · have hv' : s.inValues = false := by simpa using hv
        have hnx : m.next (.sym 123) = m := by
          cases m <;> first | rfl | (simp only [Flags, hv'] at hfl; exact absurd hfl.2.2 (by simp))
        simp only [decide_true, hv']
        rw [htok _ _ rfl rfl]
        exact ⟨_, rfl, done _ rfl (by rw [hnx]; exact hfl.same rfl rfl (by simp [hv'])) rfl rfl rfl⟩
    · have d1 : decide (c = 123) = false := by simpa using h1
      by_cases h2 : c = 125
      · subst h2
        simp only [d1, decide_true]
        rw [htok _ _ rfl rfl]
        refine ⟨_, rfl, done _ rfl ?_ rfl rfl rfl⟩
        cases m <;> simp only [Flags, Mode.next] at hfl ⊢ <;> simp [hfl.2.1, hfl.2.2]
      · have d2 : decide (c = 125) = false := by simpa using h2
        simp only [d1, d2]
        rw [htok _ _ rfl rfl]
        have hnx : m.next (.sym c) = m := by cases m <;> simp [Mode.next, h1, h2]
        exact ⟨_, rfl, done _ rfl (by rw [hnx]; exact hfl.same rfl rfl rfl) rfl rfl rfl⟩
  | word w =>
    obtain ⟨c, cs, rfl, hc, hcs⟩ := hx
    have hz := word_zero hc hcs
    have hnull : bytes "NULL" = [78, 85, 76, 76] := by decide +kernel
    have hfl := h.flags
    by_cases hn : c :: cs = bytes "NULL"
    · have hw : m.next (.word (c :: cs)) = m := by
        have e1 : c :: cs ≠ bytes "enum" := by rw [hn]; decide +kernel
        have e2 : c :: cs ≠ bytes "values" := by rw [hn]; decide +kernel
        cases m <;> simp [Mode.next, e1, e2]
      refine simple .null .null ?_ hw (by simp [meaning, hn]) fun s0 => rfl
      show pick _ (c :: cs ++ rest) = some ((c :: cs).length, _)
      rw [hn, hnull]
      exact pick_null hf
    · by_cases hk : c :: cs ∈ keywords
      · have hs := go (.kw (c :: cs)) (pick_keyword hc hf hk)
        have hte : Lexeme.text (.word (c :: cs)) = c :: cs := rfl
        have hme : meaning m (.word (c :: cs)) = some (lexKeyword s (c :: cs)) := by
          unfold meaning lexKeyword
          simp only
          rw [if_neg hn]
          cases m <;> simp only [Flags] at hfl <;> simp [hfl.1, same_keywords, hk, cut_eq hz]
        refine ⟨fun t' ht' => ?_, fun hn => by rw [hme] at hn; cases hn⟩
        rw [hme] at ht'; injection ht' with ht'; subst ht'
        rw [hs]
        unfold act
        simp only
        have hlk : ∀ s0 : St, s0.keywords = s.keywords → lexKeyword s0 (c :: cs) = lexKeyword s (c :: cs) := by
          intro s0 e; unfold lexKeyword; rw [e]
        by_cases e1 : c :: cs = bytes "enum"
        · have d1 : decide (c :: cs = bytes "enum") = true := by simpa using e1
          simp only [d1]
          rw [hlk _ rfl, htok _ _ rfl rfl]
          refine ⟨_, rfl, done _ rfl ?_ rfl rfl rfl⟩
          have hev : bytes "enum" ≠ bytes "values" := by decide +kernel
          cases m with
          | inside => exact absurd (by rw [e1]) (hm rfl).1
          | outside => simp [Mode.next, e1, Flags, hfl.1, hfl.2.2]
          | afterEnum => simp only [Mode.next, e1, hev, if_false]; exact ⟨hfl.1, rfl, hfl.2.2⟩
          | afterValues => exact ⟨hfl.1, rfl, hfl.2.2⟩
        · have d1 : decide (c :: cs = bytes "enum") = false := by simpa using e1
          by_cases e2 : c :: cs = bytes "values"
          · have d2 : decide (c :: cs = bytes "values") = true := by simpa using e2
            simp only [d1, d2]
            cases hin : s.inEnum with
            | true =>
              simp only
              rw [hlk _ rfl, htok _ _ rfl rfl]
              refine ⟨_, rfl, done _ rfl ?_ rfl rfl rfl⟩
              cases m with
              | inside => simp only [Flags, hin] at hfl; exact absurd hfl.2.1 (by simp)
              | outside => simp only [Flags, hin] at hfl; exact absurd hfl.2.1 (by simp)
              | afterEnum => simp only [Mode.next, e2, if_true]; exact ⟨hfl.1, rfl, rfl⟩
              | afterValues => exact ⟨hfl.1, rfl, rfl⟩
            | false =>
              simp only
              rw [hlk _ rfl, htok _ _ rfl rfl]
              refine ⟨_, rfl, done _ rfl ?_ rfl rfl rfl⟩
              cases m with
              | inside => exact hfl.same rfl hin.symm rfl
              | outside =>
                simp only [Mode.next, e1, if_false]
                exact hfl.same rfl hin.symm rfl
              | afterEnum => simp only [Flags, hin] at hfl; exact absurd hfl.2.1 (by simp)
              | afterValues => simp only [Flags, hin] at hfl; exact absurd hfl.2.1 (by simp)
          · have d2 : decide (c :: cs = bytes "values") = false := by simpa using e2
            simp only [d1, d2]
            rw [hlk _ rfl, htok _ _ rfl rfl]
            refine ⟨_, rfl, done _ rfl ?_ rfl rfl rfl⟩
            have hnx : m.next (.word (c :: cs)) = m := by cases m <;> simp [Mode.next, e1, e2]
            rw [hnx]
            exact hfl.same rfl rfl rfl
      · have hs := go .ident (pick_ident hc hcs hf hk (fun e => hn (by rw [e, hnull])))
        have e1 : c :: cs ≠ bytes "enum" := fun e => hk (by rw [e]; decide +kernel)
        have e2 : c :: cs ≠ bytes "values" := fun e => hk (by rw [e]; decide +kernel)
        have hnx : m.next (.word (c :: cs)) = m := by cases m <;> simp [Mode.next, e1, e2]
        rw [hs]
        unfold act
        simp only
        have hck : isCKeyword { s with input := rest, line := p.row, col := p.col + (Lexeme.text (.word (c :: cs))).length }
            (Lexeme.text (.word (c :: cs))) = (s.keywords && cKeywords.contains (c :: cs)) := rfl
        rw [hck]
        by_cases hmi : m = .inside
        · subst hmi
          have hkw : s.keywords = false := hfl.1
          have hme : meaning .inside (.word (c :: cs)) = some (.id (c :: cs)) := by simp [meaning, hn]
          refine ⟨fun t' ht' => ?_, fun hn => by rw [hme] at hn; cases hn⟩
          rw [hme] at ht'; injection ht' with ht'; subst ht'
          have hb : (s.keywords && cKeywords.contains (c :: cs)) = false := by simp [hkw]
          simp only [hb]
          have : cut (Lexeme.text (.word (c :: cs))) = c :: cs := cut_eq hz
          rw [this, htok _ _ rfl rfl]
          exact ⟨_, rfl, done _ rfl (by rw [hnx]; exact hfl.same rfl rfl rfl) rfl rfl rfl⟩
        · have hkw : s.keywords = true := by
            cases m <;> first | exact absurd rfl hmi | exact hfl.1
          by_cases hcc : c :: cs ∈ cKeywords
          · have hme : meaning m (.word (c :: cs)) = none := by simp [meaning, hn, hmi, same_keywords, same_cKeywords, hk, hcc]
            refine ⟨fun t' ht' => (by rw [hme] at ht'; cases ht'), fun _ => ?_⟩
            have : (s.keywords && cKeywords.contains (c :: cs)) = true := by simp [hkw, hcc]
            simp only [this]
            exact ⟨_, rfl⟩
          · have hme : meaning m (.word (c :: cs)) = some (.id (c :: cs)) := by simp [meaning, hn, hmi, same_keywords, same_cKeywords, hk, hcc]
            refine ⟨fun t' ht' => ?_, fun hn => by rw [hme] at hn; cases hn⟩
            rw [hme] at ht'; injection ht' with ht'; subst ht'
            have hb : (s.keywords && cKeywords.contains (c :: cs)) = false := by simp [hcc]
            simp only [hb]
            have : cut (Lexeme.text (.word (c :: cs))) = c :: cs := cut_eq hz
            rw [this, htok _ _ rfl rfl]
            exact ⟨_, rfl, done _ rfl (by rw [hnx]; exact hfl.same rfl rfl rfl) rfl rfl rfl⟩

/-! ## Neighbours -/

theorem follow_of {x : Lexeme} {c : UInt8} {rest : CStr} (h1 : isWord c = false) (h2 : c ≠ 46) (h3 : c ≠ 62) :
    Follow x (c :: rest) := by
  have hd : isDigit c = false := by
    cases e : isDigit c with
    | false => rfl
    | true => rw [(digit_facts c e).2.2.2.2.2.2.2.2.2.2] at h1; cases h1
  cases x with
  | word s => exact noStart_cons h1
  | sym d => exact fun _ => noStart_cons (by simp [hd, h3])
  | arrow => trivial
  | str s => trivial
  | nat ds => exact noStart_cons (by simp [hd, h2])
  | neg ds => exact noStart_cons (by simp [hd, h2])
  | dec b ds es => exact noStart_cons hd

theorem follow_nil (x : Lexeme) : Follow x [] := by
  cases x <;> first | trivial | (intro _ c cs e; cases e; done) | (intro c cs e; cases e; done)

theorem piece_cons {x : Piece} (h : x.Ok) : ∃ c cs, x.text = c :: cs ∧ isWord c = false ∧ c ≠ 46 ∧ c ≠ 62 := by
  cases x with
  | blank c => rcases h with rfl | rfl | rfl <;> exact ⟨_, _, rfl, by decide⟩
  | newline => exact ⟨_, _, rfl, by decide⟩
  | line b => exact ⟨47, 47 :: b ++ [10], rfl, by decide⟩
  | block b => exact ⟨47, 42 :: b ++ [42, 47], rfl, by decide⟩

theorem follow_gap {x : Lexeme} {g : List Piece} (hg : ∀ y ∈ g, y.Ok) (h0 : g ≠ []) (rest : CStr) : Follow x (gapText g ++ rest) := by
  cases g with
  | nil => exact absurd rfl h0
  | cons y g =>
    obtain ⟨c, cs, e, h1, h2, h3⟩ := piece_cons (hg y (by simp))
    have : gapText (y :: g) ++ rest = c :: (cs ++ gapText g ++ rest) := by simp [gapText, e]
    rw [this]
    exact follow_of h1 h2 h3

theorem sym_word : ∀ c : UInt8, c ∈ symbols → isWord c = false ∧ c ≠ 62 := byte_all (by decide +kernel)

theorem letter_word : ∀ c : UInt8, isLetter c = true → isDigit c = false ∧ c ≠ 46 ∧ c ≠ 62 := byte_all (by decide +kernel)

theorem follow_next {x y : Lexeme} (hy : y.Ok) (h : ¬ Touch x y) (rest : CStr) : Follow x (y.text ++ rest) := by
  have f45 : ∀ r, Follow x (45 :: r) := fun r => follow_of (by decide) (by decide) (by decide)
  have f34 : ∀ r, Follow x (34 :: r) := fun r => follow_of (by decide) (by decide) (by decide)
  cases y with
  | word w =>
    obtain ⟨c, cs, rfl, hc, _⟩ := hy
    have hl := letter_word c hc
    show Follow x (c :: (cs ++ rest))
    cases x with
    | word s => exact absurd trivial h
    | sym d => exact fun _ => noStart_cons (by simp [hl.1, hl.2.2])
    | arrow => trivial
    | str s => trivial
    | nat ds => exact noStart_cons (by simp [hl.1, hl.2.1])
    | neg ds => exact noStart_cons (by simp [hl.1, hl.2.1])
    | dec b ds es => exact noStart_cons hl.1
  | sym c =>
    have hs := sym_facts c hy
    have hw := sym_word c hy
    show Follow x (c :: rest)
    cases x with
    | word s => exact noStart_cons hw.1
    | sym d => exact fun _ => noStart_cons (by simp [hs.2.2.1, hw.2])
    | arrow => trivial
    | str s => trivial
    | nat ds => exact noStart_cons (by simp only [Touch] at h; simp [hs.2.2.1, h])
    | neg ds => exact noStart_cons (by simp only [Touch] at h; simp [hs.2.2.1, h])
    | dec b ds es => exact noStart_cons hs.2.2.1
  | arrow => exact f45 _
  | str s => exact f34 _
  | neg ds => exact f45 _
  | nat ds =>
    cases x with
    | word s => exact absurd trivial h
    | sym d => exact fun e => absurd e h
    | arrow => trivial
    | str s => trivial
    | nat ds => exact absurd trivial h
    | neg ds => exact absurd trivial h
    | dec b ds es => exact absurd trivial h
  | dec b ds es =>
    cases b with
    | true =>
      have := f45 (ds ++ 46 :: es ++ rest)
      simpa [Lexeme.text] using this
    | false =>
      cases x with
      | word s => exact absurd trivial h
      | sym d => exact fun e => absurd e h
      | arrow => trivial
      | str s => trivial
      | nat ds => exact absurd trivial h
      | neg ds => exact absurd trivial h
      | dec b ds es => exact absurd trivial h

/-! ## The text -/

theorem run_text {items : List (List Piece × Lexeme)} {tail : List Piece} : ∀ {m : Mode} {p : Pos} {s : St},
    (∀ x ∈ items, x.2.Ok) → (∀ x ∈ items, ∀ q ∈ x.1, q.Ok) → (∀ q ∈ tail, q.Ok) → Apart items → Plain m items →
    At .initial m p ((items.flatMap fun x => gapText x.1 ++ x.2.text) ++ gapText tail) s →
    (∀ ts, placeFrom m p items = some ts → ∃ s', Run s ts s' ∧ s'.input = []) ∧
    (placeFrom m p items = none → ∃ ts s' w, Run s ts s' ∧ s'.input ≠ [] ∧ step s' = .abort w) := by
  induction items with
  | nil =>
    intro m p s _ _ ht _ _ h
    refine ⟨fun ts e => ?_, fun e => by cases e⟩
    injection e with e; subst e
    simp only [List.flatMap_nil, List.nil_append] at h
    rw [← List.append_nil (gapText tail)] at h
    obtain ⟨s', r, a⟩ := run_gap ht h
    exact ⟨s', r, a.input_eq⟩
  | cons item items ih =>
    intro m p s hok hgap ht hap hpl h
    obtain ⟨g, x⟩ := item
    simp only [List.flatMap_cons, List.append_assoc] at h
    obtain ⟨s1, r1, a1⟩ := run_gap (hgap (g, x) (by simp)) h
    have hx := hok (g, x) (by simp)
    obtain ⟨c, cs, ec⟩ := text_cons hx
    have hc10 : c ≠ 10 := by
      have := text_plain hx
      simp only at ec
      rw [ec] at this
      exact fun e => this (by simp [e])
    have a1' := a1
    rw [ec] at a1'
    obtain ⟨s2, r2, n2⟩ := settle a1' hc10
    replace n2 : Now .initial m (p.move (gapText g)) (x.text ++ ((items.flatMap fun x => gapText x.1 ++ x.2.text) ++ gapText tail)) s2 := by
      rw [show x.text = c :: cs from ec]; exact n2
    have hfol : Follow x ((items.flatMap fun x => gapText x.1 ++ x.2.text) ++ gapText tail) := by
      cases items with
      | nil =>
        simp only [List.flatMap_nil, List.nil_append]
        cases htl : tail with
        | nil => exact follow_nil x
        | cons q qs =>
          have := follow_gap (x := x) (g := tail) ht (by rw [htl]; simp) []
          rw [List.append_nil, htl] at this
          exact this
      | cons it2 items =>
        obtain ⟨g2, y⟩ := it2
        simp only [List.flatMap_cons, List.append_assoc]
        by_cases hg2 : g2 = []
        · subst hg2
          have hnt : ¬ Touch x y := fun ht => (hap.1 ht) rfl
          simp only [gapText, List.flatMap_nil, List.nil_append]
          exact follow_next (hok ([], y) (by simp)) hnt _
        · exact follow_gap (hgap (g2, y) (by simp)) hg2 _
    obtain ⟨k1, k2⟩ := run_lexeme hx hfol hpl.1 n2
    have hap' : Apart items := by
      cases items with
      | nil => trivial
      | cons it2 items => exact hap.2
    have hne : s2.input ≠ [] := by rw [n2.input, ec]; simp
    have hpf : placeFrom m p ((g, x) :: items) = (meaning m x).bind fun t =>
        (placeFrom (m.next x) ((p.move (gapText g)).move x.text) items).bind fun ts =>
          some (⟨t, x.text, (p.move (gapText g)).row, (p.move (gapText g)).col, (p.move (gapText g)).col + x.text.length - 1⟩ :: ts) := rfl
    rw [hpf]
    cases hme : meaning m x with
    | none =>
      refine ⟨fun ts e => (by cases e), fun _ => ?_⟩
      obtain ⟨w, hw⟩ := k2 hme
      exact ⟨_, s2, w, r1.trans r2, hne, hw⟩
    | some t =>
      obtain ⟨s3, hs3, n3⟩ := k1 t hme
      have r3 := Run.one hne hs3
      have r13 := r1.trans (r2.trans r3)
      simp only [List.nil_append, Option.toList] at r13
      have := ih (fun y hy => hok y (by simp [hy])) (fun y hy => hgap y (by simp [hy])) ht hap' hpl.2 (.now n3)
      simp only [Option.bind_some]
      cases hre : placeFrom (m.next x) ((p.move (gapText g)).move x.text) items with
      | none =>
        refine ⟨fun ts e => (by cases e), fun _ => ?_⟩
        obtain ⟨ts, s4, w, r4, h4, h5⟩ := this.2 hre
        exact ⟨_, s4, w, r13.trans r4, h4, h5⟩
      | some ts =>
        refine ⟨fun ts' e => ?_, fun e => by cases e⟩
        simp only [Option.bind_some, Option.some.injEq] at e
        subst e
        obtain ⟨s4, r4, h4⟩ := this.1 ts hre
        exact ⟨s4, r13.trans r4, h4⟩

theorem lex_text {t : Text} (hok : t.Ok) (hpl : Plain .outside t.items) :
    (∀ ts, place t = some ts → ∃ lines, lex (bytesOf t) = .ok (ts, lines)) ∧
    (place t = none → ∃ w, lex (bytesOf t) = .abort w) := by
  have hat : At .initial .outside ⟨1, 1⟩ (bytesOf t) (init (bytesOf t)) :=
    .save rfl ⟨rfl, rfl, rfl⟩ rfl ⟨[], rfl⟩ rfl rfl
  obtain ⟨h1, h2⟩ := run_text hok.lexemes hok.gaps hok.tail hok.apart hpl hat
  refine ⟨fun ts e => ?_, fun e => ?_⟩
  · obtain ⟨s', r, hn⟩ := h1 ts e
    obtain ⟨_, hf⟩ := r.full (inv_init _)
    refine ⟨s'.lines, ?_⟩
    rw [lex_full, hf, full_nil hn]
    simp [ahead, Res.bind_ok]
  · obtain ⟨ts, s', w, r, hn, hs⟩ := h2 e
    obtain ⟨_, hf⟩ := r.full (inv_init _)
    refine ⟨w, ?_⟩
    rw [lex_full, hf, full_abort hn hs]
    rfl

end Verif.Lex
