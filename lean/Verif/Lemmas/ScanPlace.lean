import Verif.Lemmas.ScanText

/-! # Where the tokens of a text stand -/

namespace Verif.Lex
open Verif.Str (CStr)
open Verif.Spec.Text

/-- The rest of the line. -/
def restLine (s : CStr) : CStr := s.takeWhile (· != 10)

theorem linesOf_cons (c : UInt8) (s : CStr) : ∃ l ls, linesOf s = l :: ls ∧
    linesOf (c :: s) = if c = 10 then [] :: l :: ls else (c :: l) :: ls := by
  cases e : linesOf s with
  | nil =>
    cases s with
    | nil => cases e
    | cons d s =>
      unfold linesOf at e
      split at e
      · cases e
      · split at e <;> cases e
  | cons l ls => exact ⟨l, ls, rfl, by rw [linesOf, e]⟩

theorem linesOf_head (s : CStr) : (linesOf s)[0]? = some (restLine s) := by
  induction s with
  | nil => rfl
  | cons c s ih =>
    obtain ⟨l, ls, e1, e2⟩ := linesOf_cons c s
    rw [e1] at ih
    simp only [List.getElem?_cons_zero, Option.some.injEq] at ih
    rw [e2]
    by_cases hc : c = 10
    · subst hc; simp [restLine]
    · rw [if_neg hc]
      simp only [List.getElem?_cons_zero, restLine, List.takeWhile_cons]
      rw [if_pos (by simpa using hc), ih]
      rfl

/-- The line and column behind a text, in the lines of the file. -/
theorem lines_move (a : CStr) : ∀ p : Pos, ∃ l j, (p.move a).row = p.row + j ∧
    (p.move a).col = (if j = 0 then p.col + l.length else l.length + 1) ∧ ∀ b, (linesOf (a ++ b))[j]? = some (l ++ restLine b) := by
  induction a with
  | nil => exact fun p => ⟨[], 0, rfl, rfl, linesOf_head⟩
  | cons c a ih =>
    intro p
    by_cases hc : c = 10
    · obtain ⟨l, j, h1, h2, h3⟩ := ih ⟨p.row + 1, 1⟩
      refine ⟨l, j + 1, ?_, ?_, fun b => ?_⟩
      · simp only [Pos.move, if_pos hc]; rw [h1]; simp only; omega
      · simp only [Pos.move, if_pos hc]; rw [h2]; simp only
        split <;> simp <;> omega
      · obtain ⟨l', ls, e1, e2⟩ := linesOf_cons c (a ++ b)
        rw [List.cons_append, e2, if_pos hc, List.getElem?_cons_succ, ← e1]
        exact h3 b
    · obtain ⟨l, j, h1, h2, h3⟩ := ih ⟨p.row, p.col + 1⟩
      cases j with
      | zero =>
        refine ⟨c :: l, 0, ?_, ?_, fun b => ?_⟩
        · simp only [Pos.move, if_neg hc]; rw [h1]
        · simp only [Pos.move, if_neg hc]; rw [h2]; simp only [if_true, List.length_cons]; omega
        · obtain ⟨l', ls, e1, e2⟩ := linesOf_cons c (a ++ b)
          have := h3 b
          rw [e1] at this
          simp only [List.getElem?_cons_zero, Option.some.injEq] at this
          rw [List.cons_append, e2, if_neg hc, List.getElem?_cons_zero, this]
          rfl
      | succ j =>
        refine ⟨l, j + 1, ?_, ?_, fun b => ?_⟩
        · simp only [Pos.move, if_neg hc]; rw [h1]
        · simp only [Pos.move, if_neg hc]; rw [h2]; simp
        · obtain ⟨l', ls, e1, e2⟩ := linesOf_cons c (a ++ b)
          have := h3 b
          rw [e1, List.getElem?_cons_succ] at this
          rw [List.cons_append, e2, if_neg hc, List.getElem?_cons_succ]
          exact this

theorem lines_at (a b : CStr) : ∃ l, ((⟨1, 1⟩ : Pos).move a).col = l.length + 1 ∧ 1 ≤ ((⟨1, 1⟩ : Pos).move a).row ∧
    (linesOf (a ++ b))[((⟨1, 1⟩ : Pos).move a).row - 1]? = some (l ++ restLine b) := by
  obtain ⟨l, j, h1, h2, h3⟩ := lines_move a ⟨1, 1⟩
  refine ⟨l, ?_, ?_, ?_⟩
  · rw [h2]; split <;> simp only <;> omega
  · rw [h1]; simp only; omega
  · rw [h1, ← h3 b]; simp only [Nat.add_sub_cancel_left]

theorem restLine_plain {x : CStr} (h : 10 ∉ x) (b : CStr) : restLine (x ++ b) = x ++ restLine b := by
  induction x with
  | nil => rfl
  | cons c x ih =>
    have hc : c ≠ 10 := fun e => h (by simp [e])
    have := ih fun hm => h (by simp [hm])
    unfold restLine at this ⊢
    rw [List.cons_append, List.takeWhile_cons, if_pos (by simpa using hc), this]
    rfl

/-- The pairs of the table are lines of the file. -/
def Saved (input : CStr) (lines : List (Nat × CStr)) : Prop :=
  ∀ x ∈ lines, (linesOf input)[x.1 - 1]? = some x.2 ∧ 1 ≤ x.1

/-- The scanner knows where it is. -/
structure Here (input : CStr) (s : St) : Prop where
  place : ∃ don, input = don ++ s.input ∧ s.line = ((⟨1, 1⟩ : Pos).move don).row ∧
    (s.start ≠ .saveline → s.col = ((⟨1, 1⟩ : Pos).move don).col) ∧ (s.start = .saveline → ((⟨1, 1⟩ : Pos).move don).col = 1)
  saved : Saved input s.lines
  line : s.start ≠ .saveline → ∃ l, (s.line, l) ∈ s.lines

theorem here_init (input : CStr) : Here input (init input) :=
  ⟨⟨[], rfl, rfl, fun h => absurd rfl h, fun _ => rfl⟩, fun x h => (by cases h), fun h => absurd rfl h⟩

theorem act_token {s s' : St} {x : CStr} {a : Act} {t : Token} (h : act s x a = .ok (s', some t)) :
    t.text = x ∧ t.line = s.line ∧ t.first = s.col - x.length ∧ t.last = s.col - 1 ∧ a ≠ .save ∧ a ≠ .saveNewline ∧ a ≠ .newline ∧
      a ≠ .openComment ∧ a ≠ .closeComment := by
  unfold act at h
  split at h
  all_goals first
    | (cases h; done)
    | (injection h with h; injection h with h1 h2; cases h2; done)
    | (injection h with h; injection h with h1 h2; unfold token at h2; injection h2 with h2; subst h2; simp; done)
    | (split at h <;> first
        | (cases h; done)
        | (injection h with h; injection h with h1 h2; cases h2; done)
        | (injection h with h; injection h with h1 h2; unfold token at h2; injection h2 with h2; subst h2; simp; done))

theorem act_none {s s' : St} {x : CStr} {a : Act} (h : act s x a = .ok (s', none)) :
    a = .save ∨ a = .saveNewline ∨ a = .newline ∨ a = .openComment ∨ a = .closeComment ∨ a = .skip := by
  unfold act at h
  split at h
  all_goals first
    | (simp; done)
    | (cases h; done)
    | (injection h with h; injection h with h1 h2; unfold token at h2; cases h2; done)
    | (split at h <;> first
        | (cases h; done)
        | (injection h with h; injection h with h1 h2; unfold token at h2; cases h2; done))

/-- A match that is passed over has no end of line in it. -/
theorem quiet_plain {b : Start} (hb : b ≠ .saveline) {s : CStr} {n : Nat} {a : Act} (h : pick (rules b) s = some (n, a))
    (hs : s ≠ []) (ha : a = .openComment ∨ a = .closeComment ∨ a = .skip) : 10 ∉ s.take n := by
  obtain ⟨r, hr, hl⟩ := pick_src h
  cases s with
  | nil => exact absurd rfl hs
  | cons c s =>
    obtain ⟨_, hm, _⟩ := longest_some hl
    cases b with
    | saveline => exact absurd rfl hb
    | comment =>
      rcases comment_cases hr hl with ⟨e, _⟩ | ⟨e, _⟩ | ⟨e, _⟩
      · injection e with e1 e2
        rw [e1, lit_iff] at hm
        rw [hm]; decide
      · injection e with e1 e2
        subst e2; simp at ha
      · injection e with e1 e2
        rw [e1] at hm
        obtain ⟨d, e, hd⟩ := dot_iff.mp hm
        rw [e]; simpa using fun e => hd e.symm
    | initial =>
      rcases rule_cases hr hl with ⟨e, _⟩ | ⟨e, _⟩ | ⟨e, _⟩ | ⟨k, _, e, _⟩ | ⟨e, _⟩ | ⟨e, _⟩ | ⟨e, _⟩ | ⟨e, _⟩ |
        ⟨e, _⟩ | ⟨e, _⟩ | ⟨e, hbl, rfl⟩ | ⟨e, _⟩ | ⟨e, _⟩
      · injection e with e1 e2
        rw [e1] at hm
        obtain ⟨b, e, hb⟩ := lineComment_iff.mp hm
        rw [e]; simpa using hb
      · injection e with e1 e2
        rw [e1, lit_iff] at hm
        rw [hm]; decide
      all_goals first
        | (injection e with e1 e2; subst e2; simp at ha; done)
        | skip
      simpa using fun e => (blank_facts c hbl).2.2.2.2.2.2.1 e.symm

theorem newline_match {b : Start} (hb : b ≠ .saveline) {s : CStr} {n : Nat} (h : pick (rules b) s = some (n, .newline)) (hs : s ≠ []) :
    s.take n = [10] := by
  obtain ⟨r, hr, hl⟩ := pick_src h
  cases s with
  | nil => exact absurd rfl hs
  | cons c s =>
    cases b with
    | saveline => exact absurd rfl hb
    | comment =>
      rcases comment_cases hr hl with ⟨e, _⟩ | ⟨_, rfl, rfl⟩ | ⟨e, _⟩
      · cases e
      · rfl
      · cases e
    | initial =>
      rcases rule_cases hr hl with ⟨e, _⟩ | ⟨e, _⟩ | ⟨e, _⟩ | ⟨k, _, e, _⟩ | ⟨e, _⟩ | ⟨e, _⟩ | ⟨e, _⟩ | ⟨e, _⟩ |
        ⟨e, _⟩ | ⟨e, _⟩ | ⟨e, _⟩ | ⟨_, rfl, rfl⟩ | ⟨e, _⟩
      all_goals first | rfl | cases e

theorem pick_total {b : Start} (hb : b ≠ .saveline) {c : UInt8} {s : CStr} : pick (rules b) (c :: s) ≠ none := by
  intro h
  have key : ∀ p ∈ rules b, ∀ m, longest p.1 (c :: s) ≠ some m := by
    intro p hp m hm
    obtain ⟨_, _, e, _⟩ := pick_some hp hm
    rw [h] at e; cases e
  by_cases hc : c = 10
  · subst hc
    refine key (lit [10], .newline) ?_ 1 (longest_lit_self (k := [10]))
    cases b with
    | saveline => exact absurd rfl hb
    | comment => simp [rules]
    | initial => simp [rules]
  · cases b with
    | saveline => exact absurd rfl hb
    | comment => exact key (dot, .skip) (by simp [rules]) 1 (longest_cls_self (by simpa using hc))
    | initial => exact key (dot, .bad) (by simp [rules]) 1 (longest_cls_self (by simpa using hc))

theorem here_step {input : CStr} (h0 : 0 ∉ input) {s s' : St} {t : Option Token} (hi : Inv s) (hh : Here input s) (hne : s.input ≠ [])
    (h : step s = .ok (s', t)) (ht : ∀ u, t = some u → 10 ∉ u.text) :
    Here input s' ∧ ∀ u, t = some u → StandsAt input u ∧ ∃ l, (u.line, l) ∈ s'.lines := by
  obtain ⟨don, hdon, hline, hcol, hcol1⟩ := hh.place
  obtain ⟨c, rest, hin⟩ : ∃ c rest, s.input = c :: rest := by
    cases e : s.input with
    | nil => exact absurd e hne
    | cons c rest => exact ⟨c, rest, rfl⟩
  by_cases hs : s.start = .saveline
  · have hta : ∀ n, token_action (after s n) n = after s n := by intro n; unfold token_action; simp [after, hs]
    by_cases hc : c = 10
    · subst hc
      rw [step_pick (n := 1) (a := .saveNewline) (by rw [hs, hin]; exact pick_saveNewline), hta] at h
      injection h with h; injection h with h1 h2; subst h1; subst h2
      refine ⟨⟨⟨don ++ [10], ?_, ?_, fun h => absurd hs h, fun _ => ?_⟩, hh.saved, fun h => absurd hs h⟩, fun u e => by cases e⟩
      · rw [hdon, hin]; simp [after, hin]
      · simp [after, hin, newlines, hline, move_append, Pos.move]
      · simp [move_append, Pos.move]
    · rw [step_pick (n := ((c :: rest).takeWhile (· != 10)).length) (a := .save) (by rw [hs, hin]; exact pick_save hc), hta] at h
      have htk : s.input.take ((c :: rest).takeWhile (· != 10)).length = restLine s.input := by
        rw [hin]
        have e := (List.takeWhile_append_dropWhile (p := (· != (10 : UInt8))) (l := c :: rest)).symm
        conv => lhs; rw [e]
        exact List.take_left' (by rw [← e])
      have hrl : 10 ∉ restLine s.input := fun hm => by
        have := List.all_eq_true.mp (List.all_takeWhile (p := (· != (10 : UInt8)))) 10 hm
        simp at this
      unfold act at h
      cases hk : s.stack with
      | nil => exact absurd hk (hi.2 hs)
      | cons d ds =>
        have hd : d ≠ .saveline := fun e => hi.1 (by rw [hk, e]; simp)
        simp only [after, hk, htk, newlines_plain hrl] at h
        injection h with h; injection h with h1 h2; subst h1; subst h2
        have hz : 0 ∉ restLine s.input := by
          intro hm
          have : restLine s.input <+: s.input := List.takeWhile_prefix _
          exact h0 (by rw [hdon]; exact List.mem_append_right _ (this.subset hm))
        refine ⟨⟨⟨don, ?_, ?_, fun _ => (hcol1 hs).symm, fun e => absurd e hd⟩, ?_, fun _ => ⟨cut (restLine s.input), ?_⟩⟩, fun u e => by cases e⟩
        · simp only
          rw [hdon]
          conv => rhs; rw [← htk, List.take_append_drop]
        · simpa using hline
        · intro x hx
          rcases List.mem_cons.mp hx with rfl | hx
          · obtain ⟨l, e1, e2, e3⟩ := lines_at don s.input
            rw [hcol1 hs] at e1
            have hl : l = [] := List.eq_nil_of_length_eq_zero (by omega)
            subst hl
            simp only [Nat.add_zero, hline, cut_eq hz]
            rw [hdon]
            exact ⟨e3, e2⟩
          · exact hh.saved x hx
        · simp
  · cases hp : pick (rules s.start) s.input with
    | none => exact absurd (hin ▸ hp) (pick_total hs)
    | some x =>
      obtain ⟨n, a⟩ := x
      rw [step_pick hp] at h
      obtain ⟨r, hr, hl⟩ := pick_src hp
      have hacts : a ≠ .save ∧ a ≠ .saveNewline ∧ nullable r = false := by
        cases e : s.start with
        | saveline => exact absurd e hs
        | initial =>
          rw [e] at hr
          exact ⟨(initial_acts hr).1, (initial_acts hr).2.1, (initial_acts hr).2.2.2⟩
        | comment =>
          rw [e] at hr
          exact comment_acts hr
      have hlen := longest_pos hacts.2.2 hl
      obtain ⟨g1, g2, g3, g4, g5⟩ := act_facts hacts.1 h
      have hta : token_action (after s n) n = { after s n with col := s.col + n } := by
        unfold token_action
        have : (after s n).start ≠ .saveline := hs
        split
        · exact absurd (by assumption) this
        · rfl
      rw [hta] at g1 g2 g3 g4 g5 h
      have g4 := g4 hacts.2.1
      simp only [after] at g1 g2 g3 g4 g5
      have hsplit : input = (don ++ s.input.take n) ++ s'.input := by
        rw [g1, List.append_assoc, List.take_append_drop, hdon]
      have hsave : Saved input s'.lines := by rw [g3]; exact hh.saved
      -- a match without end of line
      have plain : 10 ∉ s.input.take n → a ≠ .newline → Here input s' := by
        intro hpl hna
        have hst : s'.start ≠ .saveline := by
          rcases g5 with ⟨e, _⟩ | ⟨_, ⟨_, e⟩ | ⟨_, e⟩ | ⟨e, _⟩⟩
          · rw [e]; exact hs
          · rw [e]; simp
          · rw [e]; simp
          · exact absurd e hna
        have hmv := move_plain ((⟨1, 1⟩ : Pos).move don) hpl
        refine ⟨⟨don ++ s.input.take n, hsplit, ?_, fun _ => ?_, fun e => absurd e hst⟩, hsave, fun _ => ?_⟩
        · rw [g2, newlines_plain hpl, move_append, hmv, hline]; rfl
        · rw [g4, move_append, hmv, hcol hs]
          simp only [List.length_take]
          have : min n s.input.length = n := by omega
          rw [this]
        · obtain ⟨l, hl⟩ := hh.line hs
          exact ⟨l, by rw [g2, g3, newlines_plain hpl]; exact hl⟩
      cases t with
      | none =>
        refine ⟨?_, fun u e => by cases e⟩
        rcases act_none h with e | e | e | e | e | e
        · exact absurd e hacts.1
        · exact absurd e hacts.2.1
        · subst e
          have hst : s'.start = .saveline := by
            rcases g5 with ⟨_, _, _, _, e⟩ | ⟨_, ⟨e, _⟩ | ⟨e, _⟩ | ⟨_, e⟩⟩
            · exact absurd rfl e
            · cases e
            · cases e
            · exact e
          have hm := newline_match hs hp hne
          refine ⟨⟨don ++ s.input.take n, hsplit, ?_, fun e => absurd hst e, fun _ => ?_⟩, hsave, fun e => absurd hst e⟩
          · rw [g2, hm, move_append, hline]; simp [newlines, Pos.move]
          · rw [hm, move_append]; simp [Pos.move]
        · subst e; exact plain (quiet_plain hs hp hne (.inl rfl)) (by simp)
        · subst e; exact plain (quiet_plain hs hp hne (.inr (.inl rfl))) (by simp)
        · subst e; exact plain (quiet_plain hs hp hne (.inr (.inr rfl))) (by simp)
      | some u =>
        obtain ⟨k1, k2, k3, k4, k5⟩ := act_token h
        have hpl : 10 ∉ s.input.take n := k1 ▸ ht u rfl
        have hH := plain hpl k5.2.2.1
        refine ⟨hH, fun u' e => ?_⟩
        injection e with e; subst e
        obtain ⟨l, e1, e2, e3⟩ := lines_at don s.input
        have hlt : (s.input.take n).length = n := by rw [List.length_take]; omega
        simp only [after, newlines_plain hpl, Nat.add_zero] at k2
        rw [hlt] at k3
        simp only at k3 k4
        refine ⟨⟨l, restLine (s.input.drop n), ?_, ?_, ?_, ?_, ?_⟩, ?_⟩
        · rw [k2, hline, k1, List.append_assoc, ← restLine_plain hpl, List.take_append_drop, ← e3]
          rw [hdon]
        · rw [k2, hline]; exact e2
        · rw [k3, hcol hs, e1]; omega
        · rw [k3, k4, k1, hlt, hcol hs, e1]; omega
        · rw [k1]
          intro e
          rw [e] at hlt
          simp at hlt
          omega
        · obtain ⟨l, hl⟩ := hh.line hs
          refine ⟨l, ?_⟩
          rw [g3, k2]; exact hl

theorem scan_lines {s : St} {n : Nat} {ts : List Token} {s' : St} (h : scan n s = .ok (ts, s')) : ∀ x ∈ s.lines, x ∈ s'.lines := by
  induction n generalizing s ts with
  | zero => cases h
  | succ n ih =>
    unfold scan at h
    cases e : s.input with
    | nil =>
      rw [e] at h
      injection h with h; injection h with h1 h2; subst h2
      exact fun x h => h
    | cons c rest =>
      rw [e] at h
      simp only at h
      obtain ⟨⟨s1, t⟩, h1, h2⟩ := Res.bind_eq_ok.mp h
      obtain ⟨⟨ts', s2⟩, h3, h4⟩ := Res.bind_eq_ok.mp h2
      injection h4 with h4; injection h4 with h4 h5; subst h5
      have hl : ∀ x ∈ s.lines, x ∈ s1.lines := by
        intro x hx
        unfold step at h1
        cases hp : pick (rules s.start) s.input with
        | none =>
          rw [hp] at h1
          injection h1 with h1; injection h1 with h1 _; subst h1
          exact hx
        | some y =>
          obtain ⟨m, a⟩ := y
          rw [hp] at h1
          simp only at h1
          obtain ⟨_, _, f3, _, _⟩ := token_action_facts (after s m) m
          have hx' : x ∈ (token_action (after s m) m).lines := by rw [f3]; exact hx
          by_cases ha : a = .save
          · subst ha
            unfold act at h1
            simp only at h1
            split at h1
            · cases h1
            · injection h1 with h1; injection h1 with h1 _; subst h1
              exact List.mem_cons_of_mem _ hx'
          · rw [(act_facts ha h1).2.2.1]; exact hx'
      intro x hx
      exact ih h3 x (hl x hx)

theorem scan_places {input : CStr} (h0 : 0 ∉ input) : ∀ {n : Nat} {s s' : St} {ts : List Token}, Inv s → Here input s →
    scan n s = .ok (ts, s') → (∀ u ∈ ts, 10 ∉ u.text) →
    Saved input s'.lines ∧ ∀ u ∈ ts, StandsAt input u ∧ ∃ l, (u.line, l) ∈ s'.lines := by
  intro n
  induction n with
  | zero => intro s s' ts _ _ h; cases h
  | succ n ih =>
    intro s s' ts hi hh h ht
    unfold scan at h
    cases e : s.input with
    | nil =>
      rw [e] at h
      injection h with h; injection h with h1 h2; subst h1; subst h2
      exact ⟨hh.saved, fun u hu => by cases hu⟩
    | cons c rest =>
      rw [e] at h
      simp only at h
      obtain ⟨⟨s1, t⟩, h1, h2⟩ := Res.bind_eq_ok.mp h
      obtain ⟨⟨ts', s2⟩, h3, h4⟩ := Res.bind_eq_ok.mp h2
      injection h4 with h4; injection h4 with h4 h5; subst h5; subst h4
      have hne : s.input ≠ [] := by rw [e]; simp
      obtain ⟨k1, k2⟩ := here_step h0 hi hh hne h1 fun u hu => ht u (by rw [hu]; simp)
      obtain ⟨m1, m2⟩ := ih (step_lt hi hne h1).1 k1 h3 fun u hu => ht u (by simp [hu])
      refine ⟨m1, fun u hu => ?_⟩
      rcases List.mem_append.mp hu with hu | hu
      · cases t with
        | none => cases hu
        | some v =>
          simp only [Option.toList, List.mem_cons, List.not_mem_nil, or_false] at hu
          subst hu
          obtain ⟨q1, l, q2⟩ := k2 u rfl
          exact ⟨q1, l, scan_lines h3 _ q2⟩
      · exact m2 u hu

theorem saved_lookup {input : CStr} {lines : List (Nat × CStr)} (h : Saved input lines) {k : Nat} (hk : ∃ l, (k, l) ∈ lines) :
    ∃ l, lines.lookup k = some l ∧ (linesOf input)[k - 1]? = some l := by
  induction lines with
  | nil => obtain ⟨l, hl⟩ := hk; cases hl
  | cons x xs ih =>
    obtain ⟨j, m⟩ := x
    by_cases e : k = j
    · subst e
      exact ⟨m, by simp [List.lookup], (h (k, m) (by simp)).1⟩
    · obtain ⟨l, hl⟩ := hk
      have hl' : (k, l) ∈ xs := by
        rcases List.mem_cons.mp hl with hl | hl
        · injection hl with h1 _; exact absurd h1 e
        · exact hl
      obtain ⟨l2, h1, h2⟩ := ih (fun x hx => h x (by simp [hx])) ⟨l, hl'⟩
      refine ⟨l2, ?_, h2⟩
      rw [List.lookup, ← h1]
      simp [beq_false_of_ne e]

theorem lex_places {input : CStr} (h0 : 0 ∉ input) {ts : List Token} {lines : List (Nat × CStr)} (h : lex input = .ok (ts, lines))
    (ht : ∀ u ∈ ts, 10 ∉ u.text) :
    ∀ u ∈ ts, StandsAt input u ∧ ∃ l, lines.lookup u.line = some l ∧ (linesOf input)[u.line - 1]? = some l := by
  unfold lex at h
  obtain ⟨⟨ts', s'⟩, h1, h2⟩ := Res.bind_eq_ok.mp h
  injection h2 with h2; injection h2 with h2 h3; subst h2; subst h3
  obtain ⟨k1, k2⟩ := scan_places h0 (inv_init input) (here_init input) h1 ht
  intro u hu
  obtain ⟨m1, m2⟩ := k2 u hu
  exact ⟨m1, saved_lookup k1 m2⟩

end Verif.Lex
