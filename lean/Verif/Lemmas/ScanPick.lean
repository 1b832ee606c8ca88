import Verif.Lemmas.Scan

/-! # Single matches of the scanner: symbols, numbers, strings and gaps -/

namespace Verif.Lex
open Verif.Str (CStr)
open Verif.Spec.Text

theorem byte_all {P : UInt8 → Prop} (h : ∀ c : Fin 256, P (UInt8.ofNat c)) (c : UInt8) : P c := by
  have := h ⟨c.toNat, c.toNat_lt⟩
  simp only [UInt8.ofNat_toNat] at this
  exact this

theorem sym_facts : ∀ c : UInt8, c ∈ symbols →
    c ≠ 47 ∧ isLetter c = false ∧ isDigit c = false ∧ c ≠ 34 ∧ isBlank c = false ∧ c ≠ 10 ∧ c ≠ 78 :=
  byte_all (by decide +kernel)

theorem digit_facts : ∀ c : UInt8, isDigit c = true →
    c ≠ 47 ∧ c ∉ symbols ∧ isLetter c = false ∧ c ≠ 45 ∧ c ≠ 46 ∧ c ≠ 34 ∧ isBlank c = false ∧ c ≠ 10 ∧ c ≠ 78 ∧ c ≠ 62 ∧
      isWord c = true :=
  byte_all (by decide +kernel)

theorem blank_facts : ∀ c : UInt8, isBlank c = true →
    c ≠ 47 ∧ c ∉ symbols ∧ isLetter c = false ∧ isDigit c = false ∧ c ≠ 45 ∧ c ≠ 34 ∧ c ≠ 10 ∧ c ≠ 78 :=
  byte_all (by decide +kernel)

/-- A keyword at a character that is no letter is the arrow. -/
theorem kw_arrow {k : CStr} (hk : k ∈ keywords) {c : UInt8} {s : CStr} (h : k <+: c :: s) (hc : isLetter c = false) :
    k = [45, 62] ∧ c = 45 ∧ ∃ t, s = 62 :: t := by
  obtain ⟨t, ht⟩ := h
  rcases keywords_word k hk with rfl | ⟨d, ds, rfl, hd, _⟩
  · simp only [List.cons_append, List.nil_append, List.cons.injEq] at ht
    exact ⟨rfl, ht.1.symm, t, ht.2.symm⟩
  · simp only [List.cons_append, List.cons.injEq] at ht
    rw [ht.1, hc] at hd; cases hd

theorem null_first {c : UInt8} {s : CStr} (h : [78, 85, 76, 76] <+: c :: s) : c = 78 := by
  obtain ⟨t, ht⟩ := h
  simp only [List.cons_append, List.cons.injEq] at ht
  exact ht.1.symm

theorem digits_start {ds : CStr} (h : Digits ds) : ∃ c cs, ds = c :: cs ∧ isDigit c = true := by
  obtain ⟨h1, h2⟩ := h
  cases ds with
  | nil => exact absurd rfl h1
  | cons c cs => exact ⟨c, cs, rfl, h2 c (by simp)⟩

theorem span_eq {q : UInt8 → Bool} {a b x y : CStr} (ha : ∀ c ∈ a, q c = true) (hb : ∀ c ∈ b, q c = true)
    (hx : NoStart q x) (hy : NoStart q y) (e : a ++ x = b ++ y) : a = b ∧ x = y := by
  have h1 := le_of_class e hb hx
  have h2 := le_of_class e.symm ha hy
  exact List.append_inj e (by omega)

/-- A match of a whole number behind a minus: a digit follows. -/
theorem int_next {s : CStr} {m : Nat} (h : longest intVal (45 :: s) = some m) : ∃ c cs, s = c :: cs ∧ isDigit c = true := by
  obtain ⟨h1, h2, _⟩ := longest_some h
  obtain ⟨ds, e, hd⟩ := intVal_iff.mp h2
  obtain ⟨c, cs, rfl, hc⟩ := digits_start hd
  have := (List.take_append_drop m (45 :: s)).symm
  rw [e] at this
  simp only [List.cons_append, List.cons.injEq, true_and] at this
  exact ⟨c, _, this, hc⟩

theorem float_next {s : CStr} {m : Nat} (h : longest floatVal (45 :: s) = some m) : ∃ c cs, s = c :: cs ∧ isDigit c = true := by
  obtain ⟨h1, h2, _⟩ := longest_some h
  obtain ⟨b, ds, es, e, hd, he⟩ := floatVal_iff.mp h2
  obtain ⟨c, cs, rfl, hc⟩ := digits_start hd
  have := (List.take_append_drop m (45 :: s)).symm
  rw [e] at this
  cases b with
  | true =>
    simp only [Lexeme.text, if_true, List.cons_append, List.nil_append, List.cons.injEq, true_and] at this
    exact ⟨c, _, this, hc⟩
  | false =>
    simp only [Lexeme.text, Bool.false_eq_true, if_false, List.cons_append, List.nil_append, List.cons.injEq] at this
    exact absurd this.1.symm (digit_facts c hc).2.2.2.1

/-! ## Symbols -/

/-- What may follow a symbol. -/
def SymEnd (c : UInt8) (rest : CStr) : Prop := c = 45 → NoStart (fun d => isDigit d || d == 62) rest

theorem pick_sym {c : UInt8} {rest : CStr} (hc : c ∈ symbols) (hr : SymEnd c rest) :
    pick (rules .initial) (c :: rest) = some (1, .sym c) := by
  have hf := sym_facts c hc
  have key : ∀ q ∈ rules .initial, ∀ m, longest q.1 (c :: rest) = some m → m = 1 ∧ (q.2 = .bad ∨ q.2 = .sym c) := by
    intro q hq m h
    have no : ∀ d ds, rest = d :: ds → isDigit d = true → c = 45 → False := by
      intro d ds e hd h45
      have := hr h45 d ds e
      simp only [hd, Bool.true_or] at this; cases this
    rcases rule_cases hq h with ⟨rfl, e⟩ | ⟨rfl, e⟩ | ⟨rfl, e, rfl⟩ | ⟨k, hk, rfl, hp, rfl⟩ | ⟨rfl, hp, rfl⟩ | ⟨rfl, e⟩ | ⟨rfl, e⟩ | ⟨rfl, e⟩ |
      ⟨rfl, e⟩ | ⟨rfl, e⟩ | ⟨rfl, e, _⟩ | ⟨rfl, e, _⟩ | ⟨rfl, _, rfl⟩
    · exact absurd e hf.1
    · exact absurd e hf.1
    · exact ⟨rfl, .inr rfl⟩
    · obtain ⟨_, h45, t, rfl⟩ := kw_arrow hk hp hf.2.1
      have := hr h45 _ _ rfl
      cases this
    · exact absurd (null_first hp) hf.2.2.2.2.2.2
    · rw [hf.2.1] at e; cases e
    · rcases e with rfl | e
      · obtain ⟨d, ds, e, hd⟩ := float_next h
        exact (no d ds e hd rfl).elim
      · rw [hf.2.2.1] at e; cases e
    · subst e
      obtain ⟨d, ds, e, hd⟩ := int_next h
      exact (no d ds e hd rfl).elim
    · rw [hf.2.2.1] at e; cases e
    · exact absurd e hf.2.2.2.1
    · rw [hf.2.2.2.2.1] at e; cases e
    · exact absurd e hf.2.2.2.2.2.1
    · exact ⟨rfl, .inl rfl⟩
  refine pick_initial (p := (lit [c], .sym c)) ?_ (longest_lit_self (k := [c])) (fun q hq m h => by rw [(key q hq m h).1]; exact Nat.le_refl _)
    fun q hq hb h => (key q hq _ h).2.resolve_left hb
  refine List.mem_append_left _ ?_
  unfold headRules
  simp only [List.mem_append, List.mem_map]
  exact .inl (.inr ⟨c, hc, rfl⟩)

theorem pick_arrow {rest : CStr} : pick (rules .initial) (45 :: 62 :: rest) = some (2, .kw [45, 62]) := by
  have key : ∀ q ∈ rules .initial, ∀ m, longest q.1 (45 :: 62 :: rest) = some m → m ≤ 2 ∧ (m = 2 → q.2 = .kw [45, 62]) := by
    intro q hq m h
    rcases rule_cases hq h with ⟨rfl, e⟩ | ⟨rfl, e⟩ | ⟨rfl, e, rfl⟩ | ⟨k, hk, rfl, hp, rfl⟩ | ⟨rfl, hp, rfl⟩ | ⟨rfl, e⟩ | ⟨rfl, e⟩ | ⟨rfl, e⟩ |
      ⟨rfl, e⟩ | ⟨rfl, e⟩ | ⟨rfl, e, _⟩ | ⟨rfl, e, _⟩ | ⟨rfl, _, rfl⟩
    · exact absurd e (by decide)
    · exact absurd e (by decide)
    · exact ⟨by decide, fun h => absurd h (by decide)⟩
    · obtain ⟨rfl, _⟩ := kw_arrow hk hp (by decide)
      exact ⟨Nat.le_refl _, fun _ => rfl⟩
    · exact absurd (null_first hp) (by decide)
    · exact absurd e (by decide)
    · obtain ⟨d, ds, e, hd⟩ := float_next h
      injection e with e _
      subst e
      exact absurd hd (by decide)
    · obtain ⟨d, ds, e, hd⟩ := int_next h
      injection e with e _
      subst e
      exact absurd hd (by decide)
    · exact absurd e (by decide)
    · exact absurd e (by decide)
    · exact absurd e (by decide)
    · exact absurd e (by decide)
    · exact ⟨by decide, fun h => absurd h (by decide)⟩
  refine pick_initial (p := (lit [45, 62], .kw [45, 62])) ?_ (longest_lit_self (k := [45, 62])) (fun q hq m h => (key q hq m h).1)
    fun q hq hb h => (key q hq _ h).2 rfl
  refine List.mem_append_left _ ?_
  unfold headRules
  simp only [List.mem_append, List.mem_map]
  exact .inr ⟨[45, 62], by decide +kernel, rfl⟩

/-! ## Numbers -/

theorem noStart_cons {q : UInt8 → Bool} {c : UInt8} {s : CStr} (h : q c = false) : NoStart q (c :: s) := by
  intro d ds e
  injection e with e _
  rw [← e, h]

/-- Rules that match at a digit. -/
theorem digit_rules {c : UInt8} {s : CStr} (hc : isDigit c = true) {q : Re × Act} (hq : q ∈ rules .initial) {m : Nat}
    (h : longest q.1 (c :: s) = some m) : q = (floatVal, .float) ∨ q = (digits, .uint) ∨ (q = (dot, .bad) ∧ m = 1) := by
  have hf := digit_facts c hc
  rcases rule_cases hq h with ⟨rfl, e⟩ | ⟨rfl, e⟩ | ⟨rfl, e, rfl⟩ | ⟨k, hk, rfl, hp, rfl⟩ | ⟨rfl, hp, rfl⟩ | ⟨rfl, e⟩ | ⟨rfl, e⟩ | ⟨rfl, e⟩ |
    ⟨rfl, e⟩ | ⟨rfl, e⟩ | ⟨rfl, e, _⟩ | ⟨rfl, e, _⟩ | ⟨rfl, _, rfl⟩
  · exact absurd e hf.1
  · exact absurd e hf.1
  · exact absurd e hf.2.1
  · exact absurd (kw_arrow hk hp hf.2.2.1).2.1 hf.2.2.2.1
  · exact absurd (null_first hp) hf.2.2.2.2.2.2.2.2.1
  · rw [hf.2.2.1] at e; cases e
  · exact .inl rfl
  · exact absurd e hf.2.2.2.1
  · exact .inr (.inl rfl)
  · exact absurd e hf.2.2.2.2.2.1
  · rw [hf.2.2.2.2.2.2.1] at e; cases e
  · exact absurd e hf.2.2.2.2.2.2.2.1
  · exact .inr (.inr ⟨rfl, rfl⟩)

/-- Rules that match at a minus with a digit behind it. -/
theorem minus_rules {c : UInt8} {s : CStr} (hc : isDigit c = true) {q : Re × Act} (hq : q ∈ rules .initial) {m : Nat}
    (h : longest q.1 (45 :: c :: s) = some m) : q = (floatVal, .float) ∨ q = (intVal, .int) ∨ m = 1 := by
  rcases rule_cases hq h with ⟨rfl, e⟩ | ⟨rfl, e⟩ | ⟨rfl, e, rfl⟩ | ⟨k, hk, rfl, hp, rfl⟩ | ⟨rfl, hp, rfl⟩ | ⟨rfl, e⟩ | ⟨rfl, e⟩ | ⟨rfl, e⟩ |
    ⟨rfl, e⟩ | ⟨rfl, e⟩ | ⟨rfl, e, _⟩ | ⟨rfl, e, _⟩ | ⟨rfl, _, rfl⟩
  · exact absurd e (by decide)
  · exact absurd e (by decide)
  · exact .inr (.inr rfl)
  · obtain ⟨_, _, t, e⟩ := kw_arrow hk hp (by decide)
    injection e with e _
    exact absurd e (digit_facts c hc).2.2.2.2.2.2.2.2.2.1
  · exact absurd (null_first hp) (by decide)
  · exact absurd e (by decide)
  · exact .inl rfl
  · exact .inr (.inl rfl)
  · exact absurd e (by decide)
  · exact absurd e (by decide)
  · exact absurd e (by decide)
  · exact absurd e (by decide)
  · exact .inr (.inr rfl)

theorem float_split {b : Bool} {ds es x c : CStr} {y : CStr} (hd : Digits ds) (hc : ∀ d ∈ c, isDigit d = true)
    (hy : NoStart isDigit y) (hc0 : c ≠ []) (e : Lexeme.text (.dec b ds es) ++ x = c ++ y) : b = false ∧ ds = c ∧ y = 46 :: es ++ x := by
  cases b with
  | true =>
    cases c with
    | nil => exact absurd rfl hc0
    | cons d c =>
      simp only [Lexeme.text, if_true, List.cons_append, List.nil_append, List.cons.injEq] at e
      exact absurd e.1.symm (digit_facts d (hc d (by simp))).2.2.2.1
  | false =>
    simp only [Lexeme.text, Bool.false_eq_true, if_false, List.nil_append, List.append_assoc] at e
    obtain ⟨h1, h2⟩ := span_eq hd.2 hc (noStart_cons (by decide)) hy e
    exact ⟨rfl, h1, h2.symm⟩

theorem float_split_neg {b : Bool} {ds es x c : CStr} {y : CStr} (hd : Digits ds) (hc : ∀ d ∈ c, isDigit d = true)
    (hy : NoStart isDigit y) (e : Lexeme.text (.dec b ds es) ++ x = 45 :: c ++ y) : b = true ∧ ds = c ∧ y = 46 :: es ++ x := by
  cases b with
  | false =>
    obtain ⟨d, cs, rfl, h⟩ := digits_start hd
    simp only [Lexeme.text, Bool.false_eq_true, if_false, List.nil_append, List.cons_append, List.cons.injEq] at e
    exact absurd e.1 (digit_facts d h).2.2.2.1
  | true =>
    simp only [Lexeme.text, if_true, List.cons_append, List.nil_append, List.cons.injEq, List.append_assoc, true_and] at e
    obtain ⟨h1, h2⟩ := span_eq hd.2 hc (noStart_cons (by decide)) hy e
    exact ⟨rfl, h1, h2.symm⟩

theorem longest_split {r : Re} {s : CStr} {m : Nat} (h : longest r s = some m) :
    ∃ a b, s = a ++ b ∧ a.length = m ∧ Matches r a := by
  obtain ⟨h1, h2, _⟩ := longest_some h
  exact ⟨s.take m, s.drop m, (List.take_append_drop m s).symm, by rw [List.length_take]; omega, h2⟩

/-- What may follow a whole number. -/
def NumEnd (rest : CStr) : Prop := NoStart (fun d => isDigit d || d == 46) rest

theorem NumEnd.digit {rest : CStr} (h : NumEnd rest) : NoStart isDigit rest := h.mono fun c hc => by simp [hc]

theorem NumEnd.point {rest x : CStr} (h : NumEnd rest) : rest ≠ 46 :: x := fun e => by
  have := h 46 x e
  cases this

theorem pick_nat {ds rest : CStr} (hd : Digits ds) (hr : NumEnd rest) : pick (rules .initial) (ds ++ rest) = some (ds.length, .uint) := by
  obtain ⟨c, cs, e0, hc⟩ := digits_start hd
  have hpos : 1 ≤ ds.length := by rw [e0]; simp
  have key : ∀ q ∈ rules .initial, ∀ m, longest q.1 (ds ++ rest) = some m → m ≤ ds.length ∧ (q.2 ≠ .bad → q.2 = .uint) := by
    intro q hq m h
    have h' := h
    rw [e0, List.cons_append] at h'
    rcases digit_rules hc hq h' with rfl | rfl | ⟨rfl, rfl⟩
    · obtain ⟨a, b, e, hl, hm⟩ := longest_split h
      obtain ⟨bo, ds', es, rfl, hd', he⟩ := floatVal_iff.mp hm
      obtain ⟨_, _, h3⟩ := float_split hd' hd.2 hr.digit hd.1 e.symm
      exact absurd h3 hr.point
    · obtain ⟨a, b, e, hl, hm⟩ := longest_split h
      have := le_of_class e (digits_iff.mp hm).2 hr.digit
      exact ⟨hl ▸ this, fun _ => rfl⟩
    · exact ⟨hpos, fun h => absurd rfl h⟩
  refine pick_initial (p := (digits, .uint)) (List.mem_append_right _ (by simp [tailRules])) ?_ (fun q hq m h => (key q hq m h).1)
    fun q hq hb h => (key q hq _ h).2 hb
  exact longest_eq (digits_iff.mpr hd) fun a b e h => le_of_class e (digits_iff.mp h).2 hr.digit

theorem pick_neg {ds rest : CStr} (hd : Digits ds) (hr : NumEnd rest) :
    pick (rules .initial) (45 :: ds ++ rest) = some (ds.length + 1, .int) := by
  obtain ⟨c, cs, e0, hc⟩ := digits_start hd
  have hpos : 1 ≤ ds.length := by rw [e0]; simp
  have key : ∀ q ∈ rules .initial, ∀ m, longest q.1 (45 :: ds ++ rest) = some m → m ≤ ds.length + 1 ∧ (m = ds.length + 1 → q.2 = .int) := by
    intro q hq m h
    have h' := h
    rw [e0, List.cons_append, List.cons_append] at h'
    rcases minus_rules hc hq h' with rfl | rfl | rfl
    · obtain ⟨a, b, e, hl, hm⟩ := longest_split h
      obtain ⟨bo, ds', es, rfl, hd', he⟩ := floatVal_iff.mp hm
      obtain ⟨_, _, h3⟩ := float_split_neg hd' hd.2 hr.digit e.symm
      exact absurd h3 hr.point
    · obtain ⟨a, b, e, hl, hm⟩ := longest_split h
      obtain ⟨ds', rfl, hd'⟩ := intVal_iff.mp hm
      simp only [List.cons_append, List.cons.injEq, true_and] at e
      have := le_of_class e hd'.2 hr.digit
      simp only [List.length_cons] at hl
      exact ⟨by omega, fun _ => rfl⟩
    · exact ⟨by omega, fun h => by omega⟩
  refine pick_initial (p := (intVal, .int)) (List.mem_append_right _ (by simp [tailRules])) ?_ (fun q hq m h => (key q hq m h).1)
    fun q hq hb h => (key q hq _ h).2 rfl
  refine longest_eq (x := 45 :: ds) (intVal_iff.mpr ⟨ds, rfl, hd⟩) fun a b e h => ?_
  obtain ⟨ds', rfl, hd'⟩ := intVal_iff.mp h
  simp only [List.cons_append, List.cons.injEq, true_and] at e
  have := le_of_class e hd'.2 hr.digit
  simp only [List.length_cons]
  omega

theorem dec_length {b : Bool} {ds es : CStr} :
    (Lexeme.text (.dec b ds es)).length = (if b then 1 else 0) + ds.length + 1 + es.length := by
  cases b <;> simp [Lexeme.text] <;> omega

theorem dec_le {b b' : Bool} {ds es ds' es' rest x : CStr} (hd : Digits ds) (hd' : Digits ds') (he' : Digits es')
    (hr : NoStart isDigit rest) (e : Lexeme.text (.dec b ds es) ++ rest = Lexeme.text (.dec b' ds' es') ++ x) :
    (Lexeme.text (.dec b' ds' es')).length ≤ (Lexeme.text (.dec b ds es)).length := by
  have h46 : ∀ t, NoStart isDigit (46 :: t) := fun t => noStart_cons (by decide)
  cases b with
  | false =>
    have e' : Lexeme.text (.dec b' ds' es') ++ x = ds ++ (46 :: es ++ rest) := by rw [← e]; simp [Lexeme.text]
    obtain ⟨rfl, rfl, h3⟩ := float_split hd' hd.2 (h46 _) hd.1 e'
    simp only [List.cons_append, List.cons.injEq, true_and] at h3
    have := le_of_class h3 he'.2 hr
    rw [dec_length, dec_length]
    omega
  | true =>
    have e' : Lexeme.text (.dec b' ds' es') ++ x = 45 :: ds ++ (46 :: es ++ rest) := by rw [← e]; simp [Lexeme.text]
    obtain ⟨rfl, rfl, h3⟩ := float_split_neg hd' hd.2 (h46 _) e'
    simp only [List.cons_append, List.cons.injEq, true_and] at h3
    have := le_of_class h3 he'.2 hr
    rw [dec_length, dec_length]
    omega

theorem pick_dec {b : Bool} {ds es rest : CStr} (hd : Digits ds) (he : Digits es) (hr : NoStart isDigit rest) :
    pick (rules .initial) (Lexeme.text (.dec b ds es) ++ rest) = some ((Lexeme.text (.dec b ds es)).length, .float) := by
  obtain ⟨c, cs, e0, hc⟩ := digits_start hd
  obtain ⟨c2, cs2, e2, hc2⟩ := digits_start he
  have h46 : ∀ t, NoStart isDigit (46 :: t) := fun t => noStart_cons (by decide)
  have key : ∀ q ∈ rules .initial, ∀ m, longest q.1 (Lexeme.text (.dec b ds es) ++ rest) = some m →
      m ≤ (Lexeme.text (.dec b ds es)).length ∧ (m = (Lexeme.text (.dec b ds es)).length → q.2 = .float) := by
    intro q hq m h
    have fl : ∀ m, longest floatVal (Lexeme.text (.dec b ds es) ++ rest) = some m → m ≤ (Lexeme.text (.dec b ds es)).length := by
      intro m h
      obtain ⟨a, x, e, hl, hm⟩ := longest_split h
      obtain ⟨bo, ds', es', rfl, hd', he'⟩ := floatVal_iff.mp hm
      rw [← hl]
      exact dec_le hd hd' he' hr e
    cases b with
    | false =>
      have h' := h
      rw [show Lexeme.text (.dec false ds es) ++ rest = c :: (cs ++ 46 :: es ++ rest) by simp [Lexeme.text, e0]] at h'
      rcases digit_rules hc hq h' with rfl | rfl | ⟨rfl, rfl⟩
      · exact ⟨fl m h, fun _ => rfl⟩
      · obtain ⟨a, x, e, hl, hm⟩ := longest_split h
        have := le_of_class (x := ds) (y := 46 :: es ++ rest) (by rw [← e]; simp [Lexeme.text]) (digits_iff.mp hm).2 (h46 _)
        rw [dec_length]
        exact ⟨by omega, fun h => by omega⟩
      · rw [dec_length, e2]
        exact ⟨by simp only [List.length_cons]; omega, fun h => by simp only [List.length_cons] at h; omega⟩
    | true =>
      have h' := h
      rw [show Lexeme.text (.dec true ds es) ++ rest = 45 :: c :: (cs ++ 46 :: es ++ rest) by simp [Lexeme.text, e0]] at h'
      rcases minus_rules hc hq h' with rfl | rfl | rfl
      · exact ⟨fl m h, fun _ => rfl⟩
      · obtain ⟨a, x, e, hl, hm⟩ := longest_split h
        obtain ⟨ds', rfl, hd'⟩ := intVal_iff.mp hm
        have e3 : ds ++ (46 :: es ++ rest) = ds' ++ x := by
          have : 45 :: (ds ++ (46 :: es ++ rest)) = 45 :: (ds' ++ x) := by rw [← List.cons_append (as := ds'), ← e]; simp [Lexeme.text]
          injection this
        have := le_of_class e3 hd'.2 (h46 _)
        simp only [List.length_cons] at hl
        rw [dec_length]
        exact ⟨by simp only [if_true]; omega, fun h => by simp only [if_true] at h; omega⟩
      · rw [dec_length, e2]
        exact ⟨by simp only [List.length_cons]; omega, fun h => by simp only [List.length_cons, if_true] at h; omega⟩
  refine pick_initial (p := (floatVal, .float)) (List.mem_append_right _ (by simp [tailRules])) ?_ (fun q hq m h => (key q hq m h).1)
    fun q hq hb h => (key q hq _ h).2 rfl
  refine longest_eq (floatVal_iff.mpr ⟨b, ds, es, rfl, hd, he⟩) fun a x e h => ?_
  obtain ⟨bo, ds', es', rfl, hd', he'⟩ := floatVal_iff.mp h
  exact dec_le hd hd' he' hr e

/-! ## Strings, blanks, ends of lines and comments -/

theorem pick_str {b rest : CStr} (hb : Body b) :
    pick (rules .initial) (34 :: b ++ [34] ++ rest) = some (b.length + 2, .str) := by
  have same : ∀ a x, 34 :: b ++ [34] ++ rest = a ++ x → Matches strVal a → a.length ≤ b.length + 2 := by
    intro a x e h
    obtain ⟨b', rfl, hb'⟩ := strVal_iff.mp h
    simp only [List.cons_append, List.append_assoc, List.cons.injEq, true_and, List.nil_append] at e
    have := body_unique hb hb' e
    subst this
    simp
  have key : ∀ q ∈ rules .initial, ∀ m, longest q.1 (34 :: b ++ [34] ++ rest) = some m → m ≤ b.length + 2 ∧ (m = b.length + 2 → q.2 = .str) := by
    intro q hq m h
    rcases rule_cases hq h with ⟨rfl, e⟩ | ⟨rfl, e⟩ | ⟨rfl, e, rfl⟩ | ⟨k, hk, rfl, hp, rfl⟩ | ⟨rfl, hp, rfl⟩ | ⟨rfl, e⟩ | ⟨rfl, e⟩ | ⟨rfl, e⟩ |
      ⟨rfl, e⟩ | ⟨rfl, e⟩ | ⟨rfl, e, _⟩ | ⟨rfl, e, _⟩ | ⟨rfl, _, rfl⟩
    · exact absurd e (by decide)
    · exact absurd e (by decide)
    · exact absurd e (by decide)
    · exact absurd (kw_arrow hk hp (by decide)).2.1 (by decide)
    · exact absurd (null_first hp) (by decide)
    · exact absurd e (by decide)
    · exact absurd e (by decide)
    · exact absurd e (by decide)
    · exact absurd e (by decide)
    · obtain ⟨a, x, e, hl, hm⟩ := longest_split h
      exact ⟨hl ▸ same a x e hm, fun _ => rfl⟩
    · exact absurd e (by decide)
    · exact absurd e (by decide)
    · exact ⟨by omega, fun h => by omega⟩
  refine pick_initial (p := (strVal, .str)) (List.mem_append_right _ (by simp [tailRules])) ?_ (fun q hq m h => (key q hq m h).1)
    fun q hq hb h => (key q hq _ h).2 rfl
  have := longest_eq (r := strVal) (x := 34 :: b ++ [34]) (y := rest) (strVal_iff.mpr ⟨b, rfl, hb⟩) fun a x e h => by
    have := same a x e h
    simp only [List.cons_append, List.length_cons, List.length_append, List.length_nil]
    omega
  rw [this]
  simp

theorem pick_blank {c : UInt8} {rest : CStr} (hc : isBlank c = true) : pick (rules .initial) (c :: rest) = some (1, .skip) := by
  have hf := blank_facts c hc
  have key : ∀ q ∈ rules .initial, ∀ m, longest q.1 (c :: rest) = some m → m = 1 ∧ (q.2 = .bad ∨ q.2 = .skip) := by
    intro q hq m h
    rcases rule_cases hq h with ⟨rfl, e⟩ | ⟨rfl, e⟩ | ⟨rfl, e, rfl⟩ | ⟨k, hk, rfl, hp, rfl⟩ | ⟨rfl, hp, rfl⟩ | ⟨rfl, e⟩ | ⟨rfl, e⟩ | ⟨rfl, e⟩ |
      ⟨rfl, e⟩ | ⟨rfl, e⟩ | ⟨rfl, e, rfl⟩ | ⟨rfl, e, _⟩ | ⟨rfl, _, rfl⟩
    · exact absurd e hf.1
    · exact absurd e hf.1
    · exact absurd e hf.2.1
    · exact absurd (kw_arrow hk hp hf.2.2.1).2.1 hf.2.2.2.2.1
    · exact absurd (null_first hp) hf.2.2.2.2.2.2.2
    · rw [hf.2.2.1] at e; cases e
    · rcases e with e | e
      · exact absurd e hf.2.2.2.2.1
      · rw [hf.2.2.2.1] at e; cases e
    · exact absurd e hf.2.2.2.2.1
    · rw [hf.2.2.2.1] at e; cases e
    · exact absurd e hf.2.2.2.2.2.1
    · exact ⟨rfl, .inr rfl⟩
    · exact absurd e hf.2.2.2.2.2.2.1
    · exact ⟨rfl, .inl rfl⟩
  exact pick_initial (p := (.cls isBlank, .skip)) (List.mem_append_right _ (by simp [tailRules])) (longest_cls_self hc)
    (fun q hq m h => by rw [(key q hq m h).1]; exact Nat.le_refl _) fun q hq hb h => (key q hq _ h).2.resolve_left hb

theorem pick_newline {rest : CStr} : pick (rules .initial) (10 :: rest) = some (1, .newline) := by
  have key : ∀ q ∈ rules .initial, ∀ m, longest q.1 (10 :: rest) = some m → m = 1 ∧ q.2 = .newline := by
    intro q hq m h
    rcases rule_cases hq h with ⟨rfl, e⟩ | ⟨rfl, e⟩ | ⟨rfl, e, rfl⟩ | ⟨k, hk, rfl, hp, rfl⟩ | ⟨rfl, hp, rfl⟩ | ⟨rfl, e⟩ | ⟨rfl, e⟩ | ⟨rfl, e⟩ |
      ⟨rfl, e⟩ | ⟨rfl, e⟩ | ⟨rfl, e, rfl⟩ | ⟨rfl, e, rfl⟩ | ⟨rfl, e, rfl⟩
    · exact absurd e (by decide)
    · exact absurd e (by decide)
    · exact absurd e (by decide)
    · exact absurd (kw_arrow hk hp (by decide)).2.1 (by decide)
    · exact absurd (null_first hp) (by decide)
    · exact absurd e (by decide)
    · exact absurd e (by decide)
    · exact absurd e (by decide)
    · exact absurd e (by decide)
    · exact absurd e (by decide)
    · exact absurd e (by decide)
    · exact ⟨rfl, rfl⟩
    · exact absurd rfl e
  exact pick_initial (p := (lit [10], .newline)) (List.mem_append_right _ (by simp [tailRules])) (longest_lit_self (k := [10]))
    (fun q hq m h => by rw [(key q hq m h).1]; exact Nat.le_refl _) fun q hq _ h => (key q hq _ h).2

/-- Rules that match at a slash. -/
theorem slash_rules {s : CStr} {q : Re × Act} (hq : q ∈ rules .initial) {m : Nat} (h : longest q.1 (47 :: s) = some m) :
    q = (lineComment, .skip) ∨ q = (lit [47, 42], .openComment) ∨ (q = (dot, .bad) ∧ m = 1) := by
  rcases rule_cases hq h with ⟨rfl, e⟩ | ⟨rfl, e⟩ | ⟨rfl, e, rfl⟩ | ⟨k, hk, rfl, hp, rfl⟩ | ⟨rfl, hp, rfl⟩ | ⟨rfl, e⟩ | ⟨rfl, e⟩ | ⟨rfl, e⟩ |
    ⟨rfl, e⟩ | ⟨rfl, e⟩ | ⟨rfl, e, rfl⟩ | ⟨rfl, e, rfl⟩ | ⟨rfl, e, rfl⟩
  · exact .inl rfl
  · exact .inr (.inl rfl)
  · exact absurd e (by decide)
  · exact absurd (kw_arrow hk hp (by decide)).2.1 (by decide)
  · exact absurd (null_first hp) (by decide)
  · exact absurd e (by decide)
  · exact absurd e (by decide)
  · exact absurd e (by decide)
  · exact absurd e (by decide)
  · exact absurd e (by decide)
  · exact absurd e (by decide)
  · exact absurd e (by decide)
  · exact .inr (.inr ⟨rfl, rfl⟩)

theorem pick_line {b rest : CStr} (hb : 10 ∉ b) (hr : NoStart (· != 10) rest) :
    pick (rules .initial) (47 :: 47 :: b ++ rest) = some (b.length + 2, .skip) := by
  have same : ∀ a x, 47 :: 47 :: b ++ rest = a ++ x → Matches lineComment a → a.length ≤ b.length + 2 := by
    intro a x e h
    obtain ⟨b', rfl, hb'⟩ := lineComment_iff.mp h
    simp only [List.cons_append, List.cons.injEq, true_and] at e
    have := le_of_class e (q := (· != 10)) (fun c hc => by simp; rintro rfl; exact hb' hc) hr
    simp only [List.length_cons]
    omega
  have key : ∀ q ∈ rules .initial, ∀ m, longest q.1 (47 :: 47 :: b ++ rest) = some m → m ≤ b.length + 2 ∧ (m = b.length + 2 → q.2 = .skip) := by
    intro q hq m h
    rcases slash_rules hq h with rfl | rfl | ⟨rfl, rfl⟩
    · obtain ⟨a, x, e, hl, hm⟩ := longest_split h
      exact ⟨hl ▸ same a x e hm, fun _ => rfl⟩
    · obtain ⟨_, t, ht⟩ := longest_lit h
      simp at ht
    · exact ⟨by omega, fun h => by omega⟩
  refine pick_initial (p := (lineComment, .skip)) (List.mem_append_left _ (by simp [headRules])) ?_ (fun q hq m h => (key q hq m h).1)
    fun q hq _ h => (key q hq _ h).2 rfl
  exact longest_eq (x := 47 :: 47 :: b) (lineComment_iff.mpr ⟨b, rfl, hb⟩) fun a x e h => same a x e h

theorem pick_open {rest : CStr} : pick (rules .initial) (47 :: 42 :: rest) = some (2, .openComment) := by
  have key : ∀ q ∈ rules .initial, ∀ m, longest q.1 (47 :: 42 :: rest) = some m → m ≤ 2 ∧ (m = 2 → q.2 = .openComment) := by
    intro q hq m h
    rcases slash_rules hq h with rfl | rfl | ⟨rfl, rfl⟩
    · obtain ⟨a, x, e, hl, hm⟩ := longest_split h
      obtain ⟨b', rfl, _⟩ := lineComment_iff.mp hm
      simp at e
    · exact ⟨by rw [(longest_lit h).1]; exact Nat.le_refl _, fun _ => rfl⟩
    · exact ⟨by omega, fun h => by omega⟩
  exact pick_initial (p := (lit [47, 42], .openComment)) (List.mem_append_left _ (by simp [headRules])) (longest_lit_self (k := [47, 42]))
    (fun q hq m h => (key q hq m h).1) fun q hq _ h => (key q hq _ h).2 rfl

/-! ## The other start conditions -/

theorem comment_cases {p : Re × Act} (hp : p ∈ rules .comment) {c : UInt8} {s : CStr} {m : Nat}
    (h : longest p.1 (c :: s) = some m) :
    (p = (lit [42, 47], .closeComment) ∧ c = 42 ∧ (∃ t, s = 47 :: t) ∧ m = 2) ∨ (p = (lit [10], .newline) ∧ c = 10 ∧ m = 1) ∨
    (p = (dot, .skip) ∧ c ≠ 10 ∧ m = 1) := by
  unfold rules at hp
  simp only [List.mem_cons, List.not_mem_nil, or_false] at hp
  rcases hp with rfl | rfl | rfl
  · obtain ⟨h1, t, h2⟩ := longest_lit h
    simp only [List.cons_append, List.nil_append, List.cons.injEq] at h2
    exact .inl ⟨rfl, h2.1.symm, ⟨t, h2.2.symm⟩, h1⟩
  · obtain ⟨h1, t, h2⟩ := longest_lit h
    simp only [List.cons_append, List.nil_append, List.cons.injEq] at h2
    exact .inr (.inl ⟨rfl, h2.1.symm, h1⟩)
  · obtain ⟨h1, h2⟩ := longest_cls h
    exact .inr (.inr ⟨rfl, by simpa using h2, h1⟩)

theorem pick_close {rest : CStr} : pick (rules .comment) (42 :: 47 :: rest) = some (2, .closeComment) := by
  have : rules .comment = [] ++ (lit [42, 47], .closeComment) :: [(lit [10], .newline), (dot, .skip)] := rfl
  rw [this]
  refine pick_eq (longest_lit_self (k := [42, 47])) (fun p hp => by cases hp) fun p hp m h => ?_
  have hp' : p ∈ rules .comment := by rw [this]; simp only [List.nil_append]; exact List.mem_cons_of_mem _ hp
  rcases comment_cases hp' h with ⟨_, _, _, rfl⟩ | ⟨_, _, rfl⟩ | ⟨_, _, rfl⟩ <;> decide

theorem pick_commentNewline {rest : CStr} : pick (rules .comment) (10 :: rest) = some (1, .newline) := by
  have : rules .comment = [(lit [42, 47], .closeComment)] ++ (lit [10], .newline) :: [(dot, .skip)] := rfl
  rw [this]
  refine pick_eq (longest_lit_self (k := [10])) (fun p hp m h => ?_) fun p hp m h => ?_
  · have hp' : p ∈ rules .comment := by rw [this]; exact List.mem_append_left _ hp
    rcases comment_cases hp' h with ⟨_, e, _⟩ | ⟨rfl, _, rfl⟩ | ⟨_, e, _⟩
    · exact absurd e (by decide)
    · simp at hp
    · exact absurd rfl e
  · have hp' : p ∈ rules .comment := by rw [this]; exact List.mem_append_right _ (List.mem_cons_of_mem _ hp)
    rcases comment_cases hp' h with ⟨_, e, _⟩ | ⟨_, _, rfl⟩ | ⟨_, e, _⟩
    · exact absurd e (by decide)
    · exact Nat.le_refl _
    · exact absurd rfl e

theorem pick_commentSkip {c : UInt8} {rest : CStr} (hc : c ≠ 10) (h : ¬ [42, 47] <+: c :: rest) :
    pick (rules .comment) (c :: rest) = some (1, .skip) := by
  have : rules .comment = [(lit [42, 47], .closeComment), (lit [10], .newline)] ++ (dot, .skip) :: [] := rfl
  rw [this]
  refine pick_eq (longest_cls_self (by simpa using hc)) (fun p hp m h' => ?_) fun p hp m h => by cases hp
  have hp' : p ∈ rules .comment := by rw [this]; exact List.mem_append_left _ hp
  rcases comment_cases hp' h' with ⟨_, rfl, ⟨t, rfl⟩, _⟩ | ⟨rfl, e, _⟩ | ⟨rfl, _⟩
  · exact absurd ⟨t, rfl⟩ h
  · exact absurd e hc
  · simp at hp

theorem longest_line (s : CStr) : longest (.star dot) s = some (s.takeWhile (· != 10)).length := by
  have e := (List.takeWhile_append_dropWhile (p := (· != (10 : UInt8))) (l := s)).symm
  have hd : NoStart (· != 10) (s.dropWhile (· != 10)) := by
    intro c cs h
    have := List.head?_dropWhile_not (· != (10 : UInt8)) s
    rw [h] at this
    simpa using this
  have := longest_eq (r := .star dot) (x := s.takeWhile (· != 10)) (y := s.dropWhile (· != 10))
    (starCls_iff.mpr fun c hc => List.all_eq_true.mp List.all_takeWhile c hc)
    fun a b e' h => le_of_class e' (starCls_iff.mp h) hd
  rwa [← e] at this

theorem pick_save {c : UInt8} {rest : CStr} (hc : c ≠ 10) :
    pick (rules .saveline) (c :: rest) = some (((c :: rest).takeWhile (· != 10)).length, .save) := by
  have : rules .saveline = [] ++ (.star dot, .save) :: [(lit [10], .saveNewline)] := rfl
  rw [this]
  refine pick_eq (longest_line _) (fun p hp => by cases hp) fun p hp m h => ?_
  simp only [List.mem_cons, List.not_mem_nil, or_false] at hp
  subst hp
  obtain ⟨_, t, h2⟩ := longest_lit h
  simp only [List.cons_append, List.nil_append, List.cons.injEq] at h2
  exact absurd h2.1.symm hc

theorem pick_saveNewline {rest : CStr} : pick (rules .saveline) (10 :: rest) = some (1, .saveNewline) := by
  have : rules .saveline = [(.star dot, .save)] ++ (lit [10], .saveNewline) :: [] := rfl
  rw [this]
  refine pick_eq (longest_lit_self (k := [10])) (fun p hp m h => ?_) fun p hp => by cases hp
  simp only [List.mem_cons, List.not_mem_nil, or_false] at hp
  subst hp
  rw [longest_line] at h
  simp at h
  omega

end Verif.Lex
