import Verif.Lemmas.Lex

/-! # Single matches of the scanner -/

namespace Verif.Lex
open Verif.Str (CStr)
open Verif.Spec.Text

/-- The text does not begin with such a character. -/
def NoStart (q : UInt8 → Bool) (s : CStr) : Prop := ∀ c cs, s = c :: cs → q c = false

theorem NoStart.mono {q r : UInt8 → Bool} {s : CStr} (h : NoStart q s) (k : ∀ c, r c = true → q c = true) : NoStart r s := by
  intro c cs e
  cases hr : r c with
  | false => rfl
  | true => rw [← k c hr]; exact (h c cs e) ▸ rfl

theorem le_of_class {q : UInt8 → Bool} {x y a b : CStr} (e : x ++ y = a ++ b) (ha : ∀ c ∈ a, q c = true) (hy : NoStart q y) :
    a.length ≤ x.length := by
  induction x generalizing a with
  | nil =>
    cases a with
    | nil => exact Nat.le_refl _
    | cons c a =>
      rw [List.nil_append, List.cons_append] at e
      have h1 := hy c _ e
      rw [ha c (by simp)] at h1; cases h1
  | cons d x ih =>
    cases a with
    | nil => exact Nat.zero_le _
    | cons c a =>
      simp only [List.cons_append, List.cons.injEq] at e
      exact Nat.succ_le_succ (ih e.2 fun c hc => ha c (by simp [hc]))

theorem longest_lit {k s : CStr} {m : Nat} (h : longest (lit k) s = some m) : m = k.length ∧ k <+: s := by
  obtain ⟨h1, h2, _⟩ := longest_some h
  rw [lit_iff] at h2
  refine ⟨?_, ?_⟩
  · rw [← h2, List.length_take]; omega
  · rw [← h2]; exact List.take_prefix _ _

theorem longest_lit_self {k s : CStr} : longest (lit k) (k ++ s) = some k.length :=
  longest_eq (lit_iff.mpr rfl) fun a b _ h => by rw [lit_iff.mp h]; exact Nat.le_refl _

theorem longest_cls {q : UInt8 → Bool} {c : UInt8} {s : CStr} {m : Nat} (h : longest (.cls q) (c :: s) = some m) :
    m = 1 ∧ q c = true := by
  obtain ⟨h1, h2, _⟩ := longest_some h
  rw [cls_iff] at h2
  obtain ⟨d, e, hd⟩ := h2
  have := congrArg List.length e
  rw [List.length_take] at this
  simp only [List.length_cons, List.length_nil] at this h1
  have hm : m = 1 := by omega
  subst hm
  simp only [List.take_succ_cons, List.take_zero, List.cons.injEq, and_true] at e
  exact ⟨rfl, e ▸ hd⟩

theorem longest_cls_self {q : UInt8 → Bool} {c : UInt8} {s : CStr} (h : q c = true) : longest (.cls q) (c :: s) = some 1 :=
  longest_eq (x := [c]) (.cls h) fun a b _ h => by
    rw [cls_iff] at h; obtain ⟨d, rfl, _⟩ := h; exact Nat.le_refl _

/-! ## The rules of the start condition `INITIAL` by first character -/

/-- What a match of a rule in `INITIAL` says about the text. -/
theorem rule_cases {p : Re × Act} (hp : p ∈ rules .initial) {c : UInt8} {s : CStr} {m : Nat}
    (h : longest p.1 (c :: s) = some m) :
    (p = (lineComment, .skip) ∧ c = 47) ∨ (p = (lit [47, 42], .openComment) ∧ c = 47) ∨
    (p = (lit [c], .sym c) ∧ c ∈ symbols ∧ m = 1) ∨
    (∃ k ∈ keywords, p = (lit k, .kw k) ∧ k <+: c :: s ∧ m = k.length) ∨
    (p = (lit [78, 85, 76, 76], .null) ∧ [78, 85, 76, 76] <+: c :: s ∧ m = 4) ∨
    (p = (ident, .ident) ∧ isLetter c = true) ∨ (p = (floatVal, .float) ∧ (c = 45 ∨ isDigit c = true)) ∨
    (p = (intVal, .int) ∧ c = 45) ∨ (p = (digits, .uint) ∧ isDigit c = true) ∨ (p = (strVal, .str) ∧ c = 34) ∨
    (p = (.cls isBlank, .skip) ∧ isBlank c = true ∧ m = 1) ∨ (p = (lit [10], .newline) ∧ c = 10 ∧ m = 1) ∨
    (p = (dot, .bad) ∧ c ≠ 10 ∧ m = 1) := by
  have key : ∀ q : UInt8 → Bool, (nullable p.1 = false) → (∀ d, first p.1 d = q d) → q c = true := by
    intro q hn hf
    cases hq : q c with
    | true => rfl
    | false => rw [longest_first hn (by rw [hf, hq])] at h; cases h
  unfold rules at hp
  simp only [List.mem_append, List.mem_map, List.mem_cons, List.not_mem_nil, or_false] at hp
  rcases hp with ((((rfl | rfl) | ⟨d, hd, rfl⟩) | ⟨k, hk, rfl⟩) | hp)
  · exact .inl ⟨rfl, by simpa using key (fun d => d == 47) rfl fun d => by simp [first, lineComment, lit, nullable]⟩
  · refine .inr (.inl ⟨rfl, by simpa using key (fun d => d == 47) rfl fun d => by simp [first, lit, nullable]⟩)
  · obtain ⟨h1, h2⟩ := longest_lit h
    obtain ⟨t, ht⟩ := h2
    simp only [List.cons_append, List.nil_append, List.cons.injEq] at ht
    obtain ⟨rfl, _⟩ := ht
    exact .inr (.inr (.inl ⟨rfl, hd, h1⟩))
  · obtain ⟨h1, h2⟩ := longest_lit h
    exact .inr (.inr (.inr (.inl ⟨k, hk, rfl, h2, h1⟩)))
  · rcases hp with rfl | rfl | rfl | rfl | rfl | rfl | rfl | rfl | rfl
    · obtain ⟨h1, h2⟩ := longest_lit h
      exact .inr (.inr (.inr (.inr (.inl ⟨rfl, h2, h1⟩))))
    · exact .inr (.inr (.inr (.inr (.inr (.inl ⟨rfl, key isLetter rfl fun d => by simp [first, ident, nullable]⟩)))))
    · refine .inr (.inr (.inr (.inr (.inr (.inr (.inl ⟨rfl, ?_⟩))))))
      have := key (fun d => d == 45 || isDigit d) rfl fun d => by simp [first, floatVal, digits, lit, nullable]
      simpa using this
    · refine .inr (.inr (.inr (.inr (.inr (.inr (.inr (.inl ⟨rfl, ?_⟩)))))))
      simpa using key (fun d => d == 45) rfl fun d => by simp [first, intVal, lit, nullable]
    · refine .inr (.inr (.inr (.inr (.inr (.inr (.inr (.inr (.inl ⟨rfl, ?_⟩))))))))
      exact key isDigit rfl fun d => by simp [first, digits, nullable]
    · refine .inr (.inr (.inr (.inr (.inr (.inr (.inr (.inr (.inr (.inl ⟨rfl, ?_⟩)))))))))
      simpa using key (fun d => d == 34) rfl fun d => by simp [first, strVal, lit, nullable]
    · obtain ⟨h1, h2⟩ := longest_cls h
      exact .inr (.inr (.inr (.inr (.inr (.inr (.inr (.inr (.inr (.inr (.inl ⟨rfl, h2, h1⟩))))))))))
    · obtain ⟨h1, h2⟩ := longest_lit h
      obtain ⟨t, ht⟩ := h2
      simp only [List.cons_append, List.nil_append, List.cons.injEq] at ht
      exact .inr (.inr (.inr (.inr (.inr (.inr (.inr (.inr (.inr (.inr (.inr (.inl ⟨rfl, ht.1.symm, h1⟩)))))))))))
    · obtain ⟨h1, h2⟩ := longest_cls h
      exact .inr (.inr (.inr (.inr (.inr (.inr (.inr (.inr (.inr (.inr (.inr (.inr ⟨rfl, by simpa using h2, h1⟩)))))))))))

/-- The first rules: comments, symbols and keywords. -/
def headRules : List (Re × Act) :=
  [(lineComment, .skip), (lit [47, 42], .openComment)] ++ symbols.map (fun c => (lit [c], .sym c)) ++
    keywords.map (fun k => (lit k, .kw k))

/-- The other rules but the last. -/
def tailRules : List (Re × Act) :=
  [(lit [78, 85, 76, 76], .null), (ident, .ident), (floatVal, .float), (intVal, .int), (digits, .uint), (strVal, .str),
    (.cls isBlank, .skip), (lit [10], .newline)]

theorem rules_split : rules .initial = (headRules ++ tailRules) ++ [(dot, .bad)] := rfl

theorem head_act {p : Re × Act} (h : p ∈ headRules) :
    p.2 = .skip ∨ p.2 = .openComment ∨ (∃ c, p.2 = .sym c) ∨ ∃ k, p.2 = .kw k := by
  unfold headRules at h
  simp only [List.mem_append, List.mem_map, List.mem_cons, List.not_mem_nil, or_false] at h
  rcases h with (((rfl | rfl) | ⟨d, hd, rfl⟩) | ⟨k, hk, rfl⟩)
  · exact .inl rfl
  · exact .inr (.inl rfl)
  · exact .inr (.inr (.inl ⟨_, rfl⟩))
  · exact .inr (.inr (.inr ⟨_, rfl⟩))

theorem not_bad {p : Re × Act} (h : p ∈ headRules ++ tailRules) : p.2 ≠ .bad := by
  rcases List.mem_append.mp h with h | h
  · rcases head_act h with e | e | ⟨_, e⟩ | ⟨_, e⟩ <;> rw [e] <;> simp
  · unfold tailRules at h
    simp only [List.mem_cons, List.not_mem_nil, or_false] at h
    rcases h with rfl | rfl | rfl | rfl | rfl | rfl | rfl | rfl <;> simp

theorem pick_some {rs : List (Re × Act)} {s : CStr} {p : Re × Act} {m : Nat} (hp : p ∈ rs) (h : longest p.1 s = some m) :
    ∃ n a, pick rs s = some (n, a) ∧ m ≤ n ∧ ∃ r, (r, a) ∈ rs ∧ longest r s = some n := by
  induction rs with
  | nil => cases hp
  | cons q rs ih =>
    obtain ⟨r, a⟩ := q
    unfold pick
    rcases List.mem_cons.mp hp with rfl | hp
    · simp only at h
      rw [h]
      cases e : pick rs s with
      | none => exact ⟨m, a, rfl, Nat.le_refl _, r, by simp, h⟩
      | some x =>
        obtain ⟨k, b⟩ := x
        simp only
        split
        · exact ⟨m, a, rfl, Nat.le_refl _, r, by simp, h⟩
        · rename_i hk
          have : ∀ rs : List (Re × Act), ∀ k b, pick rs s = some (k, b) → ∃ r, (r, b) ∈ rs ∧ longest r s = some k := by
            intro rs
            induction rs with
            | nil => intro k b e; cases e
            | cons q rs ih =>
              obtain ⟨r, a⟩ := q
              intro k b e
              unfold pick at e
              split at e
              · obtain ⟨r', h1, h2⟩ := ih k b e
                exact ⟨r', by simp [h1], h2⟩
              · rename_i n hn _
                injection e with e; injection e with e1 e2
                subst e1; subst e2
                exact ⟨r, by simp, hn⟩
              · rename_i n k' b' hn hk
                split at e
                · injection e with e; injection e with e1 e2
                  subst e1; subst e2
                  exact ⟨r, by simp, hn⟩
                · injection e with e; injection e with e1 e2
                  subst e1; subst e2
                  obtain ⟨r', h1, h2⟩ := ih _ _ hk
                  exact ⟨r', by simp [h1], h2⟩
          obtain ⟨r', h1, h2⟩ := this rs k b e
          exact ⟨k, b, rfl, by omega, r', by simp [h1], h2⟩
    · obtain ⟨n, b, e, h1, r', h2, h3⟩ := ih hp
      rw [e]
      cases e' : longest r s with
      | none => exact ⟨n, b, rfl, h1, r', by simp [h2], h3⟩
      | some k =>
        simp only
        split
        · exact ⟨k, a, rfl, by omega, r, by simp, e'⟩
        · exact ⟨n, b, rfl, h1, r', by simp [h2], h3⟩

theorem pick_append {A B : List (Re × Act)} {s : CStr} {n : Nat} {a : Act} (h : pick A s = some (n, a))
    (hB : ∀ p ∈ B, ∀ m, longest p.1 s = some m → m ≤ n) : pick (A ++ B) s = some (n, a) := by
  induction A generalizing n a with
  | nil => cases h
  | cons q A ih =>
    obtain ⟨r, b⟩ := q
    rw [List.cons_append]
    unfold pick at h ⊢
    cases e : longest r s with
    | none =>
      rw [e] at h
      simp only at h ⊢
      exact ih h hB
    | some k =>
      rw [e] at h
      cases e' : pick A s with
      | none =>
        rw [e'] at h
        simp only [Option.some.injEq, Prod.mk.injEq] at h
        obtain ⟨rfl, rfl⟩ := h
        cases e2 : pick (A ++ B) s with
        | none => rfl
        | some x =>
          obtain ⟨j, c⟩ := x
          have : j ≤ k := by
            refine pick_le (n := k) (rs := A ++ B) (fun p hp m hm => ?_) _ e2
            rcases List.mem_append.mp hp with hp | hp
            · obtain ⟨_, _, e3, _⟩ := pick_some hp hm
              rw [e'] at e3; cases e3
            · exact hB p hp m hm
          simp only [if_pos this]
      | some x =>
        obtain ⟨j, c⟩ := x
        rw [e'] at h
        simp only at h
        split at h
        · rename_i hj
          simp only [Option.some.injEq, Prod.mk.injEq] at h
          obtain ⟨rfl, rfl⟩ := h
          cases e2 : pick (A ++ B) s with
          | none => rfl
          | some x =>
            obtain ⟨i, d⟩ := x
            have : i ≤ k := by
              refine pick_le (n := k) (rs := A ++ B) (fun p hp m hm => ?_) _ e2
              rcases List.mem_append.mp hp with hp | hp
              · obtain ⟨n', a', e3, h3, _⟩ := pick_some hp hm
                rw [e'] at e3
                simp only [Option.some.injEq, Prod.mk.injEq] at e3
                omega
              · exact hB p hp m hm
            simp only [if_pos this]
        · rename_i hj
          simp only [Option.some.injEq, Prod.mk.injEq] at h
          obtain ⟨rfl, rfl⟩ := h
          rw [ih e' hB]
          simp only [if_neg hj]

theorem pick_unique {A B : List (Re × Act)} {s : CStr} {n : Nat} {a : Act} {p : Re × Act} (hp : p ∈ A)
    (h : longest p.1 s = some n) (hle : ∀ q ∈ A ++ B, ∀ m, longest q.1 s = some m → m ≤ n)
    (ha : ∀ q ∈ A, longest q.1 s = some n → q.2 = a) : pick (A ++ B) s = some (n, a) := by
  obtain ⟨k, b, e, h1, r, h2, h3⟩ := pick_some hp h
  have h4 := hle (r, b) (List.mem_append_left _ h2) k h3
  have : k = n := by omega
  subst this
  have := ha (r, b) h2 h3
  simp only at this
  subst this
  exact pick_append e fun q hq m hm => hle q (List.mem_append_right _ hq) m hm

/-- All rules but the last: the action is that of every longest match. -/
theorem pick_initial {s : CStr} {n : Nat} {a : Act} {p : Re × Act} (hp : p ∈ headRules ++ tailRules)
    (h : longest p.1 s = some n) (hle : ∀ q ∈ rules .initial, ∀ m, longest q.1 s = some m → m ≤ n)
    (ha : ∀ q ∈ rules .initial, q.2 ≠ .bad → longest q.1 s = some n → q.2 = a) : pick (rules .initial) s = some (n, a) := by
  rw [rules_split] at hle ha ⊢
  exact pick_unique hp h hle fun q hq e => ha q (List.mem_append_left _ hq) (not_bad hq) e

/-! ## Words -/

theorem letter_facts {c : UInt8} (h : isLetter c = true) :
    c ≠ 47 ∧ c ∉ symbols ∧ c ≠ 45 ∧ isDigit c = false ∧ c ≠ 34 ∧ isBlank c = false ∧ c ≠ 10 ∧ isWord c = true := by
  have key : ∀ c : Fin 256, isLetter (UInt8.ofNat c) = true → UInt8.ofNat c ≠ 47 ∧ UInt8.ofNat c ∉ symbols ∧ UInt8.ofNat c ≠ 45 ∧
      isDigit (UInt8.ofNat c) = false ∧ UInt8.ofNat c ≠ 34 ∧ isBlank (UInt8.ofNat c) = false ∧ UInt8.ofNat c ≠ 10 ∧
      isWord (UInt8.ofNat c) = true := by decide +kernel
  have := key ⟨c.toNat, c.toNat_lt⟩
  simp only [UInt8.ofNat_toNat] at this
  exact this h

theorem keywords_word : ∀ k ∈ keywords, k = [45, 62] ∨ ∃ c cs, k = c :: cs ∧ isLetter c = true ∧ ∀ d ∈ k, isWord d = true := by
  have : keywords.all (fun k => k == [45, 62] || (k.head?.any isLetter && k.all isWord)) = true := by decide +kernel
  intro k hk
  have := List.all_eq_true.mp this k hk
  simp only [Bool.or_eq_true, beq_iff_eq, Bool.and_eq_true, List.all_eq_true] at this
  rcases this with h | ⟨h1, h2⟩
  · exact .inl h
  · cases k with
    | nil => simp at h1
    | cons c cs => exact .inr ⟨c, cs, rfl, by simpa using h1, h2⟩

/-- A literal that is a word and matches at a word is not longer. -/
theorem lit_word {k w rest : CStr} (hk : ∀ d ∈ k, isWord d = true) (hr : NoStart isWord rest) (h : k <+: w ++ rest) :
    k.length ≤ w.length ∧ (k.length = w.length → k = w) := by
  obtain ⟨t, ht⟩ := h
  have h1 := le_of_class ht.symm hk hr
  refine ⟨h1, fun e => ?_⟩
  exact (List.append_inj ht e).1

theorem word_le {c : UInt8} {cs rest : CStr} (hc : isLetter c = true) (hr : NoStart isWord rest) :
    ∀ q ∈ rules .initial, ∀ m, longest q.1 (c :: cs ++ rest) = some m → m ≤ (c :: cs).length ∧
      (q.2 = .ident ∨ q.2 = .bad ∨ (q.2 = .null ∧ m = 4 ∧ (4 = (c :: cs).length → c :: cs = [78, 85, 76, 76])) ∨
        ∃ k ∈ keywords, q.2 = .kw k ∧ m = k.length ∧ (k.length = (c :: cs).length → k = c :: cs)) := by
  intro q hq m h
  have hl := letter_facts hc
  rcases rule_cases hq h with ⟨rfl, e⟩ | ⟨rfl, e⟩ | ⟨rfl, e, _⟩ | ⟨k, hk, rfl, hp, rfl⟩ | ⟨rfl, hp, rfl⟩ | ⟨rfl, _⟩ | ⟨rfl, e⟩ | ⟨rfl, e⟩ |
    ⟨rfl, e⟩ | ⟨rfl, e⟩ | ⟨rfl, e, _⟩ | ⟨rfl, e, _⟩ | ⟨rfl, _, rfl⟩
  · exact absurd e hl.1
  · exact absurd e hl.1
  · exact absurd e hl.2.1
  · rcases keywords_word k hk with rfl | ⟨d, ds, e, _, hw⟩
    · obtain ⟨t, ht⟩ := hp
      simp only [List.cons_append, List.cons.injEq] at ht
      exact absurd ht.1.symm hl.2.2.1
    · have := lit_word (w := c :: cs) hw hr hp
      exact ⟨this.1, .inr (.inr (.inr ⟨k, hk, rfl, rfl, this.2⟩))⟩
  · have := lit_word (w := c :: cs) (k := [78, 85, 76, 76]) (by decide) hr hp
    exact ⟨this.1, .inr (.inr (.inl ⟨rfl, rfl, fun e => (this.2 e).symm⟩))⟩
  · refine ⟨?_, .inl rfl⟩
    obtain ⟨_, h2, _⟩ := longest_some h
    obtain ⟨d, ds, e, hd, hds⟩ := ident_iff.mp h2
    have hlen : (List.take m (c :: cs ++ rest)).length ≤ (c :: cs).length := by
      refine le_of_class (List.take_append_drop m (c :: cs ++ rest)).symm (q := isWord) ?_ hr
      rw [e]
      intro x hx
      rcases List.mem_cons.mp hx with rfl | hx
      · exact (letter_facts hd).2.2.2.2.2.2.2
      · exact hds x hx
    rw [List.length_take] at hlen
    have := (longest_some h).1
    omega
  · rcases e with e | e
    · exact absurd e hl.2.2.1
    · rw [hl.2.2.2.1] at e; cases e
  · exact absurd e hl.2.2.1
  · rw [hl.2.2.2.1] at e; cases e
  · exact absurd e hl.2.2.2.2.1
  · rw [hl.2.2.2.2.2.1] at e; cases e
  · exact absurd e hl.2.2.2.2.2.2.1
  · exact ⟨by simp, .inr (.inl rfl)⟩

theorem longest_ident {c : UInt8} {cs rest : CStr} (hc : isLetter c = true) (hcs : ∀ d ∈ cs, isWord d = true)
    (hr : NoStart isWord rest) : longest ident (c :: cs ++ rest) = some (c :: cs).length := by
  refine longest_eq (ident_iff.mpr ⟨c, cs, rfl, hc, hcs⟩) fun a b e h => ?_
  obtain ⟨d, ds, e', hd, hds⟩ := ident_iff.mp h
  refine le_of_class e (q := isWord) ?_ hr
  rw [e']
  intro x hx
  rcases List.mem_cons.mp hx with rfl | hx
  · exact (letter_facts hd).2.2.2.2.2.2.2
  · exact hds x hx

theorem pick_keyword {c : UInt8} {cs rest : CStr} (hc : isLetter c = true) (hr : NoStart isWord rest) (hk : c :: cs ∈ keywords) :
    pick (rules .initial) (c :: cs ++ rest) = some ((c :: cs).length, .kw (c :: cs)) := by
  have hle := word_le (cs := cs) hc hr
  rw [rules_split, List.append_assoc] at hle ⊢
  refine pick_unique (p := (lit (c :: cs), .kw (c :: cs))) ?_ longest_lit_self (fun q hq m h => (hle q hq m h).1) fun q hq h => ?_
  · unfold headRules
    simp only [List.mem_append, List.mem_map]
    exact .inr ⟨_, hk, rfl⟩
  · rcases (hle q (List.mem_append_left _ hq) _ h).2 with e | e | ⟨e, _⟩ | ⟨k, _, e, hm, hk⟩
    · rcases head_act hq with h | h | ⟨_, h⟩ | ⟨_, h⟩ <;> rw [h] at e <;> cases e
    · rcases head_act hq with h | h | ⟨_, h⟩ | ⟨_, h⟩ <;> rw [h] at e <;> cases e
    · rcases head_act hq with h | h | ⟨_, h⟩ | ⟨_, h⟩ <;> rw [h] at e <;> cases e
    · rw [e, hk hm.symm]

theorem pick_null {rest : CStr} (hr : NoStart isWord rest) :
    pick (rules .initial) ([78, 85, 76, 76] ++ rest) = some (4, .null) := by
  have hle := word_le (c := 78) (cs := [85, 76, 76]) (by decide) hr
  have hs : rules .initial = (headRules ++ [(lit [78, 85, 76, 76], .null)]) ++ (tailRules.tail ++ [(dot, .bad)]) := rfl
  rw [hs] at hle ⊢
  refine pick_unique (p := (lit [78, 85, 76, 76], .null)) (by simp) longest_lit_self (fun q hq m h => (hle q hq m h).1) fun q hq h => ?_
  rcases List.mem_append.mp hq with hq' | hq'
  · rcases (hle q (List.mem_append_left _ hq) _ h).2 with e | e | ⟨e, _⟩ | ⟨k, hk, e, hm, hk'⟩
    · rcases head_act hq' with h | h | ⟨_, h⟩ | ⟨_, h⟩ <;> rw [h] at e <;> cases e
    · rcases head_act hq' with h | h | ⟨_, h⟩ | ⟨_, h⟩ <;> rw [h] at e <;> cases e
    · exact e
    · have := hk' hm.symm
      rw [this] at hk
      exact absurd hk (by decide +kernel)
  · rcases List.mem_cons.mp hq' with rfl | h
    · rfl
    · cases h

theorem pick_ident {c : UInt8} {cs rest : CStr} (hc : isLetter c = true) (hcs : ∀ d ∈ cs, isWord d = true)
    (hr : NoStart isWord rest) (hk : c :: cs ∉ keywords) (hn : c :: cs ≠ [78, 85, 76, 76]) :
    pick (rules .initial) (c :: cs ++ rest) = some ((c :: cs).length, .ident) := by
  have hle := word_le (cs := cs) hc hr
  refine pick_initial (p := (ident, .ident)) ?_ (longest_ident hc hcs hr) (fun q hq m h => (hle q hq m h).1) fun q hq hb h => ?_
  · exact List.mem_append_right _ (by simp [tailRules])
  · rcases (hle q hq _ h).2 with e | e | ⟨e, h4, h5⟩ | ⟨k, hk', e, hm, h6⟩
    · exact e
    · exact absurd e hb
    · exact absurd (h5 h4.symm) hn
    · exact absurd (h6 hm.symm ▸ hk') hk

end Verif.Lex
