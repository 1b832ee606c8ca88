import Verif.Lemmas.ScanRun
import Verif.Lemmas.TargetsParse
import Verif.Spec.FileNames

/-!
# Lemmas about the names of a description that is read from a file

While the values of an enumeration are read, the scanner takes every word for a name.  `Sane` says when it may do so.
-/

namespace Verif.FileNames
open Verif.Str (CStr)
open Verif.Parse
open Verif.Lex (Token Tok bytes scan step act token_action after lex init isLetter isWord)
open Verif.Spec.FileNames

/-- Terminal symbols that are words of the language, except those in no production. -/
def wordT : T → Bool
  | .lpar | .rpar | .lbrack | .rbrack | .lbrace | .rbrace | .comma | .eq | .semi | .bar | .amp | .minus | .dot | .arrow
  | .id _ | .str _ | .other => false
  | _ => true

/-- Words are known to be words after the symbol. -/
def onB (b c : Bool) (t : T) : Bool :=
  match t with
  | .lbrace => b && c
  | .rbrace => true
  | t => b || wordT t

/-- The next `{` is known not to begin values after the symbol. -/
def outC (b c : Bool) (t : T) : Bool :=
  match t with
  | .lbrace => true
  | .values => false
  | .id _ => b && c
  | _ => c

/-- The names of symbols are fine: `b` if words are known to be words, `c` if the next `{` is known not to begin values. -/
def Sane : Bool → Bool → List T → Prop
  | _, _, [] => True
  | b, c, t :: r => (match t with
    | .id n => Value n ∧ (b = true → Good n)
    | _ => True) ∧ Sane (onB b c t) (outC b c t) r

theorem onB_mono {b c b' c' : Bool} (hb : b' = true → b = true) (hc : c' = true → c = true) (t : T) :
    onB b' c' t = true → onB b c t = true := by
  cases t <;> simp_all [onB, wordT]

theorem outC_mono {b c b' c' : Bool} (hb : b' = true → b = true) (hc : c' = true → c = true) (t : T) :
    outC b' c' t = true → outC b c t = true := by
  cases t <;> simp_all [outC]

theorem Sane.mono {ts : List T} : ∀ {b c b' c' : Bool}, (b' = true → b = true) → (c' = true → c = true) → Sane b c ts → Sane b' c' ts := by
  induction ts with
  | nil => intros; trivial
  | cons t r ih =>
    intro b c b' c' hb hc h
    refine ⟨?_, ih (onB_mono hb hc t) (outC_mono hb hc t) h.2⟩
    have := h.1
    cases t <;> first | trivial | exact ⟨this.1, fun hb' => this.2 (hb hb')⟩

theorem Sane.weak {b c : Bool} {ts : List T} (h : Sane true true ts) : Sane b c ts := h.mono (fun _ => rfl) (fun _ => rfl)

/-! ### The scanner -/

theorem isLetter_eq : Verif.Lex.isLetter = Spec.Text.isLetter := rfl

theorem ident_of_match {w : CStr} (h : Lex.Matches Lex.ident w) : Spec.TableText.Ident w := by
  obtain ⟨c, cs, rfl, h1, h2⟩ := Lex.ident_iff.1 h
  have hw : ∀ d, isWord d = true → Spec.Templates.inWord d = true := by
    intro d
    revert d
    exact Lex.byte_all (by decide +kernel)
  refine ⟨⟨c, cs, rfl, h1⟩, fun d hd => ?_⟩
  rcases List.mem_cons.1 hd with rfl | hd
  · exact hw _ (by simp [isWord, h1])
  · exact hw _ (h2 d hd)

theorem cut_self : ∀ {w : CStr}, 0 ∉ w → Lex.cut w = w
  | [], _ => rfl
  | c :: r, h => by
    have h1 : (c != 0) = true := by
      simp only [bne_iff_ne, ne_eq]
      rintro rfl
      exact h (by simp)
    have := cut_self (w := r) fun hm => h (List.mem_cons_of_mem _ hm)
    unfold Lex.cut at this ⊢
    rw [List.takeWhile_cons, h1]
    exact congrArg (c :: ·) this

theorem cut_ident {w : CStr} (h : Spec.TableText.Ident w) : Lex.cut w = w := by
  have h0 : Spec.Templates.inWord 0 = false := by decide
  refine cut_self fun hm => ?_
  have := h.2 0 hm
  rw [h0] at this
  cases this

/-- What the words of the language are as names and as symbols. -/
theorem word_facts {k : CStr} (hk : k ∈ Lex.keywords) : (Spec.TableText.Ident k ∨ k = b!"->") ∧ Lex.cut k = k ∧
    (∀ n, (keywordTable.lookup k).getD .other ≠ .id n) ∧ (keywordTable.lookup k).getD .other ≠ .lbrace ∧
    (keywordTable.lookup k).getD .other ≠ .rbrace ∧ (k = bytes "values" → (keywordTable.lookup k).getD .other = .values) := by
  have h1 : ∀ k ∈ Lex.keywords, (match (keywordTable.lookup k).getD .other with
      | .id _ | .lbrace | .rbrace => false
      | _ => true) = true ∧ (k = bytes "values" → (keywordTable.lookup k).getD .other = .values) := by decide +kernel
  have h2 : Spec.TableText.Ident k ∨ k = b!"->" := by
    rcases Lex.keywords_word k hk with rfl | ⟨c, cs, rfl, h3, h4⟩
    · exact Or.inr rfl
    · exact Or.inl (ident_of_match (Lex.ident_iff.2 ⟨c, cs, rfl, h3, fun d hd => h4 d (List.mem_cons_of_mem _ hd)⟩))
  have h3 := h1 k hk
  refine ⟨h2, ?_, ?_, ?_, ?_, h3.2⟩
  · rcases h2 with h2 | rfl
    · exact cut_ident h2
    · decide
  · intro n e
    rw [e] at h3
    cases h3.1
  · intro e
    rw [e] at h3
    cases h3.1
  · intro e
    rw [e] at h3
    cases h3.1

/-- What the signs are as symbols. -/
theorem sign_facts (c : UInt8) : (match (symbolTable.lookup c).getD .other with
      | .id _ | .values => false
      | .lbrace => c == 123
      | .rbrace => c == 125
      | t => !wordT t) = true := by
  revert c
  exact Lex.byte_all (by decide +kernel)

/-- What a symbol says of the state of the scanner behind it. -/
structure Fits (s s' : Lex.St) (t : T) : Prop where
  name : ∀ n, t = .id n → Value n ∧ (s.keywords = true → Good n)
  words : ∀ b c, (b = true → s.keywords = true) → (c = true → s.inValues = false) → onB b c t = true → s'.keywords = true
  outside : ∀ b c, (b = true → s.keywords = true) → (c = true → s.inValues = false) → outC b c t = true → s'.inValues = false

theorem ckeyword_iff : ∀ w, Spec.TableText.Ident w → w ∈ Spec.Templates.keywords → w ∈ Lex.cKeywords := by
  intro w hw hk
  have : ∀ k ∈ Spec.Templates.keywords, k ∈ Lex.cKeywords ∨ k.head? = some 95 := by decide +kernel
  rcases this w hk with h | h
  · exact h
  · obtain ⟨⟨c, r, rfl, hc⟩, _⟩ := hw
    simp only [List.head?_cons, Option.some.injEq] at h
    subst h
    exact absurd hc (by decide)

/-- A match that leaves the state and gives a symbol that is no brace and no word. -/
theorem fits_same {s s' : Lex.St} {t : T} (h1 : s'.keywords = s.keywords) (h2 : s'.inValues = s.inValues)
    (hn : ∀ n, t = .id n → Value n ∧ (s.keywords = true → Good n)) (hl : t ≠ .lbrace) (hr : t ≠ .rbrace) (hw : wordT t = true → s.keywords = true)
    : Fits s s' t := by
  refine ⟨hn, fun b c hb _ h => ?_, fun b c hb hc h => ?_⟩
  · rw [h1]
    have : onB b c t = (b || wordT t) := by cases t <;> first | rfl | exact absurd rfl hl | exact absurd rfl hr
    rw [this, Bool.or_eq_true] at h
    exact h.elim hb hw
  · rw [h2]
    have : outC b c t = true → c = true := by
      cases t <;> first | exact absurd rfl hl | exact (fun h => h) | exact (fun h => by cases h) | exact (fun h => (Bool.and_eq_true _ _ ▸ h).2)
    exact hc (this h)

/-- What a match leaves. -/
def Gave (s s' : Lex.St) : Option Token → Prop
  | none => s'.keywords = s.keywords ∧ s'.inValues = s.inValues
  | some u => Fits s s' (term u)

theorem rule_facts {st : Lex.Start} {r : Lex.Re} {a : Lex.Act} (h : (r, a) ∈ Lex.rules st) :
    (a = .ident → r = Lex.ident) ∧ (∀ k, a = .kw k → k ∈ Lex.keywords) := by
  cases st with
  | saveline => simp [Lex.rules] at h; rcases h with ⟨rfl, rfl⟩ | ⟨rfl, rfl⟩ <;> simp
  | comment => simp [Lex.rules] at h; rcases h with ⟨rfl, rfl⟩ | ⟨rfl, rfl⟩ | ⟨rfl, rfl⟩ <;> simp
  | initial =>
    simp only [Lex.rules, List.mem_append, List.mem_map, List.mem_cons, List.not_mem_nil, or_false, Prod.mk.injEq] at h
    rcases h with ((h | ⟨c, _, rfl, rfl⟩) | ⟨k, hk, rfl, rfl⟩) | h
    · rcases h with ⟨rfl, rfl⟩ | ⟨rfl, rfl⟩ <;> simp
    · simp
    · refine ⟨(fun e => by cases e), fun k' e => ?_⟩
      cases e
      exact hk
    · rcases h with ⟨rfl, rfl⟩ | ⟨rfl, rfl⟩ | ⟨rfl, rfl⟩ | ⟨rfl, rfl⟩ | ⟨rfl, rfl⟩ | ⟨rfl, rfl⟩ | ⟨rfl, rfl⟩ | ⟨rfl, rfl⟩ | ⟨rfl, rfl⟩ <;> simp

/-- A symbol that is no name, no brace and no word. -/
theorem fits_plain {s s' : Lex.St} {t : T} (h1 : s'.keywords = s.keywords) (h2 : s'.inValues = s.inValues)
    (h : (match t with | .id _ | .lbrace | .rbrace => false | t => !wordT t) = true) : Fits s s' t := by
  refine fits_same h1 h2 ?_ ?_ ?_ ?_
  · rintro n rfl; cases h
  · rintro rfl; cases h
  · rintro rfl; cases h
  · intro hw
    cases t <;> first | exact absurd hw Bool.false_ne_true | exact absurd h Bool.false_ne_true

theorem act_fits {s q s' : Lex.St} {x : CStr} {a : Lex.Act} {t : Option Token} {st : Lex.Start} {r : Lex.Re} (hr : (r, a) ∈ Lex.rules st)
    (hm : Lex.Matches r x) (hk : q.keywords = s.keywords ∧ q.inValues = s.inValues) (h : act q x a = .ok (s', t)) : Gave s s' t := by
  obtain ⟨f1, f2⟩ := rule_facts hr
  cases a with
  | save =>
    simp only [act] at h
    split at h
    · cases h
    · cases h; exact hk
  | saveNewline => cases h; exact hk
  | skip => cases h; exact hk
  | openComment => cases h; exact hk
  | closeComment => cases h; exact hk
  | newline => cases h; exact hk
  | bad => cases h
  | null => cases h; exact fits_plain hk.1 hk.2 rfl
  | float => cases h; exact fits_plain hk.1 hk.2 rfl
  | int => cases h; exact fits_plain hk.1 hk.2 rfl
  | uint => cases h; exact fits_plain hk.1 hk.2 rfl
  | str => cases h; exact fits_plain hk.1 hk.2 rfl
  | ident =>
    have hi := ident_of_match (f1 rfl ▸ hm)
    simp only [act] at h
    split at h
    · cases h
    · rename_i hc
      cases h
      refine fits_same hk.1 hk.2 ?_ (fun e => by cases e) (fun e => by cases e) (fun e => by cases e)
      intro n e
      injection e with e
      subst e
      refine ⟨Or.inl (by show Spec.TableText.Ident (Lex.cut x); rw [cut_ident hi]; exact hi), fun hw => ?_⟩
      refine ⟨by show Spec.TableText.Ident (Lex.cut x); rw [cut_ident hi]; exact hi, fun hm => ?_⟩
      rw [show (nameOf _ (Lex.cut x)).orig = Lex.cut x from rfl, cut_ident hi] at hm
      have := ckeyword_iff x hi hm
      rw [Lex.isCKeyword, hk.1, hw, Bool.true_and] at hc
      simp only [List.contains_eq_mem, decide_eq_false_iff_not] at hc
      exact hc this
  | kw k =>
    obtain ⟨w1, w2, w3, w4, w5, w6⟩ := word_facts (f2 k rfl)
    have main : ∀ s'', s''.keywords = q.keywords → (s''.inValues = q.inValues ∨ k = bytes "values") →
        ∀ u, Lex.token q x (Lex.lexKeyword q k) = some u → Fits s s'' (term u) := by
      intro s'' e1 e2 u hu
      cases hu
      unfold Lex.lexKeyword
      split
      · rename_i hw
        rw [hk.1] at hw
        refine ⟨fun n e => absurd e (w3 n), fun b c hb hc h => by rw [e1, hk.1, hw], fun b c hb hc h => ?_⟩
        rcases e2 with e2 | e2
        · rw [e2, hk.2]
          have : outC b c ((keywordTable.lookup k).getD .other) = true → c = true := by
            generalize (keywordTable.lookup k).getD .other = t at w3 w4 w5
            cases t <;> first | exact absurd rfl w4 | exact (fun h => h) | exact (fun h => by cases h) | exact absurd rfl (w3 _)
          exact hc (this h)
        · have h' : outC b c ((keywordTable.lookup k).getD .other) = true := h
          rw [w6 e2] at h'
          cases h'
      · rename_i hw
        rw [hk.1] at hw
        refine ⟨fun n e => ?_, fun b c hb hc h => ?_, fun b c hb hc h => ?_⟩
        · injection e with e
          subst e
          refine ⟨?_, fun hw' => by rw [hw] at hw'; cases hw'⟩
          show Spec.TableText.Ident (Lex.cut k) ∨ Lex.cut k = _
          rw [w2]
          exact w1
        · have : (b || false) = true := h
          rw [Bool.or_false] at this
          rw [e1, hk.1]
          exact hb this
        · have : (b && c) = true := h
          rw [Bool.and_eq_true] at this
          have := hb this.1
          rw [hw] at this
          cases this
    simp only [act] at h
    split at h <;> cases h
    · exact main { q with inEnum := true } rfl (Or.inl rfl) _ rfl
    · rename_i he _
      exact main { q with inValues := true } rfl (Or.inr (of_decide_eq_true he)) _ rfl
    · exact main _ rfl (Or.inl rfl) _ rfl
  | sym c =>
    have hs := sign_facts c
    have main : ∀ s'', (c ≠ 123 → c ≠ 125 → s''.keywords = q.keywords ∧ s''.inValues = q.inValues) →
        (c = 123 → s''.inValues = false ∧ (q.inValues = false → s''.keywords = q.keywords)) →
        (c = 125 → s''.keywords = true ∧ s''.inValues = q.inValues) → Fits s s'' ((symbolTable.lookup c).getD .other) := by
      intro s'' g1 g2 g3
      by_cases c1 : c = 123
      · subst c1
        refine ⟨(fun n e => by cases e), fun b c hb hc h => ?_, fun b c hb hc h => (g2 rfl).1⟩
        have : (b && c) = true := h
        rw [Bool.and_eq_true] at this
        rw [(g2 rfl).2 (by rw [hk.2]; exact hc this.2), hk.1]
        exact hb this.1
      · by_cases c2 : c = 125
        · subst c2
          refine ⟨(fun n e => by cases e), fun b c hb hc h => (g3 rfl).1, fun b c hb hc h => ?_⟩
          rw [(g3 rfl).2, hk.2]
          exact hc h
        · obtain ⟨e1, e2⟩ := g1 c1 c2
          refine fits_plain (by rw [e1, hk.1]) (by rw [e2, hk.2]) ?_
          generalize (symbolTable.lookup c).getD .other = t at hs ⊢
          cases t <;> first | exact hs | exact absurd (eq_of_beq hs) c1 | exact absurd (eq_of_beq hs) c2 | cases hs
    simp only [act] at h
    split at h <;> cases h
    · rename_i e1 e2
      have e1 := of_decide_eq_true e1
      exact main { q with keywords := false, inValues := false, inEnum := false } (fun h => absurd e1 h)
        (fun _ => ⟨rfl, (fun h => by simp_all)⟩) (fun h => by rw [e1] at h; cases h)
    · rename_i e1 e2
      have e1 := of_decide_eq_false e1
      exact main { q with keywords := true } (fun _ h => absurd (of_decide_eq_true e2) h) (fun h => absurd h e1) (fun _ => ⟨rfl, rfl⟩)
    · rename_i e1 e2
      refine main q (fun _ _ => ⟨rfl, rfl⟩) (fun h => ⟨?_, fun _ => rfl⟩) (fun h => ?_)
      · cases hv : q.inValues with
        | false => rfl
        | true => exact (e2 (decide_eq_true h) hv).elim
      · exact (e1 (decide_eq_false (by rw [h]; decide)) (decide_eq_true h)).elim

theorem step_fits {s s' : Lex.St} {t : Option Token} (h : step s = .ok (s', t)) : Gave s s' t := by
  unfold step at h
  split at h
  · cases h
    exact ⟨rfl, rfl⟩
  · rename_i n a hp
    obtain ⟨r, hr, hlong⟩ := Lex.pick_src hp
    have hk : (token_action (after s n) n).keywords = s.keywords ∧ (token_action (after s n) n).inValues = s.inValues := by
      unfold token_action
      split <;> exact ⟨rfl, rfl⟩
    exact act_fits hr (Lex.longest_some hlong).2.1 hk h

/-- The scanner gives names that are fine. -/
theorem scan_sane {fuel : Nat} : ∀ {s s' : Lex.St} {ts : List Token}, scan fuel s = .ok (ts, s') → ∀ {b c : Bool},
    (b = true → s.keywords = true) → (c = true → s.inValues = false) → Sane b c (ts.map term) := by
  induction fuel with
  | zero => intro s s' ts h; cases h
  | succ fuel ih =>
    intro s s' ts h b c hb hc
    unfold scan at h
    split at h
    · cases h
      trivial
    · obtain ⟨⟨s1, t⟩, h1, h⟩ := Res.bind_eq_ok.1 h
      obtain ⟨⟨us, s2⟩, h2, h⟩ := Res.bind_eq_ok.1 h
      cases h
      have hf := step_fits h1
      cases t with
      | none => exact ih h2 (fun h => by rw [hf.1]; exact hb h) (fun h => by rw [hf.2]; exact hc h)
      | some u =>
        refine ⟨?_, ih h2 (hf.words b c hb hc) (hf.outside b c hb hc)⟩
        split
        · rename_i n e
          exact ⟨(hf.name n e).1, fun h => (hf.name n e).2 (hb h)⟩
        · trivial

theorem lex_sane {input : CStr} {ts : List Token} {lines : List (Nat × CStr)} (h : lex input = .ok (ts, lines)) : Sane true true (ts.map term) := by
  unfold lex at h
  obtain ⟨⟨us, s⟩, h1, h⟩ := Res.bind_eq_ok.1 h
  cases h
  exact scan_sane h1 (fun _ => rfl) (fun _ => rfl)

/-! ### The parser -/

/-- Taking symbols off. -/
macro "peel" h:ident : tactic => `(tactic| simp only [Sane, onB, outC, wordT, Bool.and_true, Bool.true_and, Bool.and_false, Bool.false_and,
  Bool.true_or, Bool.or_true, Bool.or_false, Bool.false_or, Bool.or_self, Bool.and_self, true_and, forall_const, true_implies] at $h:ident)

variable {ts r : List T} {b c : Bool}

theorem info_sane {i : CStr} (h : Info ts i r) (hs : Sane b true ts) : Sane true true r := by
  cases h; peel hs; exact hs

theorem uid_sane {n : Name} (h : Uid ts n r) (hs : Sane b true ts) : Good n ∧ Sane true true r := by
  cases h; peel hs; exact ⟨hs.1.2, hs.2⟩

theorem func_sane {n : Name} (h : Func ts n r) (hs : Sane b true ts) : Good n ∧ Sane true true r := by
  cases h; peel hs; exact ⟨hs.1.2, hs.2⟩

theorem prefix_sane {n : Name} (h : Prefix ts n r) (hs : Sane b true ts) : Good n ∧ Sane true true r := by
  cases h; peel hs; exact ⟨hs.1.2, hs.2⟩

theorem gate_sane {g : Option Name} (h : Gate ts g r) (hs : Sane b true ts) : (∀ n ∈ g, Good n) ∧ Sane b true r := by
  cases h with
  | empty => exact ⟨(fun n hn => by cases hn), hs⟩
  | mk n =>
    peel hs
    exact ⟨(fun m hm => by cases hm; exact hs.1.2), hs.2.weak⟩

theorem idList_sane {ns : List Name} (h : IdList ts ns r) : ∀ {c : Bool}, Sane b c ts → (∀ n ∈ ns, Value n) ∧ Sane b (b && c) r := by
  induction h with
  | cons n ts ns r _ ih =>
    intro c hs
    peel hs
    have := ih hs.2
    refine ⟨fun m hm => ?_, ?_⟩
    · rcases List.mem_cons.1 hm with rfl | hm
      · exact hs.1.1
      · exact this.1 m hm
    · rw [← Bool.and_assoc, Bool.and_self] at this
      exact this.2
  | one n r =>
    intro c hs
    peel hs
    exact ⟨fun m hm => by rw [List.mem_singleton.1 hm]; exact hs.1.1, hs.2⟩

theorem literals_sane {ns : List Name} (h : SetLiterals ts ns r) : ∀ {c : Bool}, Sane b c ts → Sane b (b && c) r := by
  induction h with
  | snoc ts ns n r _ ih =>
    intro c hs
    have := ih hs
    peel this
    rw [← Bool.and_assoc, Bool.and_self] at this
    exact this.2
  | one n r => intro c hs; peel hs; exact hs.2

theorem set_sane {e : SetE} (h : SetExpr ts e r) (hs : Sane true c ts) : Sane true c r := by
  revert hs
  refine SetExpr.rec (motive_1 := fun ts _ r _ => Sane true c ts → Sane true c r) (motive_2 := fun ts _ r _ => Sane true c ts → Sane true c r)
    (motive_3 := fun ts _ r _ => Sane true c ts → Sane true c r) ?_ ?_ ?_ ?_ ?_ ?_ ?_ ?_ h
  · exact fun _ _ _ _ ih => ih
  · exact fun _ _ _ _ ih => ih
  · intro _ _ _ _ ih hs
    peel hs
    have := ih hs
    peel this
    exact this
  · intro _ _ _ hl hs
    peel hs
    have := literals_sane hl hs
    peel this
    exact this
  · intro _ _ hs
    peel hs
    exact hs.2
  all_goals
    intro _ _ _ _ _ _ _ ih1 ih2 hs
    have := ih1 hs
    peel this
    exact ih2 this

theorem range_sane {ns : List Name} (h : RangeSpec ts ns r) : Sane true true ts → Sane true true r := by
  induction h with
  | cons n ts ns r _ ih => intro hs; peel hs; exact ih hs.2
  | one n r => intro hs; peel hs; exact hs.2

theorem lifetimeRange_sane {g : Option Range} (h : LifetimeRange ts g r) (hs : Sane true true ts) : Sane true true r := by
  cases h with
  | empty => exact hs
  | lpar => peel hs; exact hs
  | rpar => peel hs; exact hs
  | after =>
    rename_i h
    peel hs; exact range_sane h hs
  | before =>
    rename_i h
    have := range_sane h hs; peel this; exact this
  | upTo =>
    rename_i h
    have := range_sane h hs; peel this; exact this
  | since =>
    rename_i h
    peel hs; exact range_sane h hs

theorem lifetime_sane {l : Lifetime} (h : LifetimeP ts l r) (hs : Sane b true ts) : Sane true true r := by
  cases h with
  | disallowed => peel hs; exact hs
  | mandatory => peel hs; exact hs
  | disallowedIn | allowedIn | mandatoryIn | optionalIn =>
    rename_i h1 h2
    peel hs
    have := lifetimeRange_sane h1 hs
    peel this
    exact lifetimeRange_sane h2 this

theorem lifetimes_sane {l : List Lifetime} (h : Lifetimes ts l r) : Sane true true ts → Sane true true r := by
  induction h with
  | cons _ _ _ _ _ h _ ih => intro hs; have := lifetime_sane h hs; peel this; exact ih this
  | one =>
    rename_i h
    exact lifetime_sane h

theorem nodeLifetimes_sane {l : List Lifetime} (h : NodeLifetimes ts l r) (hs : Sane true true ts) : Sane true true r := by
  cases h with
  | empty => exact hs
  | mk =>
    rename_i h
    peel hs; have := lifetimes_sane h hs; peel this; exact this

theorem child_sane {x : Child} (h : ChildP ts x r) (hs : Sane true true ts) : (Good x.name ∧ Good x.type) ∧ Sane true true r := by
  cases h with
  | plain => peel hs; exact ⟨⟨hs.2.1.2, hs.1.2⟩, hs.2.2⟩
  | braces => peel hs; exact ⟨⟨hs.2.1.2, hs.1.2⟩, hs.2.2⟩
  | ctor => peel hs; exact ⟨⟨hs.2.1.2, hs.1.2⟩, hs.2.2⟩
  | life | both =>
    rename_i h
    peel hs
    have := lifetimes_sane h hs.2.2
    peel this
    exact ⟨⟨hs.2.1.2, hs.1.2⟩, this⟩

theorem children_sane {l : List Child} (h : Children ts l r) : Sane true true ts → (∀ x ∈ l, Good x.name ∧ Good x.type) ∧ Sane true true r := by
  induction h with
  | cons _ _ _ _ _ h _ ih =>
    intro hs
    have := child_sane h hs
    obtain ⟨h1, h2⟩ := this
    peel h2
    have := ih h2
    exact ⟨List.forall_mem_cons.2 ⟨h1, this.1⟩, this.2⟩
  | one =>
    rename_i h
    intro hs
    have := child_sane h hs
    exact ⟨List.forall_mem_cons.2 ⟨this.1, (fun x hx => by cases hx)⟩, this.2⟩

theorem childrenBody_sane {l : List Child} (h : ChildrenBody ts l r) (hs : Sane b true ts) :
    (∀ x ∈ l, Good x.name ∧ Good x.type) ∧ Sane true true r := by
  cases h with
  | mk =>
    rename_i h
    peel hs
    obtain ⟨h1, h2⟩ := children_sane h hs
    peel h2
    exact ⟨h1, h2⟩

theorem primitive_sane {t : T} {ty : AT} (h : Primitive t ty) (hs : Sane true true (t :: r)) : Sane true true r := by
  cases h <;> peel hs <;> exact hs

theorem keyword_sane {o : Opt} (h : Keyword ts o r) (hs : Sane true true ts) : Sane true true r := by
  cases h with
  | constructor => peel hs; exact hs
  | inherited => peel hs; exact hs
  | synthesized => peel hs; exact hs
  | lifetime =>
    rename_i h
    exact lifetime_sane h hs

theorem keywords_sane {o : List Opt} (h : Keywords ts o r) : Sane true true ts → Sane true true r := by
  induction h with
  | empty => exact fun hs => hs
  | one =>
    rename_i h
    exact keyword_sane h
  | cons _ _ _ _ _ h _ ih => intro hs; have := keyword_sane h hs; peel this; exact ih this

theorem attr_sane {a : Attr} (h : AttrP ts a r) (hs : Sane true true ts) : AttrNames a ∧ Sane true true r := by
  cases h with
  | primOpts =>
    rename_i hp h
    have hs := primitive_sane hp hs
    peel hs
    have := keywords_sane h hs.2
    peel this
    exact ⟨⟨hs.1.2, (fun n hn => by cases hn)⟩, this⟩
  | prim =>
    rename_i hp
    have hs := primitive_sane hp hs
    peel hs
    exact ⟨⟨hs.1.2, (fun n hn => by cases hn)⟩, hs.2⟩
  | linkOpts | userOpts =>
    rename_i h
    peel hs
    have := keywords_sane h hs.2.2
    peel this
    exact ⟨⟨hs.2.1.2, (fun n hn => by cases hn; exact hs.1.2)⟩, this⟩
  | link | user =>
    peel hs
    exact ⟨⟨hs.2.1.2, (fun n hn => by cases hn; exact hs.1.2)⟩, hs.2.2⟩

theorem attrs_sane {l : List Attr} (h : Attributes ts l r) : Sane true true ts → (∀ x ∈ l, AttrNames x) ∧ Sane true true r := by
  induction h with
  | cons _ _ _ _ _ h _ ih =>
    intro hs
    obtain ⟨h1, h2⟩ := attr_sane h hs
    peel h2
    have := ih h2
    exact ⟨List.forall_mem_cons.2 ⟨h1, this.1⟩, this.2⟩
  | one =>
    rename_i h
    intro hs
    have := attr_sane h hs
    exact ⟨List.forall_mem_cons.2 ⟨this.1, (fun x hx => by cases hx)⟩, this.2⟩

theorem attrBody_sane {l : List Attr} (h : AttributeBody ts l r) (hs : Sane b true ts) : (∀ x ∈ l, AttrNames x) ∧ Sane true true r := by
  cases h with
  | mk =>
    rename_i h
    peel hs
    obtain ⟨h1, h2⟩ := attrs_sane h hs
    peel h2
    exact ⟨h1, h2⟩

theorem ref_sane {x : Ref} (h : RefP ts x r) (hs : Sane true true ts) : Sane true true r := by
  cases h <;> peel hs
  · exact hs.2.2
  · exact hs.2

theorem dependencies_sane {l : List Ref} (h : Dependencies ts l r) : Sane true true ts → Sane true true r := by
  induction h with
  | cons _ _ _ _ _ h _ ih => intro hs; have := ref_sane h hs; peel this; exact ih this
  | one =>
    rename_i h
    exact ref_sane h

theorem prodBlock_sane {l : List Ref} (h : ProdBlock ts l r) (hs : Sane true true ts) : Sane true true r := by
  cases h with
  | mk =>
    rename_i h
    peel hs
    cases h with
    | mk =>
      rename_i h
      peel hs
      have := dependencies_sane h hs
      peel this
      exact this
    | empty => peel hs; exact hs
  | empty => peel hs; exact hs

theorem equations_sane {l : List Equation} (h : Equations ts l r) : Sane true true ts → Sane true true r := by
  have one : ∀ {ts r : List T} {e : Equation}, EquationP ts e r → Sane true true ts → Sane true true r := by
    intro ts r e h hs
    cases h with
    | mk =>
      rename_i h1 h2
      have := ref_sane h1 hs; peel this; exact prodBlock_sane h2 this
  induction h with
  | cons _ _ _ _ _ h _ ih => intro hs; have := one h hs; peel this; exact ih this
  | one =>
    rename_i h
    exact one h

theorem equationBody_sane {l : List Equation} (h : EquationBody ts l r) (hs : Sane b true ts) : Sane true true r := by
  cases h with
  | mk =>
    rename_i h
    peel hs; have := equations_sane h hs; peel this; exact this

theorem nodeHead_sane {x : Bool} {n : Name} (h : NodeHead ts x n r) (hs : Sane true c ts) : Good n ∧ Sane false true r := by
  obtain ⟨h⟩ := h
  cases h <;> peel hs <;> exact ⟨hs.1.2, hs.2.mono (fun h => by cases h) fun _ => rfl⟩

/-- What `Spelled` says of a node. -/
abbrev NodeNames (x : Node) : Prop := Good x.name ∧ (∀ c ∈ x.children, Good c.name ∧ Good c.type) ∧ ∀ a ∈ x.attrs, AttrNames a

theorem node_sane {x : Node} (h : NodeP ts x r) (hs : Sane true c ts) : NodeNames x ∧ Sane true true r := by
  have e1 : ∀ x ∈ ([] : List Child), Good x.name ∧ Good x.type := fun x hx => by cases hx
  have e2 : ∀ x ∈ ([] : List Attr), AttrNames x := fun x hx => by cases hx
  cases h with
  | cael =>
    rename_i h h1 h2 h3 h4
    obtain ⟨a, b⟩ := nodeHead_sane h hs
    obtain ⟨a1, b⟩ := childrenBody_sane h1 b
    peel b
    obtain ⟨a2, b⟩ := attrBody_sane h2 b
    peel b
    have b := equationBody_sane h3 b
    peel b
    have b := nodeLifetimes_sane h4 b
    peel b
    exact ⟨⟨a, a1, a2⟩, b⟩
  | cal =>
    rename_i h h1 h2 h4
    obtain ⟨a, b⟩ := nodeHead_sane h hs
    obtain ⟨a1, b⟩ := childrenBody_sane h1 b
    peel b
    obtain ⟨a2, b⟩ := attrBody_sane h2 b
    peel b
    have b := nodeLifetimes_sane h4 b
    peel b
    exact ⟨⟨a, a1, a2⟩, b⟩
  | ael =>
    rename_i h h2 h3 h4
    obtain ⟨a, b⟩ := nodeHead_sane h hs
    obtain ⟨a2, b⟩ := attrBody_sane h2 b
    peel b
    have b := equationBody_sane h3 b
    peel b
    have b := nodeLifetimes_sane h4 b
    peel b
    exact ⟨⟨a, e1, a2⟩, b⟩
  | al =>
    rename_i h h2 h4
    obtain ⟨a, b⟩ := nodeHead_sane h hs
    obtain ⟨a2, b⟩ := attrBody_sane h2 b
    peel b
    have b := nodeLifetimes_sane h4 b
    peel b
    exact ⟨⟨a, e1, a2⟩, b⟩
  | cel =>
    rename_i h h1 h3 h4
    obtain ⟨a, b⟩ := nodeHead_sane h hs
    obtain ⟨a1, b⟩ := childrenBody_sane h1 b
    peel b
    have b := equationBody_sane h3 b
    peel b
    have b := nodeLifetimes_sane h4 b
    peel b
    exact ⟨⟨a, a1, e2⟩, b⟩
  | cl =>
    rename_i h h1 h4
    obtain ⟨a, b⟩ := nodeHead_sane h hs
    obtain ⟨a1, b⟩ := childrenBody_sane h1 b
    peel b
    have b := nodeLifetimes_sane h4 b
    peel b
    exact ⟨⟨a, a1, e2⟩, b⟩
  | ae =>
    rename_i h h2 h3
    obtain ⟨a, b⟩ := nodeHead_sane h hs
    obtain ⟨a2, b⟩ := attrBody_sane h2 b
    peel b
    have b := equationBody_sane h3 b
    peel b
    exact ⟨⟨a, e1, a2⟩, b⟩
  | a =>
    rename_i h h2
    obtain ⟨a, b⟩ := nodeHead_sane h hs
    obtain ⟨a2, b⟩ := attrBody_sane h2 b
    peel b
    exact ⟨⟨a, e1, a2⟩, b⟩
  | ce =>
    rename_i h h1 h3
    obtain ⟨a, b⟩ := nodeHead_sane h hs
    obtain ⟨a1, b⟩ := childrenBody_sane h1 b
    peel b
    have b := equationBody_sane h3 b
    peel b
    exact ⟨⟨a, a1, e2⟩, b⟩
  | c =>
    rename_i h h1
    obtain ⟨a, b⟩ := nodeHead_sane h hs
    obtain ⟨a1, b⟩ := childrenBody_sane h1 b
    peel b
    exact ⟨⟨a, a1, e2⟩, b⟩
  | cae =>
    rename_i h h1 h2 h3
    obtain ⟨a, b⟩ := nodeHead_sane h hs
    obtain ⟨a1, b⟩ := childrenBody_sane h1 b
    peel b
    obtain ⟨a2, b⟩ := attrBody_sane h2 b
    peel b
    have b := equationBody_sane h3 b
    peel b
    exact ⟨⟨a, a1, a2⟩, b⟩
  | ca =>
    rename_i h h1 h2
    obtain ⟨a, b⟩ := nodeHead_sane h hs
    obtain ⟨a1, b⟩ := childrenBody_sane h1 b
    peel b
    obtain ⟨a2, b⟩ := attrBody_sane h2 b
    peel b
    exact ⟨⟨a, a1, a2⟩, b⟩
  | e =>
    rename_i h h3
    obtain ⟨a, b⟩ := nodeHead_sane h hs
    have b := equationBody_sane h3 b
    peel b
    exact ⟨⟨a, e1, e2⟩, b⟩
  | none =>
    rename_i h
    obtain ⟨a, b⟩ := nodeHead_sane h hs
    peel b
    exact ⟨⟨a, e1, e2⟩, b⟩

theorem nodeset_sane {x : NodeSet} (h : NodeSetP ts x r) (hs : Sane true c ts) :
    (Good x.name ∧ ∀ a ∈ x.attrs, AttrNames a) ∧ Sane true c r := by
  have e2 : ∀ x ∈ ([] : List Attr), AttrNames x := fun x hx => by cases hx
  cases h with
  | ia =>
    rename_i h1 h2 h3
    peel hs
    obtain ⟨g, hs⟩ := hs
    have := info_sane h1 hs
    peel this
    have := set_sane h2 this
    peel this
    obtain ⟨a, this⟩ := attrBody_sane h3 this
    peel this
    exact ⟨⟨g.2, a⟩, this.weak⟩
  | i =>
    rename_i h1 h2
    peel hs
    obtain ⟨g, hs⟩ := hs
    have := info_sane h1 hs
    peel this
    have := set_sane h2 this
    peel this
    exact ⟨⟨g.2, e2⟩, this.weak⟩
  | a =>
    rename_i h2 h3
    peel hs
    obtain ⟨g, hs⟩ := hs
    have := set_sane h2 hs
    peel this
    obtain ⟨a, this⟩ := attrBody_sane h3 this
    peel this
    exact ⟨⟨g.2, a⟩, this.weak⟩
  | plain =>
    rename_i h2
    peel hs
    obtain ⟨g, hs⟩ := hs
    have := set_sane h2 hs
    peel this
    exact ⟨⟨g.2, e2⟩, this.weak⟩
  | short =>
    rename_i h2
    peel hs
    exact ⟨⟨hs.1.2, e2⟩, set_sane h2 hs.2⟩

theorem values_sane {ns : List Name} (h : EnumValues ts ns r) (hs : Sane b true ts) : (∀ n ∈ ns, Value n) ∧ Sane true false r := by
  cases h with
  | mk =>
    rename_i h
    peel hs
    obtain ⟨h1, h2⟩ := idList_sane h hs
    peel h2
    exact ⟨h1, h2⟩

theorem enum_sane {x : Enum} (h : EnumP ts x r) (hs : Sane true c ts) :
    (Good x.name ∧ Good x.pre ∧ ∀ v ∈ x.vals, Value v) ∧ Sane true false r := by
  cases h with
  | info =>
    rename_i h1 h2 h3
    peel hs
    obtain ⟨g, hs⟩ := hs
    have := info_sane h1 hs
    peel this
    obtain ⟨a1, this⟩ := prefix_sane h2 this
    peel this
    obtain ⟨a2, this⟩ := values_sane h3 this
    peel this
    exact ⟨⟨g.2, a1, a2⟩, this⟩
  | plain =>
    rename_i h2 h3
    peel hs
    obtain ⟨g, hs⟩ := hs
    obtain ⟨a1, this⟩ := prefix_sane h2 hs
    peel this
    obtain ⟨a2, this⟩ := values_sane h3 this
    peel this
    exact ⟨⟨g.2, a1, a2⟩, this⟩

/-- What `Spelled` says of the data of traversals. -/
abbrev DataNames (l : List TravData) : Prop := ∀ d ∈ l, Good d.name ∧ ∀ n ∈ d.ref, Good n

theorem item_sane {d : TravData} (h : TravDataItem ts d r) (hs : Sane true true ts) : (Good d.name ∧ ∀ n ∈ d.ref, Good n) ∧ Sane true true r := by
  cases h with
  | prim =>
    rename_i hp
    have hs := primitive_sane hp hs
    peel hs
    exact ⟨⟨hs.1.2, (fun n hn => by cases hn)⟩, hs.2⟩
  | link | user =>
    peel hs
    exact ⟨⟨hs.2.1.2, (fun n hn => by cases hn; exact hs.1.2)⟩, hs.2.2⟩

theorem data_sane {l : List TravData} (h : TravDataP ts l r) (hs : Sane b true ts) : DataNames l ∧ Sane true true r := by
  have list : ∀ {ts r : List T} {l : List TravData}, TravDataList ts l r → Sane true true ts → DataNames l ∧ Sane true true r := by
    intro ts r l h
    induction h with
    | snoc _ _ _ _ _ h ih =>
      intro hs
      obtain ⟨h1, h2⟩ := ih hs
      peel h2
      have := item_sane h h2
      exact ⟨List.forall_mem_cons.2 ⟨this.1, h1⟩, this.2⟩
    | one =>
      rename_i h
      intro hs
      have := item_sane h hs
      exact ⟨List.forall_mem_cons.2 ⟨this.1, (fun x hx => by cases hx)⟩, this.2⟩
  cases h with
  | mk =>
    rename_i h
    peel hs
    obtain ⟨h1, h2⟩ := list h hs
    peel h2
    exact ⟨h1, h2⟩

theorem travNodes_sane {e : SetE} (h : TraversalNodes ts e r) (hs : Sane b true ts) : Sane true true r := by
  cases h with
  | mk =>
    rename_i h
    peel hs; exact set_sane h hs

/-- What `Spelled` says of a traversal. -/
abbrev TravNames (x : Traversal) : Prop := Good x.name ∧ Good x.uid ∧ DataNames x.data

theorem traversal_sane {k : Nat} {x : Traversal} (h : TraversalP k ts x r) (hs : Sane true c ts) : TravNames x ∧ Sane true true r := by
  have e : DataNames [] := fun x hx => by cases hx
  cases h with
  | iund =>
    rename_i h1 h2 h3 h4
    peel hs
    obtain ⟨g, hs⟩ := hs
    have hs := info_sane h1 hs
    peel hs
    obtain ⟨u, hs⟩ := uid_sane h2 hs
    peel hs
    have hs := travNodes_sane h3 hs
    peel hs
    obtain ⟨d, hs⟩ := data_sane h4 hs
    peel hs
    exact ⟨⟨g.2, u, d⟩, hs⟩
  | und =>
    rename_i h2 h3 h4
    peel hs
    obtain ⟨g, hs⟩ := hs
    obtain ⟨u, hs⟩ := uid_sane h2 hs
    peel hs
    have hs := travNodes_sane h3 hs
    peel hs
    obtain ⟨d, hs⟩ := data_sane h4 hs
    peel hs
    exact ⟨⟨g.2, u, d⟩, hs⟩
  | iud =>
    rename_i h1 h2 h4
    peel hs
    obtain ⟨g, hs⟩ := hs
    have hs := info_sane h1 hs
    peel hs
    obtain ⟨u, hs⟩ := uid_sane h2 hs
    peel hs
    obtain ⟨d, hs⟩ := data_sane h4 hs
    peel hs
    exact ⟨⟨g.2, u, d⟩, hs⟩
  | iun =>
    rename_i h1 h2 h3
    peel hs
    obtain ⟨g, hs⟩ := hs
    have hs := info_sane h1 hs
    peel hs
    obtain ⟨u, hs⟩ := uid_sane h2 hs
    peel hs
    have hs := travNodes_sane h3 hs
    peel hs
    exact ⟨⟨g.2, u, e⟩, hs⟩
  | iu =>
    rename_i h1 h2
    peel hs
    obtain ⟨g, hs⟩ := hs
    have hs := info_sane h1 hs
    peel hs
    obtain ⟨u, hs⟩ := uid_sane h2 hs
    peel hs
    exact ⟨⟨g.2, u, e⟩, hs⟩
  | ud =>
    rename_i h2 h4
    peel hs
    obtain ⟨g, hs⟩ := hs
    obtain ⟨u, hs⟩ := uid_sane h2 hs
    peel hs
    obtain ⟨d, hs⟩ := data_sane h4 hs
    peel hs
    exact ⟨⟨g.2, u, d⟩, hs⟩
  | un =>
    rename_i h2 h3
    peel hs
    obtain ⟨g, hs⟩ := hs
    obtain ⟨u, hs⟩ := uid_sane h2 hs
    peel hs
    have hs := travNodes_sane h3 hs
    peel hs
    exact ⟨⟨g.2, u, e⟩, hs⟩
  | u =>
    rename_i h2
    peel hs
    obtain ⟨g, hs⟩ := hs
    obtain ⟨u, hs⟩ := uid_sane h2 hs
    peel hs
    exact ⟨⟨g.2, u, e⟩, hs⟩

/-- What `Spelled` says of a pass. -/
abbrev PassNames (p : Pass) : Prop := Good p.name ∧ (∀ n ∈ p.uid, Good n) ∧ ∀ n ∈ p.func, Good n

theorem pass_sane {p : Pass} (h : PassP ts p r) (hs : Sane true c ts) : PassNames p ∧ Sane true c r := by
  have no : ∀ n ∈ (none : Option Name), Good n := fun n hn => by cases hn
  have yes : ∀ {m}, Good m → ∀ n ∈ some m, Good n := fun h n hn => by cases hn; exact h
  cases h with
  | iuf =>
    rename_i h1 h2 h3
    peel hs
    obtain ⟨g, hs⟩ := hs
    have hs := info_sane h1 hs
    peel hs
    obtain ⟨u, hs⟩ := uid_sane h2 hs
    peel hs
    obtain ⟨f, hs⟩ := func_sane h3 hs
    peel hs
    exact ⟨⟨g.2, yes u, yes f⟩, hs.weak⟩
  | uf =>
    rename_i h2 h3
    peel hs
    obtain ⟨g, hs⟩ := hs
    obtain ⟨u, hs⟩ := uid_sane h2 hs
    peel hs
    obtain ⟨f, hs⟩ := func_sane h3 hs
    peel hs
    exact ⟨⟨g.2, yes u, yes f⟩, hs.weak⟩
  | u =>
    rename_i h2
    peel hs
    obtain ⟨g, hs⟩ := hs
    obtain ⟨u, hs⟩ := uid_sane h2 hs
    peel hs
    exact ⟨⟨g.2, yes u, no⟩, hs.weak⟩
  | f =>
    rename_i h3
    peel hs
    obtain ⟨g, hs⟩ := hs
    obtain ⟨f, hs⟩ := func_sane h3 hs
    peel hs
    exact ⟨⟨g.2, no, yes f⟩, hs.weak⟩
  | fi =>
    rename_i h1 h3
    peel hs
    obtain ⟨g, hs⟩ := hs
    have hs := info_sane h1 hs
    peel hs
    obtain ⟨f, hs⟩ := func_sane h3 hs
    peel hs
    exact ⟨⟨g.2, no, yes f⟩, hs.weak⟩
  | iu =>
    rename_i h1 h2
    peel hs
    obtain ⟨g, hs⟩ := hs
    have hs := info_sane h1 hs
    peel hs
    obtain ⟨u, hs⟩ := uid_sane h2 hs
    peel hs
    exact ⟨⟨g.2, yes u, no⟩, hs.weak⟩
  | plain =>
    peel hs
    exact ⟨⟨hs.1.2, no, no⟩, hs.2⟩
  | short =>
    peel hs
    exact ⟨⟨hs.1.2, no, yes hs.2.1.2⟩, hs.2.2⟩

/-- What `Spelled` says of a phase. -/
abbrev PhaseNames (p : Phase) : Prop := Good p.name ∧ (∀ n ∈ p.uid, Good n) ∧ ∀ n ∈ p.gate, Good n

theorem phaseHeader_sane {x : Bool} {n : Name} (h : PhaseHeader ts x n r) (hs : Sane true c ts) : Good n ∧ Sane false true r := by
  obtain ⟨h⟩ := h
  cases h <;> peel hs <;> exact ⟨hs.1.2, hs.2.mono (fun h => by cases h) fun _ => rfl⟩

theorem cycleHeader_sane {x : Bool} {n : Name} (h : CycleHeader ts x n r) (hs : Sane true c ts) : Good n ∧ Sane false true r := by
  obtain ⟨h⟩ := h
  cases h <;> peel hs <;> exact ⟨hs.1.2, hs.2.mono (fun h => by cases h) fun _ => rfl⟩

theorem addPhase_spelled {s : St} {p : Phase} (h : Spelled s.ast) (hp : PhaseNames p) : Spelled (s.addPhase p).ast :=
  ⟨List.forall_mem_cons.2 ⟨hp, h.phases⟩, h.passes, h.traversals, h.nodes, h.nodesets, h.enums⟩

theorem addPass_spelled {s : St} {p : Pass} (h : Spelled s.ast) (hp : PassNames p) : Spelled (s.addPass p).ast :=
  ⟨h.phases, List.forall_mem_cons.2 ⟨hp, h.passes⟩, h.traversals, h.nodes, h.nodesets, h.enums⟩

theorem addTraversal_spelled {s : St} {p : Traversal} (h : Spelled s.ast) (hp : TravNames p) : Spelled (s.addTraversal p).ast :=
  ⟨h.phases, h.passes, List.forall_mem_cons.2 ⟨hp, h.traversals⟩, h.nodes, h.nodesets, h.enums⟩

/-- What phases and their actions do with the names. -/
abbrev PhaseDoes (s : St) (ts : List T) (p : Phase) (s' : St) (r : List T) : Prop :=
  ∀ c, Sane true c ts → Spelled s.ast → PhaseNames p ∧ Spelled s'.ast ∧ Sane true true r

/-- What actions do with the names. -/
abbrev ActsDo (s : St) (ts : List T) (s' : St) (r : List T) : Prop := Sane true true ts → Spelled s.ast → Spelled s'.ast ∧ Sane true true r

/-- What the body of a phase does with the names. -/
abbrev BodyDoes (s : St) (ts : List T) (s' : St) (r : List T) : Prop := ∀ b, Sane b true ts → Spelled s.ast → Spelled s'.ast ∧ Sane true true r

theorem phase_sane {s s' : St} {p : Phase} (h : PhaseP s ts p s' r) : PhaseDoes s ts p s' r := by
  have no : ∀ n ∈ (none : Option Name), Good n := fun n hn => by cases hn
  have yes : ∀ {m}, Good m → ∀ n ∈ some m, Good n := fun h n hn => by cases hn; exact h
  refine PhaseP.rec (motive_1 := fun s ts p s' r _ => PhaseDoes s ts p s' r) (motive_2 := fun s ts _ s' r _ => BodyDoes s ts s' r)
    (motive_3 := fun s ts _ s' r _ => ActsDo s ts s' r) (motive_4 := fun s ts _ s' r _ => ActsDo s ts s' r) ?iug ?ug ?ig ?g ?plain ?iu ?i ?u
    ?ciug ?cug ?cig ?cg ?cplain ?ciu ?ci ?cu ?body ?cons ?one ?trav ?pass ?phase ?id h
  case iug =>
    intros
    rename_i h0 h1 h2 h3 _h ih
    intro c hs sp
    obtain ⟨g0, hs⟩ := phaseHeader_sane h0 hs
    have hs := info_sane h1 hs
    peel hs
    obtain ⟨u, hs⟩ := uid_sane h2 hs
    peel hs
    obtain ⟨g, hs⟩ := gate_sane h3 hs
    peel hs
    obtain ⟨sp, hs⟩ := ih _ hs sp
    peel hs
    exact ⟨⟨g0, yes u, g⟩, sp, hs⟩
  case ug =>
    intros
    rename_i h0 h1 h2 _h ih
    intro c hs sp
    obtain ⟨g0, hs⟩ := phaseHeader_sane h0 hs
    obtain ⟨u, hs⟩ := uid_sane h1 hs
    peel hs
    obtain ⟨g, hs⟩ := gate_sane h2 hs
    peel hs
    obtain ⟨sp, hs⟩ := ih _ hs sp
    peel hs
    exact ⟨⟨g0, yes u, g⟩, sp, hs⟩
  case ig =>
    intros
    rename_i h0 h1 h2 _h ih
    intro c hs sp
    obtain ⟨g0, hs⟩ := phaseHeader_sane h0 hs
    have hs := info_sane h1 hs
    peel hs
    obtain ⟨g, hs⟩ := gate_sane h2 hs
    peel hs
    obtain ⟨sp, hs⟩ := ih _ hs sp
    peel hs
    exact ⟨⟨g0, no, g⟩, sp, hs⟩
  case g =>
    intros
    rename_i h0 h1 _h ih
    intro c hs sp
    obtain ⟨g0, hs⟩ := phaseHeader_sane h0 hs
    obtain ⟨g, hs⟩ := gate_sane h1 hs
    peel hs
    obtain ⟨sp, hs⟩ := ih _ hs sp
    peel hs
    exact ⟨⟨g0, no, g⟩, sp, hs⟩
  case plain =>
    intros
    rename_i h0 _h ih
    intro c hs sp
    obtain ⟨g0, hs⟩ := phaseHeader_sane h0 hs
    obtain ⟨sp, hs⟩ := ih _ hs sp
    peel hs
    exact ⟨⟨g0, no, no⟩, sp, hs⟩
  case iu =>
    intros
    rename_i h0 h1 h2 _h ih
    intro c hs sp
    obtain ⟨g0, hs⟩ := phaseHeader_sane h0 hs
    have hs := info_sane h1 hs
    peel hs
    obtain ⟨u, hs⟩ := uid_sane h2 hs
    peel hs
    obtain ⟨sp, hs⟩ := ih _ hs sp
    peel hs
    exact ⟨⟨g0, yes u, no⟩, sp, hs⟩
  case i =>
    intros
    rename_i h0 h1 _h ih
    intro c hs sp
    obtain ⟨g0, hs⟩ := phaseHeader_sane h0 hs
    have hs := info_sane h1 hs
    peel hs
    obtain ⟨sp, hs⟩ := ih _ hs sp
    peel hs
    exact ⟨⟨g0, no, no⟩, sp, hs⟩
  case u =>
    intros
    rename_i h0 h1 _h ih
    intro c hs sp
    obtain ⟨g0, hs⟩ := phaseHeader_sane h0 hs
    obtain ⟨u, hs⟩ := uid_sane h1 hs
    peel hs
    obtain ⟨sp, hs⟩ := ih _ hs sp
    peel hs
    exact ⟨⟨g0, yes u, no⟩, sp, hs⟩
  case ciug =>
    intros
    rename_i h0 h1 h2 h3 _h ih
    intro c hs sp
    obtain ⟨g0, hs⟩ := cycleHeader_sane h0 hs
    have hs := info_sane h1 hs
    obtain ⟨u, hs⟩ := uid_sane h2 hs
    obtain ⟨g, hs⟩ := gate_sane h3 hs
    obtain ⟨sp, hs⟩ := ih _ hs sp
    peel hs
    exact ⟨⟨g0, yes u, g⟩, sp, hs⟩
  case cug =>
    intros
    rename_i h0 h1 h2 _h ih
    intro c hs sp
    obtain ⟨g0, hs⟩ := cycleHeader_sane h0 hs
    obtain ⟨u, hs⟩ := uid_sane h1 hs
    peel hs
    obtain ⟨g, hs⟩ := gate_sane h2 hs
    peel hs
    obtain ⟨sp, hs⟩ := ih _ hs sp
    peel hs
    exact ⟨⟨g0, yes u, g⟩, sp, hs⟩
  case cig =>
    intros
    rename_i h0 h1 h2 _h ih
    intro c hs sp
    obtain ⟨g0, hs⟩ := cycleHeader_sane h0 hs
    have hs := info_sane h1 hs
    peel hs
    obtain ⟨g, hs⟩ := gate_sane h2 hs
    peel hs
    obtain ⟨sp, hs⟩ := ih _ hs sp
    peel hs
    exact ⟨⟨g0, no, g⟩, sp, hs⟩
  case cg =>
    intros
    rename_i h0 h1 _h ih
    intro c hs sp
    obtain ⟨g0, hs⟩ := cycleHeader_sane h0 hs
    obtain ⟨g, hs⟩ := gate_sane h1 hs
    peel hs
    obtain ⟨sp, hs⟩ := ih _ hs sp
    peel hs
    exact ⟨⟨g0, no, g⟩, sp, hs⟩
  case cplain =>
    intros
    rename_i h0 _h ih
    intro c hs sp
    obtain ⟨g0, hs⟩ := cycleHeader_sane h0 hs
    obtain ⟨sp, hs⟩ := ih _ hs sp
    peel hs
    exact ⟨⟨g0, no, no⟩, sp, hs⟩
  case ciu =>
    intros
    rename_i h0 h1 h2 _h ih
    intro c hs sp
    obtain ⟨g0, hs⟩ := cycleHeader_sane h0 hs
    have hs := info_sane h1 hs
    peel hs
    obtain ⟨u, hs⟩ := uid_sane h2 hs
    peel hs
    obtain ⟨sp, hs⟩ := ih _ hs sp
    peel hs
    exact ⟨⟨g0, yes u, no⟩, sp, hs⟩
  case ci =>
    intros
    rename_i h0 h1 _h ih
    intro c hs sp
    obtain ⟨g0, hs⟩ := cycleHeader_sane h0 hs
    have hs := info_sane h1 hs
    peel hs
    obtain ⟨sp, hs⟩ := ih _ hs sp
    peel hs
    exact ⟨⟨g0, no, no⟩, sp, hs⟩
  case cu =>
    intros
    rename_i h0 h1 _h ih
    intro c hs sp
    obtain ⟨g0, hs⟩ := cycleHeader_sane h0 hs
    obtain ⟨u, hs⟩ := uid_sane h1 hs
    peel hs
    obtain ⟨sp, hs⟩ := ih _ hs sp
    peel hs
    exact ⟨⟨g0, yes u, no⟩, sp, hs⟩
  case body =>
    intros
    rename_i _h ih
    intro b hs sp
    peel hs
    obtain ⟨sp, hs⟩ := ih hs sp
    peel hs
    exact ⟨sp, hs⟩
  case cons =>
    intros
    rename_i _h _h' ih1 ih2
    intro hs sp
    obtain ⟨sp, hs⟩ := ih1 hs sp
    peel hs
    exact ih2 hs sp
  case one =>
    intros
    rename_i _h ih
    intro hs sp
    obtain ⟨sp, hs⟩ := ih hs sp
    peel hs
    exact ⟨sp, hs⟩
  case trav =>
    intros
    rename_i h
    intro hs sp
    obtain ⟨a, hs⟩ := traversal_sane h hs
    exact ⟨addTraversal_spelled sp a, hs⟩
  case pass =>
    intros
    rename_i h
    intro hs sp
    obtain ⟨a, hs⟩ := pass_sane h hs
    exact ⟨addPass_spelled sp a, hs⟩
  case phase =>
    intros
    rename_i _h ih
    intro hs sp
    obtain ⟨a, sp, hs⟩ := ih _ hs sp
    exact ⟨addPhase_spelled sp a, hs⟩
  case id =>
    intros
    intro hs sp
    peel hs
    exact ⟨sp, hs.2⟩

theorem entry_sane {s s' : St} (h : Parse.Entry s ts s' r) (hs : Sane true c ts) (sp : Spelled s.ast) : Spelled s'.ast ∧ Sane true false r := by
  cases h with
  | phase =>
    rename_i h
    obtain ⟨a, sp, hs⟩ := phase_sane h _ hs sp
    exact ⟨addPhase_spelled sp a, hs.weak⟩
  | pass =>
    rename_i h
    obtain ⟨a, hs⟩ := pass_sane h hs
    exact ⟨addPass_spelled sp a, hs.mono (fun _ => rfl) (fun h => by cases h)⟩
  | traversal =>
    rename_i h
    obtain ⟨a, hs⟩ := traversal_sane h hs
    exact ⟨addTraversal_spelled sp a, hs.weak⟩
  | node =>
    rename_i h
    obtain ⟨a, hs⟩ := node_sane h hs
    exact ⟨⟨sp.phases, sp.passes, sp.traversals, List.forall_mem_cons.2 ⟨a, sp.nodes⟩, sp.nodesets, sp.enums⟩, hs.weak⟩
  | nodeset =>
    rename_i h
    obtain ⟨a, hs⟩ := nodeset_sane h hs
    exact ⟨⟨sp.phases, sp.passes, sp.traversals, sp.nodes, List.forall_mem_cons.2 ⟨a, sp.nodesets⟩, sp.enums⟩,
      hs.mono (fun _ => rfl) (fun h => by cases h)⟩
  | enum =>
    rename_i h
    obtain ⟨a, hs⟩ := enum_sane h hs
    exact ⟨⟨sp.phases, sp.passes, sp.traversals, sp.nodes, sp.nodesets, List.forall_mem_cons.2 ⟨a, sp.enums⟩⟩, hs⟩

theorem entries_sane {s s' : St} (h : Entries s ts s' r) : Sane true false ts → Spelled s.ast → Spelled s'.ast := by
  induction h with
  | cons _ _ _ _ _ _ h1 _ ih =>
    intro hs sp
    obtain ⟨sp, hs⟩ := entry_sane h1 hs sp
    peel hs
    exact ih hs sp
  | one _ _ _ _ h => exact fun hs sp => (entry_sane h hs sp).1
  | empty => exact fun _ sp => sp

/-- The names of a description that is read from a file. -/
theorem parsed_spelled {input : CStr} {A : Ast} (h : SPparseDSL input (.ok A)) : Spelled A := by
  cases h with
  | ok ts lines s hl hp =>
    cases hp with
    | accept _ he =>
      refine entries_sane he ((lex_sane hl).weak) ⟨?_, ?_, ?_, ?_, ?_, ?_⟩ <;> exact fun x hx => by cases hx

/-- The numbers of a description that is read from a file. -/
theorem parsed_numbered {input : CStr} {A : Ast} (h : SPparseDSL input (.ok A)) : Spec.Targets.Numbered A := by
  cases h with
  | ok ts lines s hl hp =>
    cases hp with
    | accept _ he => exact Targets.entries_numbered he Targets.start_numbered

end Verif.FileNames
