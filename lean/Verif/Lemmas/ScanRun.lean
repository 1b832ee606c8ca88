import Verif.Lemmas.ScanPick

/-! # Runs of the scanner: the bound on the number of matches is enough -/

namespace Verif.Lex
open Verif.Str (CStr)
open Verif.Spec.Text

theorem pick_src {rs : List (Re × Act)} {s : CStr} {n : Nat} {a : Act} (h : pick rs s = some (n, a)) :
    ∃ r, (r, a) ∈ rs ∧ longest r s = some n := by
  induction rs generalizing n a with
  | nil => cases h
  | cons q rs ih =>
    obtain ⟨r, b⟩ := q
    unfold pick at h
    split at h
    · obtain ⟨r', h1, h2⟩ := ih h
      exact ⟨r', by simp [h1], h2⟩
    · rename_i k hk _
      injection h with e; injection e with e1 e2
      subst e1; subst e2
      exact ⟨r, by simp, hk⟩
    · rename_i k j c hk hj
      split at h
      · injection h with e; injection e with e1 e2
        subst e1; subst e2
        exact ⟨r, by simp, hk⟩
      · injection h with e; injection e with e1 e2
        subst e1; subst e2
        obtain ⟨r', h1, h2⟩ := ih hj
        exact ⟨r', by simp [h1], h2⟩

/-- No state but the current one is `SAVELINE`, and there is one below it. -/
structure Inv (s : St) : Prop where
  stack : Start.saveline ∉ s.stack
  top : s.start = .saveline → s.stack ≠ []

/-- How many matches may come at most. -/
def mu (s : St) : Nat := 2 * s.input.length + if s.start = .saveline then 1 else 0

theorem inv_init (input : CStr) : Inv (init input) := ⟨by simp [init], fun _ => by simp [init]⟩

theorem act_facts {s s' : St} {x : CStr} {a : Act} {t : Option Token} (ha : a ≠ .save) (h : act s x a = .ok (s', t)) :
    s'.input = s.input ∧ s'.line = s.line ∧ s'.lines = s.lines ∧ (a ≠ .saveNewline → s'.col = s.col) ∧
    ((s'.start = s.start ∧ s'.stack = s.stack ∧ a ≠ .openComment ∧ a ≠ .closeComment ∧ a ≠ .newline) ∨
      (s'.stack = s.start :: s.stack ∧
        (a = .openComment ∧ s'.start = .comment ∨ a = .closeComment ∧ s'.start = .initial ∨ a = .newline ∧ s'.start = .saveline))) := by
  unfold act at h
  split at h
  all_goals first
    | exact absurd rfl ha
    | (injection h with h; injection h with h1 h2; subst h1; simp [push]; done)
    | (cases h; done)
    | (split at h <;> first
        | (cases h; done)
        | (injection h with h; injection h with h1 h2; subst h1; simp; done))

theorem comment_acts {r : Re} {a : Act} (h : (r, a) ∈ rules .comment) : a ≠ .save ∧ a ≠ .saveNewline ∧ nullable r = false := by
  unfold rules at h
  simp only [List.mem_cons, List.not_mem_nil, or_false, Prod.mk.injEq] at h
  rcases h with ⟨rfl, rfl⟩ | ⟨rfl, rfl⟩ | ⟨rfl, rfl⟩ <;> simp [nullable, lit, dot]

theorem lit_nullable {k : CStr} (h : k ≠ []) : nullable (lit k) = false := by
  cases k with
  | nil => exact absurd rfl h
  | cons c k => simp [lit, nullable]

theorem initial_acts {r : Re} {a : Act} (h : (r, a) ∈ rules .initial) :
    a ≠ .save ∧ a ≠ .saveNewline ∧ a ≠ .closeComment ∧ nullable r = false := by
  unfold rules at h
  simp only [List.mem_append, List.mem_map, List.mem_cons, List.not_mem_nil, or_false, Prod.mk.injEq] at h
  rcases h with ((((⟨rfl, rfl⟩ | ⟨rfl, rfl⟩) | ⟨d, hd, rfl, rfl⟩) | ⟨k, hk, rfl, rfl⟩) | h)
  · simp [nullable, lineComment, lit]
  · simp [nullable, lit]
  · simp [nullable, lit]
  · refine ⟨by simp, by simp, by simp, lit_nullable ?_⟩
    rcases keywords_word k hk with rfl | ⟨_, _, rfl, _⟩ <;> simp
  · rcases h with ⟨rfl, rfl⟩ | ⟨rfl, rfl⟩ | ⟨rfl, rfl⟩ | ⟨rfl, rfl⟩ | ⟨rfl, rfl⟩ | ⟨rfl, rfl⟩ | ⟨rfl, rfl⟩ | ⟨rfl, rfl⟩ | ⟨rfl, rfl⟩ <;>
      simp [nullable, lit, ident, floatVal, intVal, digits, strVal, dot]

theorem longest_pos {r : Re} {s : CStr} {n : Nat} (hn : nullable r = false) (h : longest r s = some n) : 1 ≤ n ∧ n ≤ s.length := by
  obtain ⟨h1, h2, _⟩ := longest_some h
  refine ⟨?_, h1⟩
  cases n with
  | zero =>
    rw [List.take_zero] at h2
    rw [nullable_iff.mpr h2] at hn; cases hn
  | succ n => omega

theorem step_pick {s : St} {n : Nat} {a : Act} (h : pick (rules s.start) s.input = some (n, a)) :
    step s = act (token_action (after s n) n) (s.input.take n) a := by
  unfold step; rw [h]

theorem token_action_facts (s : St) (n : Nat) : (token_action s n).input = s.input ∧ (token_action s n).line = s.line ∧
    (token_action s n).lines = s.lines ∧ (token_action s n).start = s.start ∧ (token_action s n).stack = s.stack := by
  unfold token_action
  split <;> exact ⟨rfl, rfl, rfl, rfl, rfl⟩

theorem step_lt {s s' : St} {t : Option Token} (hi : Inv s) (hne : s.input ≠ []) (h : step s = .ok (s', t)) : Inv s' ∧ mu s' < mu s := by
  obtain ⟨c, rest, hin⟩ : ∃ c rest, s.input = c :: rest := by
    cases e : s.input with
    | nil => exact absurd e hne
    | cons c rest => exact ⟨c, rest, rfl⟩
  by_cases hs : s.start = .saveline
  · by_cases hc : c = 10
    · subst hc
      rw [step_pick (n := 1) (a := .saveNewline) (by rw [hs, hin]; exact pick_saveNewline)] at h
      injection h with h; injection h with h1 _; subst h1
      have : token_action (after s 1) 1 = after s 1 := by unfold token_action; simp [after, hs]
      rw [this]
      refine ⟨⟨hi.1, hi.2⟩, ?_⟩
      simp [mu, after, hin, hs]
    · rw [step_pick (n := ((c :: rest).takeWhile (· != 10)).length) (a := .save) (by rw [hs, hin]; exact pick_save hc)] at h
      generalize ((c :: rest).takeWhile (· != 10)).length = n at h
      have : token_action (after s n) n = after s n := by unfold token_action; simp [after, hs]
      rw [this] at h
      unfold act at h
      have hst : (after s n).stack = s.stack := rfl
      cases hk : s.stack with
      | nil => exact absurd hk (hi.2 hs)
      | cons d ds =>
        have hi1 := hi.1
        rw [hk] at hi1
        simp only [hst, hk] at h
        injection h with h; injection h with h1 _; subst h1
        refine ⟨⟨fun hm => hi1 (by simp [hm]), fun e => ?_⟩, ?_⟩
        · exact absurd (by simp at e; simp [e]) hi1
        · have hd : d ≠ .saveline := fun e => hi1 (by simp [e])
          simp [mu, after, hs, hd]
  · cases hp : pick (rules s.start) s.input with
    | none =>
      unfold step at h
      rw [hp] at h
      injection h with h; injection h with h1 _; subst h1
      refine ⟨⟨hi.1, fun e => absurd e hs⟩, ?_⟩
      simp [mu, after, hin, hs]
    | some x =>
      obtain ⟨n, a⟩ := x
      rw [step_pick hp] at h
      obtain ⟨r, hr, hl⟩ := pick_src hp
      have hacts : a ≠ .save ∧ a ≠ .saveNewline ∧ nullable r = false := by
        cases e : s.start with
        | saveline => exact absurd e hs
        | initial =>
          rw [e] at hr
          exact ⟨(initial_acts hr).1, (initial_acts hr).2.1, (initial_acts hr).2.2.2⟩
        | comment =>
          rw [e] at hr
          exact comment_acts hr
      obtain ⟨h1, _, _, _, h2⟩ := act_facts hacts.1 h
      obtain ⟨f1, _, _, f2, f3⟩ := token_action_facts (after s n) n
      rw [f1] at h1
      rw [f2, f3] at h2
      have hlen := longest_pos hacts.2.2 hl
      have hinp : s'.input = s.input.drop n := h1
      have hmu : mu s' < mu s := by
        unfold mu
        rw [hinp, List.length_drop, if_neg hs]
        split <;> omega
      refine ⟨?_, hmu⟩
      rcases h2 with ⟨e1, e2, _⟩ | ⟨e, e3⟩
      · refine ⟨by rw [e2]; exact hi.1, fun e => ?_⟩
        rw [e1] at e
        exact absurd e hs
      · refine ⟨?_, fun _ => by rw [e]; simp⟩
        rw [e]
        intro hm
        rcases List.mem_cons.mp hm with hm | hm
        · exact hs hm.symm
        · exact hi.1 hm

theorem scan_fuel {s : St} (hi : Inv s) : ∀ n m, mu s < n → mu s < m → scan n s = scan m s := by
  generalize hk : mu s = k
  induction k using Nat.strongRecOn generalizing s with
  | ind k ih =>
    intro n m hn hm
    cases n with
    | zero => omega
    | succ n =>
      cases m with
      | zero => omega
      | succ m =>
        unfold scan
        cases e : s.input with
        | nil => rfl
        | cons c rest =>
          simp only
          cases h : step s with
          | ub w => rfl
          | abort w => rfl
          | diverge => rfl
          | ok x =>
            obtain ⟨s', t⟩ := x
            obtain ⟨hi', hlt⟩ := step_lt hi (by rw [e]; simp) h
            simp only [Res.bind_ok]
            rw [ih (mu s') (by omega) hi' rfl n m (by omega) (by omega)]

/-- The tokens still to come and the last state. -/
def full (s : St) : Res (List Token × St) := scan (mu s + 1) s

/-- The result with tokens before it. -/
def ahead (ts : List Token) (r : Res (List Token × St)) : Res (List Token × St) :=
  r >>= fun x => .ok (ts ++ x.1, x.2)

theorem ahead_nil (r : Res (List Token × St)) : ahead [] r = r := by cases r <;> rfl

theorem ahead_ahead (a b : List Token) (r : Res (List Token × St)) : ahead a (ahead b r) = ahead (a ++ b) r := by
  cases r with
  | ok x => simp [ahead, Res.bind_ok]
  | ub w => rfl
  | abort w => rfl
  | diverge => rfl

theorem full_nil {s : St} (h : s.input = []) : full s = .ok ([], s) := by
  unfold full scan
  rw [h]

theorem full_step {s s' : St} {t : Option Token} (hi : Inv s) (hne : s.input ≠ []) (h : step s = .ok (s', t)) :
    full s = ahead t.toList (full s') := by
  obtain ⟨hi', hlt⟩ := step_lt hi hne h
  unfold full
  conv => lhs; unfold scan
  cases e : s.input with
  | nil => exact absurd e hne
  | cons c rest =>
    simp only [h, Res.bind_ok]
    rw [scan_fuel hi' (mu s) (mu s' + 1) hlt (by omega)]
    rfl

theorem full_abort {s : St} {w : String} (hne : s.input ≠ []) (h : step s = .abort w) : full s = .abort w := by
  unfold full scan
  cases e : s.input with
  | nil => exact absurd e hne
  | cons c rest => simp only [h]; rfl

theorem lex_full (input : CStr) : lex input = (full (init input) >>= fun x => .ok (x.1, x.2.lines)) := by
  unfold lex full
  rw [scan_fuel (inv_init input) (2 * input.length + 2) (mu (init input) + 1) (by simp [mu, init]) (by omega)]

/-- Matches one after the other, without errors. -/
inductive Run : St → List Token → St → Prop where
  | stop (s : St) : Run s [] s
  | go {s s' s'' : St} {t : Option Token} {ts : List Token} : s.input ≠ [] → step s = .ok (s', t) → Run s' ts s'' →
      Run s (t.toList ++ ts) s''

theorem Run.trans {a b c : St} {ts us : List Token} (h : Run a ts b) (k : Run b us c) : Run a (ts ++ us) c := by
  induction h with
  | stop => exact k
  | go h1 h2 _ ih =>
    rw [List.append_assoc]
    exact .go h1 h2 (ih k)

theorem Run.one {s s' : St} {t : Option Token} (h : s.input ≠ []) (k : step s = .ok (s', t)) : Run s t.toList s' := by
  have := Run.go h k (.stop s')
  rwa [List.append_nil] at this

theorem Run.full {s s' : St} {ts : List Token} (h : Run s ts s') (hi : Inv s) : Inv s' ∧ Verif.Lex.full s = ahead ts (Verif.Lex.full s') := by
  induction h with
  | stop => exact ⟨hi, (ahead_nil _).symm⟩
  | go h1 h2 _ ih =>
    have := ih (step_lt hi h1 h2).1
    refine ⟨this.1, ?_⟩
    rw [full_step hi h1 h2, this.2, ahead_ahead]

/-! ## The end of scanning -/

theorem act_errors {s : St} {x : CStr} {a : Act} (h : a = .save → s.stack ≠ []) : (∃ r, act s x a = .ok r) ∨
    act s x a = .abort "Found C-keyword as identifier, which would generate invalid C code." ∨
    act s x a = .abort "Unexpected token found, quit parsing" := by
  unfold act
  split
  all_goals first
    | exact .inl ⟨_, rfl⟩
    | exact .inr (.inr rfl)
    | (split <;> first
        | exact .inl ⟨_, rfl⟩
        | exact .inr (.inl rfl)
        | (rename_i e; exact absurd e (h rfl)))

theorem step_errors {s : St} (hi : Inv s) : (∃ r, step s = .ok r) ∨
    step s = .abort "Found C-keyword as identifier, which would generate invalid C code." ∨
    step s = .abort "Unexpected token found, quit parsing" := by
  cases hp : pick (rules s.start) s.input with
  | none => unfold step; rw [hp]; exact .inl ⟨_, rfl⟩
  | some x =>
    obtain ⟨n, a⟩ := x
    rw [step_pick hp]
    refine act_errors fun e => ?_
    rw [(token_action_facts _ _).2.2.2.2]
    show s.stack ≠ []
    refine hi.2 ?_
    obtain ⟨r, hr, _⟩ := pick_src hp
    subst e
    cases hs : s.start with
    | saveline => rfl
    | initial => rw [hs] at hr; exact absurd rfl (initial_acts hr).1
    | comment => rw [hs] at hr; exact absurd rfl (comment_acts hr).1

theorem scan_ends {n : Nat} : ∀ {s : St}, Inv s → mu s < n → (∃ r, scan n s = .ok r) ∨
    scan n s = .abort "Found C-keyword as identifier, which would generate invalid C code." ∨
    scan n s = .abort "Unexpected token found, quit parsing" := by
  induction n with
  | zero => intro s _ h; omega
  | succ n ih =>
    intro s hi h
    unfold scan
    cases e : s.input with
    | nil => exact .inl ⟨_, rfl⟩
    | cons c rest =>
      simp only
      rcases step_errors hi with ⟨⟨s', t⟩, h1⟩ | h1 | h1
      · obtain ⟨hi', hlt⟩ := step_lt hi (by rw [e]; simp) h1
        rw [h1]
        simp only [Res.bind_ok]
        rcases ih hi' (by omega) with ⟨r, h2⟩ | h2 | h2
        · rw [h2]; exact .inl ⟨_, rfl⟩
        · rw [h2]; exact .inr (.inl rfl)
        · rw [h2]; exact .inr (.inr rfl)
      · rw [h1]; exact .inr (.inl rfl)
      · rw [h1]; exact .inr (.inr rfl)

theorem lex_ends (input : CStr) : (∃ r, lex input = .ok r) ∨
    lex input = .abort "Found C-keyword as identifier, which would generate invalid C code." ∨
    lex input = .abort "Unexpected token found, quit parsing" := by
  unfold lex
  rcases scan_ends (n := 2 * input.length + 2) (inv_init input) (by simp [mu, init]) with ⟨r, h⟩ | h | h
  · rw [h]; exact .inl ⟨_, rfl⟩
  · rw [h]; exact .inr (.inl rfl)
  · rw [h]; exact .inr (.inr rfl)

end Verif.Lex
