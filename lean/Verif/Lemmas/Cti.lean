import Verif.Lemmas.Str
import Verif.Spec.Cti

/-! Diagnostics: wrapping of messages. -/

namespace Verif.Spec.Cti
open Verif Verif.Str Verif.Cti

/-- The loop of `ProcessMessage` on the text: `d` is done, the rest is to come. -/
def procS (L : Int) : (d : CStr) → CStr → (col ls : Nat) → CStr
  | d, [], _, _ => d
  | d, c :: rest, col, ls =>
    let c := if c = 9 then 32 else c
    let ls := if c = 32 then d.length else ls
    if c = 10 then procS L (d ++ [64]) rest 1 ls
    else if (col : Int) = L then
      if (d ++ [c])[ls]? = some 32 then procS L ((d ++ [c]).set ls 64) rest (d.length - ls + 1) ls
      else d ++ c :: rest
    else procS L (d ++ [c]) rest (col + 1) ls
  termination_by _ s => s.length

/-- A text in a block. -/
def emb (s : CStr) (junk : Buf) : Buf := s.map some ++ some 0 :: junk

theorem peek_emb (s : CStr) (junk : Buf) (i : Nat) (h : i < s.length) : peek (emb s junk) i = .ok s[i] := by
  unfold peek emb
  rw [List.getElem?_append_left (by simpa using h)]
  simp [h]

theorem peek_end (s : CStr) (junk : Buf) : peek (emb s junk) s.length = .ok 0 := by
  unfold peek emb
  rw [List.getElem?_append_right (by simp)]
  simp

theorem poke_emb (s : CStr) (junk : Buf) (i : Nat) (c : UInt8) (h : i < s.length) :
    poke (emb s junk) i c = .ok (emb (s.set i c) junk) := by
  unfold poke emb
  rw [if_pos (by simp; omega), List.set_append_left _ _ (by simpa using h), List.map_set]

theorem intNat_ok (n : Nat) (h : n < 2 ^ 31) : intNat n = .ok n := by
  unfold intNat; rw [if_pos h]

theorem processLoop_procS (L : Int) (junk : Buf) : ∀ (n : Nat) (d rest : CStr) (col ls : Nat),
    rest.length < n → NoNul rest → d.length + rest.length + 2 < 2 ^ 31 → col ≤ d.length + 1 → ls ≤ d.length →
    processLoop L n (emb (d ++ rest) junk) d.length col ls = .ok (emb (procS L d rest col ls) junk) := by
  intro n
  induction n with
  | zero => intro d rest col ls h; omega
  | succ n ih =>
    intro d rest col ls hn hnul hlen hcol hls
    cases rest with
    | nil =>
      rw [processLoop, procS, List.append_nil, peek_end]
      rfl
    | cons c rest =>
      rw [processLoop, procS]
      have hc : c ≠ 0 := hnul c (by simp)
      have hr : NoNul rest := fun b hb => hnul b (by simp [hb])
      rw [peek_emb _ _ _ (by simp)]
      have hg : ∀ (x : UInt8) (r : CStr), (d ++ x :: r)[d.length]? = some x := by intro x r; simp
      have e0 : (c == 0) = false := by simpa using hc
      simp only [List.getElem_append_right, Nat.le_refl, Nat.sub_self, List.getElem_cons_zero, Res.bind_ok, e0]
      have step : untab (emb (d ++ c :: rest) junk) d.length c =
          .ok (emb (d ++ (if c = 9 then 32 else c) :: rest) junk) := by
        unfold untab
        by_cases h9 : c = 9
        · rw [if_pos h9, if_pos h9, poke_emb _ _ _ _ (by simp)]
          simp
        · rw [if_neg h9, if_neg h9]
      rw [step]
      generalize (if c = 9 then 32 else c) = c'
      simp only [Res.bind_ok]
      rw [peek_emb _ _ _ (by simp)]
      simp only [List.getElem_append_right, Nat.le_refl, Nat.sub_self, List.getElem_cons_zero, Res.bind_ok]
      simp only [List.length_cons] at hn hlen
      have hls' : (if c' = 32 then d.length else ls) ≤ d.length := by split <;> omega
      generalize (if c' = 32 then d.length else ls) = ls' at hls'
      by_cases h10 : c' = 10
      · have e1 : (c' == 10) = true := by simpa using h10
        simp only [e1, if_pos h10]
        rw [poke_emb _ _ _ _ (by simp)]
        simp only [Res.bind_ok]
        rw [intNat_ok _ (by omega)]
        have e2 : (d ++ c' :: rest).set d.length 64 = (d ++ [64]) ++ rest := by simp
        rw [e2]
        have := ih (d ++ [64]) rest 1 ls' (by omega) hr (by simp; omega) (by simp) (by simp; omega)
        simpa using this
      · have e1 : (c' == 10) = false := by simpa using h10
        simp only [e1, if_neg h10]
        by_cases hL : (col : Int) = L
        · have e2 : ((col : Int) == L) = true := by simpa using hL
          simp only [e2, if_pos hL]
          rw [peek_emb _ _ _ (by simp; omega)]
          simp only [Res.bind_ok]
          have hlt : ls' < (d ++ [c']).length := by simp; omega
          have hgt : (d ++ c' :: rest)[ls']'(by simp; omega) = (d ++ [c'])[ls'] := by
            have : (d ++ c' :: rest) = (d ++ [c']) ++ rest := by simp
            simp only [this]
            rw [List.getElem_append_left]
          rw [hgt]
          by_cases h32 : (d ++ [c'])[ls'] = 32
          · have e3 : ((d ++ [c'])[ls'] == 32) = true := by simpa using h32
            have e4 : (d ++ [c'])[ls']? = some 32 := by rw [List.getElem?_eq_getElem hlt, h32]
            rw [if_pos e4]
            simp only [e3]
            rw [poke_emb _ _ _ _ (by simp; omega)]
            simp only [Res.bind_ok]
            rw [intNat_ok _ (by omega)]
            simp only [Res.bind_ok]
            rw [intNat_ok _ (by omega)]
            have e5 : (d ++ c' :: rest).set ls' 64 = (d ++ [c']).set ls' 64 ++ rest := by
              rw [← List.set_append_left _ _ hlt]; simp
            rw [e5]
            have := ih ((d ++ [c']).set ls' 64) rest (d.length - ls' + 1) ls' (by omega) hr (by simp; omega)
              (by simp; omega) (by simp; omega)
            simpa using this
          · have e3 : ((d ++ [c'])[ls'] == 32) = false := by simpa using h32
            have e4 : (d ++ [c'])[ls']? ≠ some 32 := by rw [List.getElem?_eq_getElem hlt]; simpa using h32
            rw [if_neg e4]
            simp only [e3]
        · have e2 : ((col : Int) == L) = false := by simpa using hL
          simp only [e2, if_neg hL]
          rw [intNat_ok _ (by omega)]
          simp only [Res.bind_ok]
          rw [intNat_ok _ (by omega)]
          have := ih (d ++ [c']) rest (col + 1) ls' (by omega) hr (by simp; omega) (by simp; omega) (by simp; omega)
          simpa using this

/-! ### Text -/

/-- Position by position the same, except that a blank may have become a space or a break. -/
inductive Rel : CStr → CStr → Prop where
  | nil : Rel [] []
  | same {a x y} : Rel x y → Rel (a :: x) (a :: y)
  | space {a x y} : isBlank a = true → Rel x y → Rel (a :: x) (32 :: y)
  | brk {a x y} : isBlank a = true → Rel x y → Rel (a :: x) (64 :: y)

theorem Rel.refl : ∀ s, Rel s s
  | [] => .nil
  | _ :: s => .same (Rel.refl s)

theorem Rel.append {a b x y : CStr} (h : Rel a b) (h' : Rel x y) : Rel (a ++ x) (b ++ y) := by
  induction h with
  | nil => exact h'
  | same _ ih => exact .same ih
  | space hb _ ih => exact .space hb ih
  | brk hb _ ih => exact .brk hb ih

theorem Rel.set {x y : CStr} (h : Rel x y) : ∀ i, y[i]? = some 32 → Rel x (y.set i 64) := by
  induction h with
  | nil => intro i hi; simp at hi
  | @same a x y h ih =>
    intro i hi
    cases i with
    | zero =>
      simp only [List.getElem?_cons_zero, Option.some.injEq] at hi
      subst hi
      exact .brk rfl h
    | succ i => exact .same (ih i (by simpa using hi))
  | @space a x y hb h ih =>
    intro i hi
    cases i with
    | zero => exact .brk hb h
    | succ i => exact .space hb (ih i (by simpa using hi))
  | @brk a x y hb h ih =>
    intro i hi
    cases i with
    | zero => exact .brk hb h
    | succ i => exact .brk hb (ih i (by simpa using hi))

theorem procS_rel (L : Int) : ∀ (rest p d : CStr) (col ls : Nat), Rel p d → Rel (p ++ rest) (procS L d rest col ls)
  | [], p, d, col, ls, h => by rw [procS]; simpa using h
  | c :: rest, p, d, col, ls, h => by
    rw [procS]
    have hc : Rel [c] [if c = 9 then 32 else c] := by
      by_cases h9 : c = 9
      · rw [if_pos h9, h9]; exact .space rfl .nil
      · rw [if_neg h9]; exact .same .nil
    have ep : p ++ c :: rest = (p ++ [c]) ++ rest := by simp
    rw [ep]
    have hd : Rel (p ++ [c]) (d ++ [if c = 9 then 32 else c]) := h.append hc
    have hb : (if c = 9 then 32 else c) = 10 → isBlank c = true := by
      intro e
      by_cases h9 : c = 9
      · rw [h9]; rfl
      · rw [if_neg h9] at e; rw [e]; rfl
    generalize (if c = 9 then 32 else c) = c' at *
    generalize (if c' = 32 then d.length else ls) = ls'
    split
    · rename_i h10
      exact procS_rel L rest _ _ _ _ (h.append (.brk (hb h10) .nil))
    · split
      · split
        · rename_i h32
          exact procS_rel L rest _ _ _ _ (hd.set _ h32)
        · have := hd.append (Rel.refl rest)
          simpa using this
      · exact procS_rel L rest _ _ _ _ hd

/-- Separators in the rewritten text. -/
def isSep (c : UInt8) : Bool := isBlank c || c == 64

theorem runs_rel {x y : CStr} (h : Rel x y) (hx : (64 : UInt8) ∉ x) : ∀ cur,
    runsFrom isSep cur y = runsFrom isBlank cur x := by
  induction h with
  | nil => intro cur; rfl
  | @same a x y h ih =>
    intro cur
    have h1 : a ≠ 64 := fun e => hx (by simp [e])
    have h2 : (64 : UInt8) ∉ x := fun e => hx (by simp [e])
    have : isSep a = isBlank a := by unfold isSep; simp [h1]
    simp only [runsFrom, this, ih h2]
  | @space a x y hb h ih =>
    intro cur
    have h2 : (64 : UInt8) ∉ x := fun e => hx (by simp [e])
    have : isSep 32 = true := rfl
    simp only [runsFrom, this, hb, ih h2, if_true]
  | @brk a x y hb h ih =>
    intro cur
    have h2 : (64 : UInt8) ∉ x := fun e => hx (by simp [e])
    have : isSep 64 = true := rfl
    simp only [runsFrom, this, hb, ih h2, if_true]

theorem runs_sep (sep : UInt8 → Bool) (c : UInt8) (hc : sep c = true) (b : CStr) : ∀ (a cur : CStr),
    runsFrom sep cur (a ++ c :: b) = runsFrom sep cur a ++ runsFrom sep [] b
  | [], cur => by
    simp only [List.nil_append, runsFrom, hc, if_true]
    by_cases h : cur = [] <;> simp [h]
  | x :: a, cur => by
    simp only [List.cons_append, runsFrom]
    by_cases hx : sep x = true
    · simp only [hx, if_true]
      by_cases h : cur = []
      · simp only [h, if_true]; exact runs_sep sep c hc b a []
      · simp only [h, if_false]; rw [runs_sep sep c hc b a []]; rfl
    · simp only [hx]
      exact runs_sep sep c hc b a _

theorem runs_same (p q : UInt8 → Bool) : ∀ (a cur : CStr), (∀ c ∈ a, p c = q c) → runsFrom p cur a = runsFrom q cur a
  | [], _, _ => rfl
  | c :: a, cur, h => by
    have ih := fun cur => runs_same p q a cur (fun x hx => h x (by simp [hx]))
    simp only [runsFrom, h c (by simp), ih]

theorem runs_seps (sep : UInt8 → Bool) (b : CStr) : ∀ (a : CStr), (∀ c ∈ a, sep c = true) →
    runsFrom sep [] (a ++ b) = runsFrom sep [] b
  | [], _ => rfl
  | c :: a, h => by
    simp only [List.cons_append, runsFrom, h c (by simp), if_true]
    exact runs_seps sep b a (fun x hx => h x (by simp [hx]))

/-! ### Parts -/

theorem takeWhile_mem {α : Type} (p : α → Bool) : ∀ (l : List α) (x : α), x ∈ l.takeWhile p → p x = true
  | [], x, h => by simp at h
  | y :: l, x, h => by
    rw [List.takeWhile_cons] at h
    by_cases hy : p y = true
    · rw [if_pos hy] at h
      rcases List.mem_cons.1 h with e | e
      · rw [e]; exact hy
      · exact takeWhile_mem p l x e
    · rw [if_neg hy] at h; simp at h

/-- What `strtok` does. -/
theorem strtok_some {s t r : CStr} (h : strtok s = some (t, r)) :
    t ≠ [] ∧ (64 : UInt8) ∉ t ∧ ∃ a, (∀ c ∈ a, c = 64) ∧ ((s = a ++ t ∧ r = []) ∨ s = a ++ t ++ 64 :: r) := by
  unfold strtok at h
  have hs : s = s.takeWhile (· == 64) ++ s.dropWhile (· == 64) := List.takeWhile_append_dropWhile.symm
  have ha : ∀ c ∈ s.takeWhile (· == 64), c = (64 : UInt8) := by
    intro c hc
    simpa using takeWhile_mem _ _ _ hc
  have hh : ∀ c cs, s.dropWhile (· == 64) = c :: cs → c ≠ 64 := by
    intro c cs e
    have := List.head?_dropWhile_not (fun x : UInt8 => x == 64) s
    rw [e] at this
    simpa using this
  generalize s.takeWhile (· == 64) = a at hs ha
  cases hd : s.dropWhile (· == 64) with
  | nil => rw [hd] at h; cases h
  | cons c cs =>
    rw [hd] at h hs
    have hc := hh c cs hd
    simp only [Option.some.injEq, Prod.mk.injEq] at h
    have ht : c :: cs = (c :: cs).takeWhile (· != 64) ++ (c :: cs).dropWhile (· != 64) :=
      List.takeWhile_append_dropWhile.symm
    have hm : ∀ x ∈ (c :: cs).takeWhile (· != 64), x ≠ (64 : UInt8) := by
      intro x hx
      simpa using takeWhile_mem _ _ _ hx
    have hdw : ∀ x xs, (c :: cs).dropWhile (· != 64) = x :: xs → x = 64 := by
      intro x xs e
      have := List.head?_dropWhile_not (fun x : UInt8 => x != 64) (c :: cs)
      rw [e] at this
      simpa using this
    rw [← h.1, ← h.2]
    refine ⟨?_, ?_, a, ha, ?_⟩
    · have : (c != 64) = true := by simpa using hc
      rw [List.takeWhile_cons, this]; simp
    · intro hx; exact hm _ hx rfl
    · cases hx : (c :: cs).dropWhile (· != 64) with
      | nil =>
        left
        rw [hx] at ht
        refine ⟨?_, rfl⟩
        rw [hs]
        conv => lhs; rw [ht]
        simp
      | cons x xs =>
        right
        have := hdw x xs hx
        subst this
        rw [hx] at ht
        rw [hs]
        conv => lhs; rw [ht]
        simp

theorem strtok_none {s : CStr} (h : strtok s = none) : ∀ c ∈ s, c = 64 := by
  unfold strtok at h
  cases hd : s.dropWhile (· == 64) with
  | cons c cs => rw [hd] at h; cases h
  | nil =>
    have hs : s = s.takeWhile (· == 64) ++ s.dropWhile (· == 64) := List.takeWhile_append_dropWhile.symm
    rw [hd, List.append_nil] at hs
    intro c hc
    rw [hs] at hc
    simpa using takeWhile_mem _ _ _ hc

/-- The printed parts. -/
inductive Parts : CStr → CStr → Prop where
  | stop {s} : strtok s = none → Parts s []
  | next {s t r body} : strtok s = some (t, r) → Parts r body → Parts s (t ++ [10] ++ body)

theorem strtok_length {s t r : CStr} (h : strtok s = some (t, r)) : r.length < s.length := by
  obtain ⟨h1, _, a, _, h3⟩ := strtok_some h
  have : 0 < t.length := List.length_pos_iff.2 h1
  rcases h3 with ⟨e, e'⟩ | e
  · subst e'; rw [e]; simp; omega
  · rw [e]; simp; omega

/-- The header comes before the first part, if there is one. -/
def withHeader (header body : CStr) : CStr := if body = [] then [] else header ++ body

theorem printLoop_parts : ∀ (n : Nat) (s header : CStr) (st : St), s.length < n →
    ∃ body, Parts s body ∧ printLoop n s header st = .ok (st.print (withHeader header body)) := by
  intro n
  induction n with
  | zero => intro s header st h; omega
  | succ n ih =>
    intro s header st h
    rw [printLoop]
    cases hs : strtok s with
    | none => exact ⟨[], .stop hs, by simp [withHeader, St.print]⟩
    | some p =>
      obtain ⟨t, r⟩ := p
      have hl := strtok_length hs
      obtain ⟨body, hp, e⟩ := ih r [] (st.print (header ++ t ++ [10])) (by omega)
      refine ⟨t ++ [10] ++ body, .next hs hp, ?_⟩
      simp only
      rw [e]
      unfold withHeader St.print
      by_cases hb : body = []
      · simp [hb]
      · simp [hb]

theorem parts_words {s body : CStr} (h : Parts s body) : runsFrom isBlank [] body = runsFrom isSep [] s := by
  induction h with
  | @stop s h =>
    have hs : ∀ c ∈ s, isSep c = true := by
      intro c hc; rw [strtok_none h c hc]; rfl
    have := runs_seps isSep [] s hs
    rw [List.append_nil] at this
    rw [this]
    rfl
  | @next s t r body h _ ih =>
    obtain ⟨_, h2, a, ha, h3⟩ := strtok_some h
    have hsep : ∀ c ∈ a, isSep c = true := by
      intro c hc; rw [ha c hc]; rfl
    have ht : runsFrom isBlank [] t = runsFrom isSep [] t := by
      apply runs_same
      intro c hc
      unfold isSep
      have : c ≠ 64 := fun e => h2 (e ▸ hc)
      simp [this]
    have e1 : runsFrom isBlank [] (t ++ [10] ++ body) = runsFrom isBlank [] t ++ runsFrom isBlank [] body := by
      have := runs_sep isBlank 10 rfl body t []
      simpa using this
    rw [e1, ih, ht]
    rcases h3 with ⟨e, e'⟩ | e
    · rw [e, runs_seps _ _ _ hsep, e']
      simp [runsFrom]
    · rw [e, List.append_assoc, runs_seps _ _ _ hsep, runs_sep isSep 64 rfl]

theorem parts_end {s body : CStr} (h : Parts s body) : body = [] ∨ body.getLast? = some 10 := by
  induction h with
  | stop _ => exact .inl rfl
  | next _ _ ih =>
    right
    rcases ih with e | e
    · simp [e]
    · rw [List.getLast?_append, e]; rfl

/-- A run that avoids the separator lies on one of its sides. -/
theorem infix_sep {α : Type} {w a b : List α} {c : α} (h : w <:+: a ++ c :: b) (hc : c ∉ w) : w <:+: a ∨ w <:+: b := by
  obtain ⟨x, y, e⟩ := h
  rw [List.append_assoc, List.append_eq_append_iff] at e
  rcases e with ⟨as, e1, e2⟩ | ⟨bs, e1, e2⟩
  · rw [List.append_eq_append_iff] at e2
    rcases e2 with ⟨cs, f1, f2⟩ | ⟨cs, f1, f2⟩
    · left; exact ⟨x, cs, by rw [e1, f1]; simp⟩
    · left
      cases cs with
      | nil => exact ⟨x, [], by rw [e1, f1]; simp⟩
      | cons z zs =>
        exfalso
        simp only [List.cons_append, List.cons.injEq] at f2
        exact hc (by rw [f1, ← f2.1]; simp)
  · cases bs with
    | nil =>
      simp only [List.nil_append] at e2
      cases w with
      | nil => left; exact ⟨[], a, by simp⟩
      | cons z zs =>
        exfalso
        simp only [List.cons_append, List.cons.injEq] at e2
        exact hc (by rw [← e2.1]; simp)
    | cons z zs =>
      right
      simp only [List.cons_append, List.cons.injEq] at e2
      exact ⟨zs, y, by rw [e2.2]; simp⟩

theorem parts_lines {s body : CStr} (h : Parts s body) : ∀ l, l <:+: body → (10 : UInt8) ∉ l →
    l = [] ∨ (l <:+: s ∧ (64 : UInt8) ∉ l) := by
  induction h with
  | stop _ =>
    intro l hl _
    left
    simpa using hl
  | @next s t r body h _ ih =>
    intro l hl h10
    obtain ⟨_, h2, a, ha, h3⟩ := strtok_some h
    have hl' : l <:+: t ++ 10 :: body := by simpa using hl
    rcases infix_sep hl' h10 with h' | h'
    · right
      refine ⟨?_, fun e => h2 (h'.subset e)⟩
      refine h'.trans ?_
      rcases h3 with ⟨e, _⟩ | e
      · exact ⟨a, [], by rw [e]; simp⟩
      · exact ⟨a, 64 :: r, by rw [e]⟩
    · rcases ih l h' h10 with e | ⟨e, e'⟩
      · exact .inl e
      · right
        refine ⟨?_, e'⟩
        rcases h3 with ⟨_, f⟩ | f
        · subst f
          have : l = [] := by simpa using e
          subst this
          exact ⟨[], s, by simp⟩
        · refine e.trans ⟨a ++ t ++ [64], [], by rw [f]; simp⟩

/-! ### Width -/

/-- Runs without a break have at most `L` characters. -/
def Within (L : Nat) (s : CStr) : Prop := ∀ w, w <:+: s → (64 : UInt8) ∉ w → w.length ≤ L

/-- Runs without blanks have fewer than `L` characters. -/
def Short (L : Nat) (s : CStr) : Prop := ∀ w, w <:+: s → (∀ c ∈ w, isBlank c = false) → w.length < L

/-- Tabs as blanks. -/
def tab (c : UInt8) : UInt8 := if c = 9 then 32 else c

theorem within_cons {L : Nat} {a b : CStr} (ha : Within L a) (hb : Within L b) : Within L (a ++ 64 :: b) := by
  intro w hw hn
  rcases infix_sep hw hn with h | h
  · exact ha w h hn
  · exact hb w h hn

theorem within_short {L : Nat} {a : CStr} (h : a.length ≤ L) : Within L a := by
  intro w hw _
  exact Nat.le_trans hw.length_le h

/-- What is known in the loop: `pre` is finished, `mc` is the text of the current line. -/
structure WInv (L : Nat) (msg pre mc rest : CStr) (col ls : Nat) : Prop where
  msg : ∃ mp, msg = mp ++ mc ++ rest
  start : (pre = [] ∧ col = mc.length) ∨ (∃ q, pre = q ++ [64] ∧ Within L q ∧ col = mc.length + 1)
  col : col ≤ L
  line : ∀ c ∈ mc, c ≠ 10
  space : ∀ a b, mc.map tab = a ++ 32 :: b → (32 : UInt8) ∉ b → ls = pre.length + a.length

theorem WInv.within {L : Nat} {msg pre mc rest : CStr} {col ls : Nat} (h : WInv L msg pre mc rest col ls) (x : CStr)
    (hx : Within L x) : Within L (pre ++ x) := by
  rcases h.start with ⟨e, _⟩ | ⟨q, e, hq, _⟩
  · rw [e]; exact hx
  · rw [e]
    have := within_cons hq hx
    simpa using this

theorem nonblank_of {mb : CStr} (hl : ∀ c ∈ mb, c ≠ 10) (hs : (32 : UInt8) ∉ mb.map tab) : ∀ c ∈ mb, isBlank c = false := by
  intro c hc
  have h10 := hl c hc
  have h32 : tab c ≠ 32 := fun e => hs (List.mem_map.2 ⟨c, hc, e⟩)
  unfold tab at h32
  by_cases h9 : c = 9
  · rw [if_pos h9] at h32; exact absurd rfl h32
  · rw [if_neg h9] at h32
    unfold isBlank
    simp [h9, h32, h10]

theorem last_space : ∀ (l : CStr), (32 : UInt8) ∈ l → ∃ a b, l = a ++ 32 :: b ∧ (32 : UInt8) ∉ b
  | [], h => by simp at h
  | x :: l, h => by
    by_cases hl : (32 : UInt8) ∈ l
    · obtain ⟨a, b, e, hb⟩ := last_space l hl
      exact ⟨x :: a, b, by rw [e]; rfl, hb⟩
    · have : x = 32 := by
        rcases List.mem_cons.1 h with e | e
        · exact e.symm
        · exact absurd e hl
      exact ⟨[], l, by rw [this]; rfl, hl⟩

theorem snoc_split {l a b : CStr} {c : UInt8} (hc : c ≠ 32) (h : l ++ [c] = a ++ 32 :: b) :
    ∃ b', b = b' ++ [c] ∧ l = a ++ 32 :: b' := by
  rcases List.eq_nil_or_concat b with e | ⟨b', x, e⟩
  · subst e
    have := List.append_inj' h rfl
    simp at this
    exact absurd this.2 hc
  · have e' : b = b' ++ [x] := by simpa using e
    subst e'
    have h' : l ++ [c] = (a ++ 32 :: b') ++ [x] := by simpa using h
    have := List.append_inj' h' rfl
    simp at this
    exact ⟨b', by rw [this.2], this.1⟩

theorem snoc_space {l a b : CStr} (hb : (32 : UInt8) ∉ b) (h : l ++ [32] = a ++ 32 :: b) : b = [] ∧ l = a := by
  rcases List.eq_nil_or_concat b with e | ⟨b', x, e⟩
  · subst e
    have := List.append_inj' h rfl
    exact ⟨rfl, this.1⟩
  · exfalso
    have e' : b = b' ++ [x] := by simpa using e
    subst e'
    have h' : l ++ [32] = (a ++ 32 :: b') ++ [x] := by simpa using h
    have := List.append_inj' h' rfl
    simp at this
    exact hb (by simp [← this.2])

theorem procS_within (L : Nat) (msg : CStr) (hm : Short L msg) : ∀ (rest pre mc : CStr) (col ls : Nat),
    WInv L msg pre mc rest col ls → Within L (procS L (pre ++ mc.map tab) rest col ls)
  | [], pre, mc, col, ls, h => by
    rw [procS]
    apply h.within
    apply within_short
    rw [List.length_map]
    rcases h.start with ⟨_, e⟩ | ⟨q, _, _, e⟩ <;> have := h.col <;> omega
  | c :: rest, pre, mc, col, ls, h => by
    rw [procS]
    obtain ⟨mp, hmp⟩ := h.msg
    have hcl : mc.length ≤ col ∧ col ≤ mc.length + 1 := by
      rcases h.start with ⟨_, e⟩ | ⟨q, _, _, e⟩ <;> omega
    have hcol := h.col
    have htab : (if c = 9 then (32 : UInt8) else c) = tab c := rfl
    rw [htab]
    have h10 : tab c = 10 ↔ c = 10 := by
      unfold tab
      by_cases h9 : c = 9
      · subst h9; decide
      · rw [if_neg h9]
    have hlen : (pre ++ mc.map tab).length = pre.length + mc.length := by simp
    -- the last blank of the line with the new character
    have hsp : ∀ a b, (mc ++ [c]).map tab = a ++ 32 :: b → (32 : UInt8) ∉ b →
        (if tab c = 32 then (pre ++ mc.map tab).length else ls) = pre.length + a.length := by
      intro a b e hb
      rw [List.map_append] at e
      simp only [List.map_cons, List.map_nil] at e
      by_cases h32 : tab c = 32
      · rw [if_pos h32, hlen]
        rw [h32] at e
        have := snoc_space hb e
        rw [← this.2]; simp
      · rw [if_neg h32]
        obtain ⟨b', e1, e2⟩ := snoc_split h32 e
        exact h.space a b' e2 (fun hx => hb (by rw [e1]; simp [hx]))
    generalize hg : (if tab c = 32 then (pre ++ mc.map tab).length else ls) = ls' at hsp
    by_cases hn : tab c = 10
    · rw [if_pos hn]
      have hw : Within L (pre ++ mc.map tab) := h.within _ (within_short (by rw [List.length_map]; omega))
      have hL : 1 ≤ L := by
        have h0 : 0 < L := hm [] (by simp) (by simp)
        omega
      have := procS_within L msg hm rest (pre ++ mc.map tab ++ [64]) [] 1 ls'
        { msg := ⟨mp ++ mc ++ [c], by rw [hmp]; simp⟩
          start := .inr ⟨_, rfl, hw, rfl⟩
          col := hL
          line := by simp
          space := by intro a b e; simp at e }
      simpa using this
    · rw [if_neg hn]
      have hline : ∀ x ∈ mc ++ [c], x ≠ 10 := by
        intro x hx
        rcases List.mem_append.1 hx with hx | hx
        · exact h.line x hx
        · rw [List.mem_singleton.1 hx]; exact fun e => hn (h10.2 e)
      by_cases hL : (col : Int) = (L : Int)
      · rw [if_pos hL]
        have hL' : col = L := by omega
        have hin : (32 : UInt8) ∈ (mc ++ [c]).map tab := by
          apply Classical.byContradiction
          intro hno
          have := hm (mc ++ [c]) ⟨mp, rest, by rw [hmp]; simp⟩ (nonblank_of hline hno)
          simp at this
          omega
        obtain ⟨a, b, hab, hb⟩ := last_space _ hin
        have hls := hsp a b hab hb
        have hdc : pre ++ mc.map tab ++ [tab c] = (pre ++ a) ++ 32 :: b := by
          have : mc.map tab ++ [tab c] = a ++ 32 :: b := by rw [← hab]; simp
          rw [List.append_assoc, this]; simp
        rw [hdc, hls]
        have hpl : (pre ++ a).length = pre.length + a.length := by simp
        rw [← hpl, if_pos (by simp)]
        have hset : ((pre ++ a) ++ 32 :: b).set (pre ++ a).length 64 = (pre ++ a) ++ 64 :: b := by simp
        rw [hset]
        -- the original text of `b`
        obtain ⟨ma, mr, e1, e2, e3⟩ := List.map_eq_append_iff.1 hab
        obtain ⟨m, mb, e4, e5, e6⟩ := List.map_eq_cons_iff.1 e3
        have hmc : mc ++ [c] = ma ++ m :: mb := by rw [e1, e4]
        have hbs : mb.length < L := by
          apply hm mb ⟨mp ++ ma ++ [m], rest, ?_⟩ (nonblank_of ?_ (by rw [e6]; exact hb))
          · rw [hmp]
            have : mp ++ mc ++ c :: rest = mp ++ (mc ++ [c]) ++ rest := by simp
            rw [this, hmc]; simp
          · intro x hx; exact hline x (by rw [hmc]; simp [hx])
        have hlc : mc.length + 1 = a.length + 1 + mb.length := by
          have h1 := congrArg List.length hmc
          have h2 := congrArg List.length e2
          simp at h1 h2
          omega
        have hcol' : (pre ++ mc.map tab).length - (pre ++ a).length + 1 = mb.length + 1 := by
          rw [hlen, hpl]; omega
        rw [hcol', ← e6]
        have := procS_within L msg hm rest (pre ++ a ++ [64]) mb (mb.length + 1) (pre ++ a).length
          { msg := ⟨mp ++ ma ++ [m], by
              rw [hmp]
              have : mp ++ mc ++ c :: rest = mp ++ (mc ++ [c]) ++ rest := by simp
              rw [this, hmc]; simp⟩
            start := .inr ⟨_, rfl, h.within _ (within_short (by omega)), rfl⟩
            col := hbs
            line := fun x hx => hline x (by rw [hmc]; simp [hx])
            space := by
              intro a' b' e' _
              exfalso
              rw [e6] at e'
              exact hb (by rw [e']; simp) }
        simpa using this
      · rw [if_neg hL]
        have hlt : col + 1 ≤ L := by
          have : col ≠ L := fun e => hL (by omega)
          omega
        have := procS_within L msg hm rest pre (mc ++ [c]) (col + 1) ls'
          { msg := ⟨mp, by rw [hmp]; simp⟩
            start := by
              rcases h.start with ⟨e, e'⟩ | ⟨q, e, hq, e'⟩
              · exact .inl ⟨e, by simp; omega⟩
              · exact .inr ⟨q, e, hq, by simp; omega⟩
            col := hlt
            line := hline
            space := hsp }
        simpa using this

/-- A word is a run of the text, and every run without blanks is part of a word. -/
theorem runs_mem (sep : UInt8 → Bool) : ∀ (s cur w : CStr), (∀ c ∈ w, sep c = false) → (∀ c ∈ cur, sep c = false) →
    w <:+: s → w ≠ [] → ∃ v ∈ runsFrom sep cur s, w.length ≤ v.length
  | [], cur, w, _, _, h, hne => by
    have : w = [] := by simpa using h
    exact absurd this hne
  | c :: s, cur, w, hw, hc, h, hne => by
    rw [runsFrom]
    rcases List.infix_cons_iff.1 h with hp | hi
    · -- the run starts here
      have key : ∀ (w s cur : CStr), (∀ c ∈ w, sep c = false) → w <+: s → w ≠ [] → ∃ v ∈ runsFrom sep cur s,
          cur.length + w.length ≤ v.length := by
        intro w
        induction w with
        | nil => intro s cur _ _ h; exact absurd rfl h
        | cons x w ih =>
          intro s cur hw hp _
          obtain ⟨t, e⟩ := hp
          cases s with
          | nil => simp at e
          | cons y s =>
            simp only [List.cons_append, List.cons.injEq] at e
            rw [← e.1, runsFrom, hw x (by simp)]
            simp only [Bool.false_eq_true, if_false]
            by_cases hwn : w = []
            · subst hwn
              have hcur : ∀ (s cur : CStr), cur ≠ [] → ∃ v ∈ runsFrom sep cur s, cur.length ≤ v.length := by
                intro s
                induction s with
                | nil => intro cur h; rw [runsFrom, if_neg h]; exact ⟨cur, by simp, Nat.le_refl _⟩
                | cons z s ihs =>
                  intro cur h
                  rw [runsFrom]
                  by_cases hz : sep z = true
                  · rw [if_pos hz, if_neg h]; exact ⟨cur, by simp, Nat.le_refl _⟩
                  · rw [if_neg hz]
                    obtain ⟨v, hv, hl⟩ := ihs (cur ++ [z]) (by simp)
                    exact ⟨v, hv, by simp at hl; omega⟩
              obtain ⟨v, hv, hl⟩ := hcur s (cur ++ [x]) (by simp)
              exact ⟨v, hv, by simp at hl ⊢; omega⟩
            · obtain ⟨v, hv, hl⟩ := ih s (cur ++ [x]) (fun z hz => hw z (by simp [hz])) ⟨t, e.2⟩ hwn
              exact ⟨v, hv, by simp at hl ⊢; omega⟩
      obtain ⟨v, hv, hl⟩ := key w (c :: s) cur hw hp hne
      rw [runsFrom] at hv
      exact ⟨v, hv, by omega⟩
    · by_cases hs : sep c = true
      · rw [if_pos hs]
        obtain ⟨v, hv, hl⟩ := runs_mem sep s [] w hw (by simp) hi hne
        by_cases hcu : cur = []
        · rw [if_pos hcu]; exact ⟨v, hv, hl⟩
        · rw [if_neg hcu]; exact ⟨v, by simp [hv], hl⟩
      · rw [if_neg hs]
        exact runs_mem sep s _ w hw (by
          intro x hx
          rcases List.mem_append.1 hx with hx | hx
          · exact hc x hx
          · rw [List.mem_singleton.1 hx]; simpa using hs) hi hne

theorem short_of_words {L : Nat} {s : CStr} (hL : 1 ≤ L) (h : WordsBelow L s) : Short L s := by
  intro w hw hb
  by_cases hne : w = []
  · subst hne; exact hL
  · obtain ⟨v, hv, hl⟩ := runs_mem isBlank s [] w hb (by simp) hw hne
    exact Nat.lt_of_le_of_lt hl (h v hv)

end Verif.Spec.Cti
