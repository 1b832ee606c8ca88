import Verif.Lemmas.Str

/-!
# Properties C07 – C12: the string functions of `palm`

Strings are arbitrary byte strings without NUL; lengths are bounded only where the C code keeps them in an `int`.
-/

namespace Verif.Props
open Verif.Str Verif.Spec.Str

/-! ## C07 -/

/-- C07: `STRcat` returns NULL only if both arguments are NULL and otherwise a block that holds exactly the
concatenation (one byte per character and the terminator, all written inside the block). -/
theorem C07_strcat (a b : Option CStr) (ha : ∀ s, a = some s → NoNul s) (hb : ∀ s, b = some s → NoNul s)
    (hl : (a.getD []).length + (b.getD []).length + 1 < 2 ^ 63) :
    (a = none ∧ b = none ∧ STRcat a b = .ok none) ∨
    ((a ≠ none ∨ b ≠ none) ∧ ∃ r, STRcat a b = .ok (some r) ∧ cstr r = .ok (a.getD [] ++ b.getD []) ∧
      r.length = (a.getD [] ++ b.getD []).length + 1) := by
  cases a with
  | none =>
    cases b with
    | none => left; exact ⟨rfl, rfl, rfl⟩
    | some b =>
      right
      obtain ⟨r, h1, h2⟩ := STRcpy_some b (by simp at hl; omega)
      refine ⟨by simp, r, ?_, ?_, ?_⟩
      · simpa [STRcat] using h1
      · simpa using h2.cstr (hb b rfl)
      · simpa using h2.length
  | some a =>
    right
    cases b with
    | none =>
      obtain ⟨r, h1, h2⟩ := STRcpy_some a (by simp at hl; omega)
      refine ⟨by simp, r, ?_, ?_, ?_⟩
      · simpa [STRcat] using h1
      · simpa using h2.cstr (ha a rfl)
      · simpa using h2.length
    | some b =>
      simp only [Option.getD_some] at hl
      have hH : Holds ((a ++ b).map some ++ [some 0]) (a ++ b) := rfl
      refine ⟨by simp, (a ++ b).map some ++ [some 0], ?_, ?_, ?_⟩
      · have h1 := strcpy_fresh a b.length
        have h2 := strcat_holds a b (ha a rfl) 0
        rw [show a.length + 1 + b.length = a.length + b.length + 1 by omega] at h1
        simp only [Nat.add_zero, List.replicate_zero] at h2
        simp only [STRcat, malloc_ok _ (Nat.succ_pos _) hl, Res.bind_ok, h1, h2]
      · exact hH.cstr (noNul_append (ha a rfl) (hb b rfl))
      · exact hH.length

example : ∃ r, STRcat (some [104, 105]) (some [33]) = .ok (some r) ∧ cstr r = .ok [104, 105, 33] := ⟨_, rfl, rfl⟩

/-- C07: `STRcatn` returns the concatenation of its non-NULL arguments in a block of exactly the right size, and NULL
exactly when the concatenation is empty. -/
theorem C07_strcatn (args : List (Option CStr)) (hn : ∀ s, some s ∈ args → NoNul s)
    (hl : (args.filterMap id).flatten.length + 1 < 2 ^ 31) :
    ((args.filterMap id).flatten = [] ∧ STRcatn args = .ok none) ∨
    ((args.filterMap id).flatten ≠ [] ∧ ∃ r, STRcatn args = .ok (some r) ∧
      cstr r = .ok (args.filterMap id).flatten ∧ r.length = (args.filterMap id).flatten.length + 1) := by
  have hlen := catnLength_eq args (by omega)
  have hloop := catnLoop_eq args hn [] (by intro b hb; simp at hb)
  have hnul : NoNul (args.filterMap id).flatten := by
    intro b hb
    simp only [List.mem_flatten, List.mem_filterMap, id] at hb
    obtain ⟨l, ⟨o, ho, rfl⟩, hb⟩ := hb
    exact hn l ho b hb
  generalize (args.filterMap id).flatten = cat at *
  by_cases h0 : cat = []
  · left
    refine ⟨h0, ?_⟩
    rw [h0] at hlen
    have hz : catnLength 0 args = 0 := hlen
    simp only [STRcatn, hz, if_true]
  · right
    have hpos : 0 < cat.length := List.length_pos_iff.mpr h0
    have hH : Holds (cat.map some ++ [some 0]) cat := rfl
    refine ⟨h0, cat.map some ++ [some 0], ?_, hH.cstr hnul, hH.length⟩
    simp only [STRcatn]
    rw [hlen, if_neg (by omega)]
    have hi : int32 ((cat.length : Int) + 1) = .ok ((cat.length + 1 : Nat) : Int) := by
      unfold int32
      rw [if_pos (by omega)]
      rfl
    rw [hi, Res.bind_ok, intToSize_nat _ (by omega), malloc_ok _ (by omega) (by omega), Res.bind_ok]
    have hp : poke (List.replicate (cat.length + 1) none) 0 0 = .ok (some 0 :: List.replicate cat.length none) := by
      rw [List.replicate_succ]; exact poke_mid [] none _ 0
    rw [hp, Res.bind_ok]
    simp only [List.map_nil, List.nil_append] at hloop
    rw [hloop]
    rfl

example : ∃ r, STRcatn [some [104, 105], none, some [], some [33]] = .ok (some r) ∧ cstr r = .ok [104, 105, 33] := by
  rcases C07_strcatn [some [104, 105], none, some [], some [33]] (by simp [NoNul]) (by decide) with h | ⟨_, r, h1, h2, _⟩
  · simp at h
  · exact ⟨r, h1, h2⟩

/-! ## C08 -/

/-- C08: the call succeeds exactly for the arguments described by `SliceOk`; every other combination overflows,
runs out of bounds or aborts. -/
theorem C08_substr_ok_iff (s : CStr) (hs : s.length + 1 < 2 ^ 31) (start len : Int)
    (hst : -(2 ^ 31) ≤ start ∧ start < 2 ^ 31) (hle : -(2 ^ 31) ≤ len ∧ len < 2 ^ 31) :
    (∃ b, STRsubStr (some s) start len = .ok b) ↔ SliceOk s.length start len := by
  constructor
  · rintro ⟨b, hb⟩
    apply Classical.byContradiction
    intro h
    exact subStr_bad s hs start len hle h b hb
  · rintro ⟨h1, h2, h3⟩
    by_cases hp : (s.length : Int) < start
    · exact ⟨_, subStr_past s hs start len hst hle ⟨h1, h2⟩ hp⟩
    · have h3 := h3.resolve_left hp
      exact ⟨_, subStr_in s hs start len hle ⟨h1, h2⟩ hp h3.1 h3.2⟩

example : SliceOk 5 1 (-2) ∧ ¬ SliceOk 5 1 (-6) ∧ ¬ SliceOk 5 (-1) 2 := by
  unfold SliceOk askedLen; omega

/-- C08: when the call succeeds it returns the documented slice (clamped to the string, empty if the start lies past
the end) in a block of exactly the right size.  Missing compared to the property: the arguments excluded by
`SliceOk`, for which the claim is false (`C08_substr_false`). -/
theorem C08_substr_partial (s : CStr) (hn : NoNul s) (hs : s.length + 1 < 2 ^ 31) (start len : Int)
    (hst : -(2 ^ 31) ≤ start ∧ start < 2 ^ 31) (hle : -(2 ^ 31) ≤ len ∧ len < 2 ^ 31)
    (h : SliceOk s.length start len) :
    ∃ b, STRsubStr (some s) start len = .ok b ∧ cstr b = .ok (slice s start len) ∧
      b.length = (slice s start len).length + 1 := by
  obtain ⟨h1, h2, h3⟩ := h
  by_cases hp : (s.length : Int) < start
  · have e : slice s start len = [] := by
      unfold slice
      rw [List.drop_eq_nil_of_le (by omega)]
      simp
    exact ⟨_, subStr_past s hs start len hst hle ⟨h1, h2⟩ hp, by rw [e]; rfl, by rw [e]; rfl⟩
  · have h3 := h3.resolve_left hp
    have hH : Holds ((slice s start len).map some ++ [some 0]) (slice s start len) := rfl
    refine ⟨_, subStr_in s hs start len hle ⟨h1, h2⟩ hp h3.1 h3.2, hH.cstr ?_, hH.length⟩
    intro b hb
    exact hn b (List.mem_of_mem_drop (List.mem_of_mem_take hb))

example : slice [97, 98, 99, 100, 101] 1 (-2) = [98, 99, 100] ∧ slice [97, 98] 1 9 = [98] ∧
    slice [97, 98] 2 1 = [] := by decide

/-- C08 is false for every length: with a start inside the string, asking for `INT_MAX` characters overflows instead of
clamping. -/
theorem C08_substr_false : ∃ (s : CStr) (start len : Int), NoNul s ∧ 0 ≤ start ∧ start < s.length ∧ 0 ≤ len ∧
    len < 2 ^ 31 ∧ (STRsubStr (some s) start len).isUB = true := by
  refine ⟨[97, 98], 1, 2147483647, by simp [NoNul], by simp, by simp, by simp, by simp, ?_⟩
  rw [subStr_asked _ (by decide) _ _ (by omega), int32_ub _ (by unfold askedLen; omega)]
  rfl

/-- C08: a NULL string only works with a positive start. -/
theorem C08_substr_null (start len : Int) (b : Buf) (h : STRsubStr none start len = .ok b) :
    0 < start ∧ cstr b = .ok [] := by
  have hL : sizeToInt 0 = 0 := sizeToInt_small 0 (by decide)
  simp only [STRsubStr, STRlen, hL] at h
  by_cases hs : 0 < start
  · refine ⟨hs, ?_⟩
    simp only [Res.bind_eq_ok] at h
    obtain ⟨_, _, _, _, _, _, h⟩ := h
    rw [if_pos hs] at h
    cases h
    rfl
  · exfalso
    simp only [Res.bind_eq_ok] at h
    obtain ⟨_, _, _, _, _, _, h⟩ := h
    rw [if_neg hs] at h
    simp only [Res.bind_eq_ok] at h
    obtain ⟨_, _, _, _, h⟩ := h
    cases h

example : ∃ b, STRsubStr none 1 1 = .ok b := by
  have hL : sizeToInt 0 = 0 := sizeToInt_small 0 (by decide)
  have e1 : int32 2 = .ok 2 := int32_ok _ (by omega)
  have e2 : int32 (-1) = .ok (-1) := int32_ok _ (by omega)
  refine ⟨[some 0], ?_⟩
  simp [STRsubStr, STRlen, hL, e1, e2, STRnull, MEMmalloc, poke]

/-! ## C09 -/

/-- C09: the first call on a string does not depend on what was tokenised before. -/
theorem C09_restart (st st' : TokState) (s : CStr) (sep : Option CStr) :
    STRtok st (some s) sep = STRtok st' (some s) sep := rfl

example : STRtok (some [1, 2]) (some [97, 44, 98]) (some [44]) = (some [98], some [97]) := rfl

/-- C09: starting from any state, a client that passes `s` and then NULL until NULL comes back gets a token list that
has no separators in it, one more token than separators, and that weaves back to `s`. -/
theorem C09_tokens (st : TokState) (s seps : CStr) (hn : NoNul s) :
    ∃ st' t, STRtok st (some s) (some seps) = (st', some t) ∧ (∃ ts, Drains (some seps) st' ts) ∧
      ∀ ts, Drains (some seps) st' ts →
        (∀ x ∈ t :: ts, ∀ c ∈ x, c ∉ seps) ∧
        (t :: ts).length = (s.filter (fun c => decide (c ∈ seps))).length + 1 ∧
        weave (t :: ts) (s.filter (fun c => decide (c ∈ seps))) = s := by
  have e : STRtok st (some s) (some seps) = STRtok (some s) none (some seps) := rfl
  obtain ⟨⟨ts, hts⟩, hall⟩ := drains_spec seps s.length s (Nat.le_refl _) hn
  rw [e]
  cases hts with
  | stop h => simp [STRtok] at h
  | @next _ st' t ts h h' => exact ⟨st', t, h, ⟨ts, h'⟩, fun ts2 h2 => hall _ (.next h h2)⟩

example : weave [[97], [], [98]] [44, 59] = [97, 44, 59, 98] := rfl

/-! ## C10 -/

/-- C10: for a non-empty token the call terminates without touching memory outside its block, fills the block
exactly, and the block holds the replaced string. -/
theorem C10_subst (s t sub : CStr) (ht : t ≠ []) (hs : NoNul s) (hsub : NoNul sub) (h1 : s.length < 2 ^ 31)
    (h2 : t.length < 2 ^ 31) (h3 : sub.length + 1 < 2 ^ 31) :
    ∃ b r, STRsubstToken (some s) (some t) (some sub) = .ok b ∧ Replaced t sub s r ∧ cstr b = .ok r ∧
      b.length = r.length + 1 := by
  obtain ⟨r, k, hR, hlen, hb, hk, _, hocc, hsubst, _⟩ := subst_spec t sub ht h2 s.length s (Nat.le_refl _)
  have hH : Holds (r.map some ++ [some 0]) r := rfl
  have hrn : NoNul r := replaced_noNul hR hs hsub
  refine ⟨_, r, ?_, hR, hH.cstr hrn, hH.length⟩
  have hbound : s.length * (sub.length + 1) ≤ 2 ^ 31 * 2 ^ 31 := Nat.mul_le_mul (by omega) (by omega)
  have hz : (s.length : Int) + (k : Int) * ((STRlen (some sub) : Int) - t.length) + 1 = ((r.length + 1 : Nat) : Int) := by
    have : ((r.length + k * t.length : Nat) : Int) = ((s.length + k * sub.length : Nat) : Int) := by rw [hlen]
    simp only [STRlen]
    rw [Int.mul_sub]
    push_cast at this ⊢
    omega
  have ho := hocc (s.length + 1) 0 (by omega)
  rw [Nat.zero_add] at ho
  have hw := hsubst (s.length + 1) [] [none] (by omega)
  simp only [List.length_nil, List.nil_append, Nat.zero_add] at hw
  simp only [STRsubstToken, ho, Res.bind_ok, hz]
  rw [intToSize_nat _ (by omega), malloc_ok _ (by omega) (by omega), Res.bind_ok, List.replicate_succ', hw, Res.bind_ok]
  have := poke_mid (r.map some) none [] 0
  rw [List.length_map] at this
  exact this

/-- C10: the replaced string is determined by the specification. -/
theorem C10_spec_functional (t sub : CStr) (ht : t ≠ []) (s r r' : CStr) (h : Replaced t sub s r)
    (h' : Replaced t sub s r') : r = r' := replaced_unique ht h h'

example : Replaced [97, 97] [98] [97, 97, 97, 99] [98, 97, 99] :=
  .hit (s := [97, 99]) (r := [97, 99]) (.miss (by decide) (.miss (by decide) .nil))

/-- C10, outside the property: an empty token makes the counting loop run forever. -/
theorem C10_empty_token_diverges (s : CStr) (sub : Option CStr) :
    STRsubstToken (some s) (some []) sub = .diverge := by
  have h : ∀ (n : Nat) (x : CStr) (acc : Nat), occLoop [] n (some x) acc = .diverge := by
    intro n
    induction n with
    | zero => intro x acc; rfl
    | succ n ih =>
      intro x acc
      have e : strstr [] x = some x := by cases x <;> rfl
      rw [occLoop, List.length_nil, List.drop_zero, e, ih]
  have e : strstr [] s = some s := by cases s <;> rfl
  simp only [STRsubstToken]
  rw [e, h]
  rfl

/-! ## C11 -/

/-- C11: `STReq` decides equality (NULL only equals NULL). -/
theorem C11_streq (a b : Option CStr) : STReq a b = true ↔ a = b := by
  cases a <;> cases b <;> simp [STReq, strcmpEq]

example : STReq (some [97]) (some [97]) = true ∧ STReq (some [97]) none = false := by decide

/-- C11: `STReqn` decides equality of the first `n` characters. -/
theorem C11_streqn (a b : CStr) (n : Nat) (hn : n < 2 ^ 31) :
    STReqn (some a) (some b) n = true ↔ a.take n = b.take n := by
  have e := intToSize_nat n (by omega)
  simp only [STReqn, e]
  exact strncmpEq_iff n a b

/-- C11: `STReqn` with NULL: two NULLs are equal, NULL and a string are equal only for `n = 0`. -/
theorem C11_streqn_null (a : CStr) (n : Int) :
    STReqn none none n = true ∧ (STReqn none (some a) n = true ↔ n = 0) ∧ (STReqn (some a) none n = true ↔ n = 0) := by
  simp [STReqn]

example : ([97, 98] : CStr).take 1 = ([97, 99] : CStr).take 1 := rfl

/-- C11: `STReqci` on 7-bit strings decides equality up to letter case, which is equality of the `STRlower` results. -/
theorem C11_streqci (a b : CStr) (ha : Ascii a) (hb : Ascii b) (hal : a.length + 1 < 2 ^ 63)
    (hbl : b.length + 1 < 2 ^ 63) :
    STReqci (some a) (some b) = .ok (decide (SameName a b)) ∧
    (STReqci (some a) (some b) = .ok true ↔ STRlower (some a) = STRlower (some b)) := by
  have h1 : STReqci (some a) (some b) = .ok (decide (SameName a b)) := eqciLoop_ascii a b ha hb
  refine ⟨h1, ?_⟩
  rw [h1]
  have ea := conv_holds ctolower lowerB a (fun c hc => ctolower_ascii c (ha c hc)) hal
  have eb := conv_holds ctolower lowerB b (fun c hc => ctolower_ascii c (hb c hc)) hbl
  simp only [STRlower]
  rw [ea, eb]
  constructor
  · intro h
    have h : a.map lowerB = b.map lowerB := of_decide_eq_true (Res.ok.inj h)
    rw [h]
  · intro h
    have h := Option.some.inj (Res.ok.inj h)
    rw [List.append_cancel_right_eq] at h
    congr 1
    exact decide_eq_true (map_some_inj h)

example : SameName [84, 114, 97, 118] [116, 82, 65, 86] ∧ Ascii [84, 114, 97, 118] := by
  constructor
  · decide
  · simp [Ascii]

/-- C11: NULL in `STReqci`. -/
theorem C11_streqci_null (a : CStr) : STReqci none none = .ok true ∧ STReqci none (some a) = .ok false ∧
    STReqci (some a) none = .ok false := ⟨rfl, rfl, rfl⟩

/-- C11: `STRprefix` decides the prefix relation; NULL is a prefix of everything. -/
theorem C11_strprefix (p s : CStr) (hp : p.length < 2 ^ 31) :
    (STRprefix (some p) (some s) = true ↔ p <+: s) ∧ (∀ x, STRprefix none x = true) ∧
    STRprefix (some p) none = false := by
  refine ⟨?_, fun _ => rfl, rfl⟩
  rw [prefix_iff _ _ hp]
  simp

example : ([97] : CStr) <+: [97, 98] := by decide

/-- C11: `STRsub` decides the substring relation; NULL is a substring of everything. -/
theorem C11_strsub (x s : CStr) : (STRsub (some x) (some s) = true ↔ x <:+: s) ∧ (∀ y, STRsub none y = true) ∧
    STRsub (some x) none = false := by
  refine ⟨?_, fun _ => rfl, rfl⟩
  simp only [STRsub]
  have := strstr_none x s
  cases h : strstr x s with
  | none => simpa [h] using this
  | some r =>
    have hn : ¬ strstr x s = none := by rw [h]; simp
    rw [this] at hn
    simpa using hn

example : ([98] : CStr) <:+: [97, 98, 99] := by decide

/-- C11: `STRsuffix` decides the suffix relation on strings.  Missing: NULL, for which the claim is false
(`C11_strsuffix_null_false`). -/
theorem C11_strsuffix_partial (x s : CStr) : STRsuffix (some x) (some s) = .ok (decide (x <:+ s)) := by
  unfold STRsuffix
  by_cases h : STRlen (some x) > STRlen (some s)
  · rw [if_pos h]
    congr 1; symm; rw [decide_eq_false_iff_not]
    intro hs
    have := hs.length_le
    simp only [STRlen] at h
    omega
  · rw [if_neg h]
    show Res.ok _ = Res.ok _
    congr 1
    rw [Bool.eq_iff_iff, decide_eq_true_iff, strcmpEq, beq_iff_eq, List.suffix_iff_eq_drop]
    exact eq_comm

example : ([98, 99] : CStr) <:+ [97, 98, 99] := by decide

/-- C11 is false for NULL: `STRprefix` and `STRsub` accept NULL, `STRsuffix` passes it to `strcmp`. -/
theorem C11_strsuffix_null_false : (∀ s, (STRsuffix none (some s)).isUB = true) ∧
    (STRsuffix none none).isUB = true ∧ (STRsuffix (some []) none).isUB = true := by
  refine ⟨fun s => ?_, rfl, rfl⟩
  simp [STRsuffix, STRlen, Res.isUB]

/-! ## C12 -/

/-- C12: on 7-bit strings `STRlower` and `STRupper` succeed, keep the length, and hold the converted string; the
in-place versions compute the same. -/
theorem C12_fold (s : CStr) (hs : Ascii s) (hn : NoNul s) (hl : s.length + 1 < 2 ^ 63) :
    ∃ lo up, STRlower (some s) = .ok (some lo) ∧ STRupper (some s) = .ok (some up) ∧
      cstr lo = .ok (s.map lowerB) ∧ cstr up = .ok (s.map upperB) ∧
      lo.length = s.length + 1 ∧ up.length = s.length + 1 ∧
      STRtoLower (some s) = .ok (some (s.map lowerB)) ∧ STRtoUpper (some s) = .ok (some (s.map upperB)) := by
  have el := conv_holds ctolower lowerB s (fun c hc => ctolower_ascii c (hs c hc)) hl
  have eu := conv_holds ctoupper upperB s (fun c hc => ctoupper_ascii c (hs c hc)) hl
  have ml := mapRes_ok ctolower lowerB s (fun c hc => ctolower_ascii c (hs c hc))
  have mu := mapRes_ok ctoupper upperB s (fun c hc => ctoupper_ascii c (hs c hc))
  have hL : Holds ((s.map lowerB).map some ++ [some 0]) (s.map lowerB) := rfl
  have hU : Holds ((s.map upperB).map some ++ [some 0]) (s.map upperB) := rfl
  refine ⟨_, _, el, eu, hL.cstr ?_, hU.cstr ?_, by simp, by simp, ?_, ?_⟩
  · intro b hb
    simp only [List.mem_map] at hb
    obtain ⟨c, hc, rfl⟩ := hb
    exact lowerB_ne_zero c (hn c hc)
  · intro b hb
    simp only [List.mem_map] at hb
    obtain ⟨c, hc, rfl⟩ := hb
    exact upperB_ne_zero c (hn c hc)
  · simp only [STRtoLower]; rw [ml]; rfl
  · simp only [STRtoUpper]; rw [mu]; rfl

example : ([84, 114, 95, 49] : CStr).map lowerB = [116, 114, 95, 49] := by decide

/-- C12: converting twice is converting once. -/
theorem C12_idempotent (s : CStr) (hs : Ascii s) (s' : CStr) :
    (STRtoLower (some s) = .ok (some s') → STRtoLower (some s') = .ok (some s')) ∧
    (STRtoUpper (some s) = .ok (some s') → STRtoUpper (some s') = .ok (some s')) := by
  have ml := mapRes_ok ctolower lowerB s (fun c hc => ctolower_ascii c (hs c hc))
  have mu := mapRes_ok ctoupper upperB s (fun c hc => ctoupper_ascii c (hs c hc))
  constructor
  · intro h
    simp only [STRtoLower, ml, Res.bind_ok, Res.ok.injEq, Option.some.injEq] at h
    subst h
    simp only [STRtoLower]
    rw [mapRes_ok ctolower lowerB]
    · simp [Function.comp_def, lowerB_idem]
    · intro c hc
      simp only [List.mem_map] at hc
      obtain ⟨d, hd, rfl⟩ := hc
      exact ctolower_ascii _ (lowerB_ascii d (hs d hd))
  · intro h
    simp only [STRtoUpper, mu, Res.bind_ok, Res.ok.injEq, Option.some.injEq] at h
    subst h
    simp only [STRtoUpper]
    rw [mapRes_ok ctoupper upperB]
    · simp [Function.comp_def, upperB_idem]
    · intro c hc
      simp only [List.mem_map] at hc
      obtain ⟨d, hd, rfl⟩ := hc
      exact ctoupper_ascii _ (upperB_ascii d (hs d hd))

example : STRtoLower (some [84, 114]) = .ok (some [116, 114]) := by decide

/-- C12: two names have the same lower-case form exactly when they have the same upper-case form. -/
theorem C12_one_identity (a b : CStr) (ha : Ascii a) (hb : Ascii b) :
    STRtoLower (some a) = STRtoLower (some b) ↔ STRtoUpper (some a) = STRtoUpper (some b) := by
  have la := mapRes_ok ctolower lowerB a (fun c hc => ctolower_ascii c (ha c hc))
  have lb := mapRes_ok ctolower lowerB b (fun c hc => ctolower_ascii c (hb c hc))
  have ua := mapRes_ok ctoupper upperB a (fun c hc => ctoupper_ascii c (ha c hc))
  have ub := mapRes_ok ctoupper upperB b (fun c hc => ctoupper_ascii c (hb c hc))
  simp only [STRtoLower, STRtoUpper, la, lb, ua, ub, Res.bind_ok, Res.ok.injEq, Option.some.injEq]
  exact map_lower_iff_upper a b

example : STRtoLower (some [84, 114]) = STRtoLower (some [116, 82]) := by decide

/-- C12: bytes above 127 are outside the property: they reach `tolower` as negative values. -/
theorem C12_non_ascii_false (s : CStr) (b : UInt8) (hb : 128 ≤ b) : (STRtoLower (some (b :: s))).isUB = true := by
  have : ctolower b = .ub "tolower of a negative char" := by
    unfold ctolower; rw [if_pos hb]
  simp only [STRtoLower, mapRes, this]
  rfl

example : (128 : UInt8) ≤ 200 := by decide

end Verif.Props
