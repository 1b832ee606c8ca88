import Verif.Model.Str
import Verif.Spec.Str

/-! # Helper lemmas for strings -/

namespace Verif.Str
open Verif.Spec.Str

theorem poke_mid (pre : Buf) (x : Option UInt8) (post : Buf) (c : UInt8) :
    poke (pre ++ x :: post) pre.length c = .ok (pre ++ some c :: post) := by
  simp [poke]

theorem pokes_mid (l : List UInt8) : ∀ (pre mid post : Buf), mid.length = l.length →
    pokes (pre ++ mid ++ post) pre.length l = .ok (pre ++ l.map some ++ post) := by
  induction l with
  | nil =>
    intro pre mid post h
    have : mid = [] := List.eq_nil_of_length_eq_zero (by simpa using h)
    simp [pokes, this]
  | cons c l ih =>
    intro pre mid post h
    cases mid with
    | nil => simp at h
    | cons x mid =>
      have h1 : pre ++ x :: mid ++ post = pre ++ x :: (mid ++ post) := by simp
      simp only [pokes, h1, poke_mid, Res.bind_ok]
      have h2 : pre ++ some c :: (mid ++ post) = (pre ++ [some c]) ++ mid ++ post := by simp
      have h3 : pre.length + 1 = (pre ++ [some c]).length := by simp
      rw [h2, h3, ih _ _ _ (by simpa using h)]
      simp

theorem cstr_append (s : CStr) (h : NoNul s) (rest : Buf) :
    cstr (s.map some ++ some 0 :: rest) = .ok s := by
  induction s with
  | nil => simp [cstr]
  | cons c s ih =>
    have hc : c ≠ 0 := h c (by simp)
    have := ih (fun b hb => h b (by simp [hb]))
    simp [cstr, hc, this]

theorem replicate_split (a b : Nat) :
    List.replicate (a + b) (none : Option UInt8) = [] ++ List.replicate a none ++ List.replicate b none := by
  simp [List.replicate_append_replicate]

theorem noNul_append {a b : CStr} (ha : NoNul a) (hb : NoNul b) : NoNul (a ++ b) := by
  intro x hx
  simp only [List.mem_append] at hx
  rcases hx with hx | hx
  · exact ha x hx
  · exact hb x hx

/-- A block that holds exactly the string `s` and its terminator. -/
def Holds (b : Buf) (s : CStr) : Prop := b = s.map some ++ [some 0]

theorem Holds.cstr {b : Buf} {s : CStr} (h : Holds b s) (hn : NoNul s) : cstr b = .ok s := by
  rw [h]; exact cstr_append s hn []

theorem Holds.length {b : Buf} {s : CStr} (h : Holds b s) : b.length = s.length + 1 := by
  rw [h]; simp

theorem strcpy_fresh (s : CStr) (n : Nat) :
    strcpy (List.replicate (s.length + 1 + n) none) s = .ok (s.map some ++ some 0 :: List.replicate n none) := by
  have := pokes_mid (s ++ [0]) [] (List.replicate (s.length + 1) none) (List.replicate n none) (by simp)
  rw [strcpy, replicate_split]
  simp only [List.length_nil] at this
  rw [this]; simp

theorem malloc_ok (n : Nat) (h0 : 0 < n) (h : n < 2 ^ 63) : MEMmalloc n = .ok (List.replicate n none) := by
  simp only [MEMmalloc]
  rw [if_neg (by omega), if_neg (by omega)]

theorem STRcpy_some (s : CStr) (h : s.length + 1 < 2 ^ 63) : ∃ b, STRcpy (some s) = .ok (some b) ∧ Holds b s := by
  refine ⟨s.map some ++ [some 0], ?_, rfl⟩
  simp only [STRcpy, malloc_ok _ (Nat.succ_pos _) h, Res.bind_ok]
  have := strcpy_fresh s 0
  simp only [Nat.add_zero] at this
  rw [this]; simp

theorem strcat_holds (d s : CStr) (hd : NoNul d) (n : Nat) :
    strcat (d.map some ++ some 0 :: List.replicate (s.length + n) none) s =
      .ok ((d ++ s).map some ++ some 0 :: List.replicate n none) := by
  simp only [strcat, cstr_append d hd, Res.bind_ok]
  have h1 : d.map some ++ some 0 :: List.replicate (s.length + n) none =
      d.map some ++ (some 0 :: List.replicate s.length none) ++ List.replicate n none := by
    simp [List.replicate_append_replicate]
  have h2 : d.length = (d.map (some : UInt8 → Option UInt8)).length := by simp
  rw [h1, h2, pokes_mid _ _ _ _ (by simp)]
  simp

theorem sizeToInt_small (n : Nat) (h : n < 2 ^ 31) : sizeToInt n = n := by
  unfold sizeToInt
  rw [Int.bmod_def]
  have e : ((2 ^ 32 : Nat) : Int) = 4294967296 := by decide
  rw [e]
  split
  · omega
  · omega

theorem intToSize_nat (n : Nat) (h : n < 2 ^ 64) : intToSize n = n := by
  simp only [intToSize]; omega

theorem catnLength_eq' (args : List (Option CStr)) (B : Nat) (hB : B ≤ 2 ^ 31) : ∀ (acc : Nat),
    acc + (args.filterMap id).flatten.length < B →
    catnLength (acc : Int) args = ((acc + (args.filterMap id).flatten.length : Nat) : Int) := by
  induction args with
  | nil => intro acc _; rfl
  | cons a args ih =>
    intro acc h
    cases a with
    | none => exact ih acc h
    | some s =>
      have e2 : ((some s :: args).filterMap id).flatten = s ++ (args.filterMap id).flatten := rfl
      rw [e2, List.length_append] at h ⊢
      have h1 : catnLength (acc : Int) (some s :: args) = catnLength ((acc + s.length : Nat) : Int) args := by
        have e : ((acc : Int) + s.length) = ((acc + s.length : Nat) : Int) := by omega
        have e3 : catnLength (acc : Int) (some s :: args) =
          catnLength (sizeToInt (intToSize ((acc : Int) + s.length))) args := by
          rw [catnLength]
        rw [e3, e, intToSize_nat _ (by omega), sizeToInt_small _ (by omega)]
      rw [h1, ih _ (by omega), Nat.add_assoc]

theorem catnLength_eq (args : List (Option CStr)) (h : (args.filterMap id).flatten.length < 2 ^ 31) :
    catnLength 0 args = ((args.filterMap id).flatten.length : Nat) := by
  have := catnLength_eq' args (2 ^ 31) (Nat.le_refl _) 0 (by rw [Nat.zero_add]; exact h)
  rw [Nat.zero_add] at this
  exact this

theorem catnLoop_eq (args : List (Option CStr)) (hn : ∀ s, some s ∈ args → NoNul s) : ∀ (d : CStr), NoNul d →
    catnLoop (d.map some ++ some 0 :: List.replicate (args.filterMap id).flatten.length none) args =
      .ok ((d ++ (args.filterMap id).flatten).map some ++ [some 0]) := by
  induction args with
  | nil => intro d hd; simp [catnLoop]
  | cons a args ih =>
    intro d hd
    have ih := ih (fun s hs => hn s (by simp [hs]))
    cases a with
    | none => simpa [catnLoop] using ih d hd
    | some s =>
      simp only [List.filterMap_cons, id_eq, List.flatten_cons, List.length_append, catnLoop]
      rw [strcat_holds d s hd]
      simp only [Res.bind_ok]
      rw [ih (d ++ s) (noNul_append hd (hn s (by simp)))]
      simp

theorem ctolower_ascii (c : UInt8) (h : c < 128) : ctolower c = .ok (lowerB c) := by
  simp only [ctolower, lowerB]
  rw [if_neg (by simpa using h)]
  split <;> rfl

theorem ctoupper_ascii (c : UInt8) (h : c < 128) : ctoupper c = .ok (upperB c) := by
  simp only [ctoupper, upperB]
  rw [if_neg (by simpa using h)]
  split <;> rfl

theorem eqciLoop_ascii (a : CStr) : ∀ b : CStr, Ascii a → Ascii b →
    eqciLoop a b = .ok (decide (a.map lowerB = b.map lowerB)) := by
  induction a with
  | nil => intro b _ _; cases b <;> simp [eqciLoop]
  | cons x a ih =>
    intro b ha hb
    cases b with
    | nil => simp [eqciLoop]
    | cons y b =>
      have hx := ha x (by simp)
      have hy := hb y (by simp)
      simp only [eqciLoop, ctolower_ascii x hx, ctolower_ascii y hy, Res.bind_ok]
      rw [ih b (fun z hz => ha z (by simp [hz])) (fun z hz => hb z (by simp [hz]))]
      by_cases h : lowerB x = lowerB y <;> simp [h]

theorem mapRes_ok (f : UInt8 → Res UInt8) (g : UInt8 → UInt8) (s : CStr)
    (h : ∀ c ∈ s, f c = .ok (g c)) : mapRes f s = .ok (s.map g) := by
  induction s with
  | nil => rfl
  | cons c s ih =>
    simp [mapRes, h c (by simp), ih (fun c hc => h c (by simp [hc]))]

theorem convLoop_ok (f : UInt8 → Res UInt8) (g : UInt8 → UInt8) (s : CStr)
    (h : ∀ c ∈ s, f c = .ok (g c)) : ∀ (pre : Buf),
    convLoop f s (pre ++ List.replicate (s.length + 1) none) pre.length =
      .ok (pre ++ (s.map g).map some ++ [some 0]) := by
  induction s with
  | nil => intro pre; simp [convLoop, poke]
  | cons c s ih =>
    intro pre
    simp only [convLoop, h c (by simp), Res.bind_ok]
    have h1 : pre ++ List.replicate ((c :: s).length + 1) (none : Option UInt8) =
        pre ++ none :: List.replicate (s.length + 1) none := by simp [List.replicate_succ]
    rw [h1, poke_mid, Res.bind_ok]
    have h2 : pre ++ some (g c) :: List.replicate (s.length + 1) none =
        (pre ++ [some (g c)]) ++ List.replicate (s.length + 1) none := by simp
    have h3 : pre.length + 1 = (pre ++ [some (g c)]).length := by simp
    rw [h2, h3, ih (fun c hc => h c (by simp [hc]))]
    simp

theorem conv_holds (f : UInt8 → Res UInt8) (g : UInt8 → UInt8) (s : CStr)
    (h : ∀ c ∈ s, f c = .ok (g c)) (hl : s.length + 1 < 2 ^ 63) :
    (do let b ← MEMmalloc (s.length + 1); let b ← convLoop f s b 0; Res.ok (some b)) =
      .ok (some ((s.map g).map some ++ [some 0])) := by
  rw [malloc_ok _ (Nat.succ_pos _) hl]
  have := convLoop_ok f g s h []
  simp only [List.length_nil, List.nil_append] at this
  simp only [Res.bind_ok, this]

theorem u8_forall {p : UInt8 → Prop} (h : ∀ n : Fin 256, p (UInt8.ofFin n)) (b : UInt8) : p b := by
  have := h b.toFin
  simpa using this

theorem lowerB_idem (b : UInt8) : lowerB (lowerB b) = lowerB b := by
  revert b; apply u8_forall; decide +kernel

theorem upperB_idem (b : UInt8) : upperB (upperB b) = upperB b := by
  revert b; apply u8_forall; decide +kernel

theorem lower_upper (b : UInt8) : lowerB (upperB b) = lowerB b := by
  revert b; apply u8_forall; decide +kernel

theorem upper_lower (b : UInt8) : upperB (lowerB b) = upperB b := by
  revert b; apply u8_forall; decide +kernel

theorem lowerB_ascii (b : UInt8) (h : b < 128) : lowerB b < 128 := by
  revert b; apply u8_forall; decide +kernel

theorem upperB_ascii (b : UInt8) (h : b < 128) : upperB b < 128 := by
  revert b; apply u8_forall; decide +kernel

theorem lowerB_ne_zero (b : UInt8) (h : b ≠ 0) : lowerB b ≠ 0 := by
  revert b; apply u8_forall; decide +kernel

theorem upperB_ne_zero (b : UInt8) (h : b ≠ 0) : upperB b ≠ 0 := by
  revert b; apply u8_forall; decide +kernel

theorem lower_eq_iff_upper_eq (a b : UInt8) : lowerB a = lowerB b ↔ upperB a = upperB b := by
  constructor
  · intro h; rw [← upper_lower a, h, upper_lower]
  · intro h; rw [← lower_upper a, h, lower_upper]

theorem map_lower_iff_upper (a b : CStr) : a.map lowerB = b.map lowerB ↔ a.map upperB = b.map upperB := by
  induction a generalizing b with
  | nil => cases b <;> simp
  | cons x a ih =>
    cases b with
    | nil => simp
    | cons y b => simp [ih b, lower_eq_iff_upper_eq]

theorem strncmpEq_iff (n : Nat) : ∀ a b : CStr, strncmpEq a b n = true ↔ a.take n = b.take n := by
  induction n with
  | zero => intro a b; cases a <;> cases b <;> simp [strncmpEq]
  | succ n ih =>
    intro a b
    cases a <;> cases b <;> simp [strncmpEq, ih]

theorem strstr_some (x : CStr) (s r : CStr) (h : strstr x s = some r) : r <:+ s ∧ x <+: r := by
  induction s with
  | nil =>
    simp only [strstr] at h
    split at h
    · simp at h; subst h; simp_all
    · simp at h
  | cons c s ih =>
    simp only [strstr] at h
    split at h
    · simp at h; subst h
      rename_i hp
      exact ⟨List.suffix_refl _, List.isPrefixOf_iff_prefix.mp hp⟩
    · have := ih h
      exact ⟨List.IsSuffix.trans this.1 (List.suffix_cons _ _), this.2⟩

theorem strstr_none (x : CStr) (s : CStr) : strstr x s = none ↔ ¬ x <:+: s := by
  induction s with
  | nil =>
    cases x with
    | nil => simp [strstr]
    | cons a x => simp [strstr]
  | cons c s ih =>
    simp only [strstr]
    split
    · rename_i hp
      simp only [reduceCtorEq, false_iff, Classical.not_not]
      exact (List.isPrefixOf_iff_prefix.mp hp).isInfix
    · rename_i hp
      rw [ih, List.infix_cons_iff]
      have : ¬ x <+: c :: s := fun h => hp (List.isPrefixOf_iff_prefix.mpr h)
      simp [this]

/-! ### Tokens -/

theorem tokScan_spec (seps : CStr) : ∀ (s : CStr), NoNul s →
    (∀ c ∈ (tokScan (some seps) s).1, c ∉ seps) ∧
    match (tokScan (some seps) s).2 with
    | none => s = (tokScan (some seps) s).1
    | some r => ∃ c ∈ seps, s = (tokScan (some seps) s).1 ++ c :: r := by
  intro s
  induction s with
  | nil => intro _; simp [tokScan]
  | cons c s ih =>
    intro hn
    have hc : c ≠ 0 := hn c (by simp)
    have ih := ih (fun b hb => hn b (by simp [hb]))
    by_cases hm : c ∈ seps
    · have : CharInString c (some seps) = true := by simp [CharInString, hc, hm]
      simp only [tokScan, this, if_true]
      refine ⟨by simp, c, hm, by simp⟩
    · have : CharInString c (some seps) = false := by simp [CharInString, hm]
      simp only [tokScan, this]
      obtain ⟨h1, h2⟩ := ih
      refine ⟨?_, ?_⟩
      · intro x hx
        simp only [Bool.false_eq_true, if_false, List.mem_cons] at hx
        rcases hx with rfl | hx
        · exact hm
        · exact h1 x hx
      · simp only [Bool.false_eq_true, if_false]
        cases h : (tokScan (some seps) s).2 with
        | none => rw [h] at h2; simp only at h2 ⊢; rw [← h2]
        | some r =>
          rw [h] at h2
          obtain ⟨d, hd, e⟩ := h2
          exact ⟨d, hd, by simp only [List.cons_append]; rw [← e]⟩

theorem filter_none {seps t : CStr} (h : ∀ c ∈ t, c ∉ seps) : t.filter (fun c => decide (c ∈ seps)) = [] := by
  rw [List.filter_eq_nil_iff]
  intro a ha
  simpa using h a ha

theorem drains_spec (seps : CStr) : ∀ (n : Nat) (cur : CStr), cur.length ≤ n → NoNul cur →
    (∃ ts, Drains (some seps) (some cur) ts) ∧
    ∀ ts, Drains (some seps) (some cur) ts →
      (∀ t ∈ ts, ∀ c ∈ t, c ∉ seps) ∧ ts.length = (cur.filter (fun c => decide (c ∈ seps))).length + 1 ∧
      weave ts (cur.filter (fun c => decide (c ∈ seps))) = cur := by
  intro n
  induction n with
  | zero =>
    intro cur hl hn
    have : cur = [] := by simpa using hl
    subst this
    constructor
    · exact ⟨[[]], .next (st' := none) rfl (.stop (st' := none) rfl)⟩
    · intro ts h
      cases h with
      | stop h => simp [STRtok, tokScan] at h
      | next h h' =>
        simp only [STRtok, tokScan, Prod.mk.injEq, Option.some.injEq] at h
        obtain ⟨h1, h2⟩ := h
        subst h1 h2
        cases h' with
        | stop h => simp [weave]
        | next h _ => simp [STRtok] at h
  | succ n ih =>
    intro cur hl hn
    obtain ⟨h1, h2⟩ := tokScan_spec seps cur hn
    cases hr : (tokScan (some seps) cur).2 with
    | none =>
      rw [hr] at h2
      simp only at h2
      have ht : STRtok (some cur) none (some seps) = (none, some cur) := by
        simp only [STRtok, hr]; rw [← h2]
      rw [← h2] at h1
      constructor
      · exact ⟨[cur], .next ht (.stop (st' := none) rfl)⟩
      · intro ts h
        cases h with
        | stop h => rw [ht] at h; simp at h
        | next h h' =>
          rw [ht] at h
          simp only [Prod.mk.injEq, Option.some.injEq] at h
          obtain ⟨e1, e2⟩ := h
          subst e1 e2
          cases h' with
          | next h _ => simp [STRtok] at h
          | stop h =>
            rw [filter_none h1]
            simp only [weave]
            exact ⟨by simpa using h1, by simp, trivial⟩
    | some r =>
      rw [hr] at h2
      obtain ⟨c, hc, e⟩ := h2
      generalize htk : (tokScan (some seps) cur).1 = tk at *
      have ht : STRtok (some cur) none (some seps) = (some r, some tk) := by
        simp only [STRtok, hr, htk]
      have hrn : NoNul r := by
        intro b hb; apply hn; rw [e]; simp [hb]
      have hrl : r.length ≤ n := by
        have := congrArg List.length e
        simp only [List.length_append, List.length_cons] at this
        omega
      obtain ⟨⟨ts0, hts0⟩, hall⟩ := ih r hrl hrn
      have hf : cur.filter (fun c => decide (c ∈ seps)) = c :: r.filter (fun c => decide (c ∈ seps)) := by
        rw [e, List.filter_append, filter_none h1, List.filter_cons]
        simp [hc]
      constructor
      · exact ⟨tk :: ts0, .next ht hts0⟩
      · intro ts h
        cases h with
        | stop h => rw [ht] at h; simp at h
        | @next _ st' tk' ts' h h' =>
          rw [ht] at h
          simp only [Prod.mk.injEq, Option.some.injEq] at h
          obtain ⟨e1, e2⟩ := h
          subst e1 e2
          obtain ⟨a1, a2, a3⟩ := hall ts' h'
          refine ⟨?_, ?_, ?_⟩
          · intro t ht
            simp only [List.mem_cons] at ht
            rcases ht with rfl | ht
            · exact h1
            · exact a1 t ht
          · rw [hf]; simp [a2]
          · rw [hf]
            cases ts' with
            | nil => simp at a2
            | cons t1 ts1 => rw [weave.eq_4 _ _ _ _ (by simp), a3, e]

/-! ### Token substitution -/

theorem prefix_iff (t s : CStr) (h : t.length < 2 ^ 31) : STRprefix (some t) (some s) = decide (t <+: s) := by
  simp only [STRprefix]
  rw [sizeToInt_small _ h, intToSize_nat _ (by omega)]
  split
  · rename_i hlt
    symm; rw [decide_eq_false_iff_not]
    intro hp
    have := hp.length_le
    omega
  · rw [Bool.eq_iff_iff, strncmpEq_iff, decide_eq_true_iff, List.prefix_iff_eq_take, List.take_length]

theorem subst_spec (t sub : CStr) (ht : t ≠ []) (htl : t.length < 2 ^ 31) : ∀ (m : Nat) (s : CStr), s.length ≤ m →
    ∃ (r : CStr) (k : Nat), Replaced t sub s r ∧ r.length + k * t.length = s.length + k * sub.length ∧
      r.length ≤ s.length * (sub.length + 1) ∧ k ≤ s.length ∧ (k = 0 → ∀ sub', Replaced t sub' s r) ∧
      (∀ n acc, s.length ≤ n → occLoop t n (strstr t s) acc = .ok (acc + k)) ∧
      (∀ n (pre post : Buf), s.length ≤ n →
        substLoop t sub n s (pre ++ List.replicate r.length none ++ post) pre.length =
          .ok (pre ++ r.map some ++ post, pre.length + r.length)) ∧
      (k = 0 → ∀ sub' n (pre post : Buf), s.length ≤ n →
        substLoop t sub' n s (pre ++ List.replicate r.length none ++ post) pre.length =
          .ok (pre ++ r.map some ++ post, pre.length + r.length)) := by
  have htpos : 0 < t.length := List.length_pos_iff.mpr ht
  intro m
  induction m with
  | zero =>
    intro s hs
    have : s = [] := by simpa using hs
    subst this
    refine ⟨[], 0, .nil, by simp, by simp, by simp, fun _ _ => .nil, ?_, ?_, ?_⟩
    · intro n acc _
      have : strstr t [] = none := by
        cases t with
        | nil => exact absurd rfl ht
        | cons a b => simp [strstr]
      rw [this]; cases n <;> rfl
    · intro n pre post _; cases n <;> simp [substLoop]
    · intro _ sub' n pre post _; cases n <;> simp [substLoop]
  | succ m ih =>
    intro s hs
    cases s with
    | nil => exact ih [] (by simp)
    | cons c s =>
      by_cases hp : t <+: c :: s
      · obtain ⟨s', e⟩ := hp
        have hlen : s'.length + t.length = (c :: s).length := by rw [← e]; simp; omega
        obtain ⟨r, k, hR, hlen2, hb, hk, _, hocc, hsub, _⟩ := ih s' (by simp only [List.length_cons] at hs hlen; omega)
        have hdrop : (c :: s).drop t.length = s' := by rw [← e]; simp
        refine ⟨sub ++ r, k + 1, ?_, ?_, ?_, ?_, ?_, ?_, ?_, ?_⟩
        · rw [← e]; exact .hit hR
        · rw [← hlen]
          simp only [List.length_append, Nat.add_mul, Nat.one_mul]
          omega
        · rw [← hlen, List.length_append]
          have : (s'.length + t.length) * (sub.length + 1) =
            s'.length * (sub.length + 1) + t.length * (sub.length + 1) := Nat.add_mul _ _ _
          have h2 : 1 * (sub.length + 1) ≤ t.length * (sub.length + 1) := Nat.mul_le_mul_right _ htpos
          omega
        · omega
        · intro h; omega
        · intro n acc hn
          cases n with
          | zero => simp at hn
          | succ n =>
            have h1 : strstr t (c :: s) = some (c :: s) := by
              rw [strstr, if_pos]
              rw [List.isPrefixOf_iff_prefix]; exact ⟨s', e⟩
            rw [h1, occLoop, hdrop, hocc n (acc + 1) (by simp only [List.length_cons] at hn hlen; omega)]
            congr 1; omega
        · intro n pre post hn
          cases n with
          | zero => simp at hn
          | succ n =>
            rw [substLoop, prefix_iff _ _ htl, if_pos (by simpa using ⟨s', e⟩), hdrop]
            have e1 : pre ++ List.replicate (sub ++ r).length none ++ post =
                pre ++ List.replicate sub.length none ++ (List.replicate r.length none ++ post) := by
              rw [List.length_append, ← List.replicate_append_replicate]; simp only [List.append_assoc]
            rw [e1, pokes_mid _ _ _ _ (by simp), Res.bind_ok]
            have := hsub n (pre ++ sub.map some) post (by simp only [List.length_cons] at hn hlen; omega)
            simp only [List.length_append, List.length_map, List.append_assoc] at this
            simp only [List.append_assoc]
            rw [this]
            simp [Nat.add_assoc]
        · intro h; omega
      · obtain ⟨r, k, hR, hlen2, hb, hk, hR0, hocc, hsub, hsub0⟩ :=
          ih s (by simp only [List.length_cons] at hs; omega)
        have key : ∀ sub' n (pre post : Buf), (c :: s).length ≤ n → (∀ n (pre post : Buf), s.length ≤ n →
            substLoop t sub' n s (pre ++ List.replicate r.length none ++ post) pre.length =
            .ok (pre ++ r.map some ++ post, pre.length + r.length)) →
            substLoop t sub' n (c :: s) (pre ++ List.replicate (c :: r).length none ++ post) pre.length =
            .ok (pre ++ (c :: r).map some ++ post, pre.length + (c :: r).length) := by
          intro sub' n pre post hn hsub
          cases n with
          | zero => simp at hn
          | succ n =>
            rw [substLoop, prefix_iff _ _ htl, if_neg (by simpa using hp)]
            have e1 : pre ++ List.replicate (c :: r).length none ++ post =
                pre ++ none :: (List.replicate r.length none ++ post) := by
              rw [List.length_cons, List.replicate_succ]; simp
            rw [e1, poke_mid, Res.bind_ok]
            have := hsub n (pre ++ [some c]) post (by simp only [List.length_cons] at hn; omega)
            simp only [List.length_append, List.length_cons, List.length_nil, List.append_assoc,
              List.cons_append, List.nil_append, Nat.zero_add] at this
            rw [this]
            simp [Nat.add_comm, Nat.add_left_comm]
        refine ⟨c :: r, k, .miss hp hR, ?_, ?_, ?_, ?_, ?_, ?_, ?_⟩
        · simp only [List.length_cons]; omega
        · simp only [List.length_cons]
          rw [Nat.add_mul]
          omega
        · simp only [List.length_cons]; omega
        · intro h sub'; exact .miss hp (hR0 h sub')
        · intro n acc hn
          have h1 : strstr t (c :: s) = strstr t s := by
            rw [strstr, if_neg]
            rwa [List.isPrefixOf_iff_prefix]
          rw [h1, hocc n acc (by simp only [List.length_cons] at hn; omega)]
        · intro n pre post hn; exact key sub n pre post hn hsub
        · intro h sub' n pre post hn; exact key sub' n pre post hn (hsub0 h sub')

theorem replaced_unique {t sub : CStr} (ht : t ≠ []) {s r : CStr} (h : Replaced t sub s r) :
    ∀ {r'}, Replaced t sub s r' → r = r' := by
  have aux : ∀ {x y}, Replaced t sub x y → ∀ z, x = t ++ z → ∃ y', y = sub ++ y' ∧ Replaced t sub z y' := by
    intro x y h z e
    cases h with
    | nil => simp at e; exact absurd e.1 ht
    | @hit s r h =>
      have : s = z := List.append_cancel_left e
      subst this
      exact ⟨r, rfl, h⟩
    | miss hn h => exact absurd ⟨z, e.symm⟩ hn
  induction h with
  | nil =>
    intro r' h'
    generalize e : ([] : CStr) = x at h'
    cases h' with
    | nil => rfl
    | hit h => simp at e; exact absurd e.1 ht
    | miss => simp at e
  | @hit s r h ih =>
    intro r' h'
    obtain ⟨y', e, h2⟩ := aux h' s rfl
    rw [e, ih h2]
  | @miss c s r hn h ih =>
    intro r' h'
    generalize e : c :: s = x at h'
    cases h' with
    | nil => simp at e
    | hit h2 => exact absurd ⟨_, e.symm⟩ hn
    | miss hn2 h2 =>
      simp only [List.cons.injEq] at e
      obtain ⟨rfl, rfl⟩ := e
      rw [ih h2]

/-! ### Slices -/

theorem int32_ok (x : Int) (h : -(2 ^ 31) ≤ x ∧ x < 2 ^ 31) : int32 x = .ok x := by
  unfold int32; rw [if_pos h]

theorem int32_ub (x : Int) (h : ¬ (-(2 ^ 31) ≤ x ∧ x < 2 ^ 31)) : int32 x = .ub "signed overflow" := by
  unfold int32; rw [if_neg h]

/-- The two adjustments of `len` in `STRsubStr`, then the rest. -/
theorem subStr_asked (s : CStr) (hs : s.length + 1 < 2 ^ 31) (start len : Int)
    (hle : -(2 ^ 31) ≤ len ∧ len < 2 ^ 31) :
    STRsubStr (some s) start len = (do
      let sum ← int32 (start + askedLen s.length len)
      let len ← (if sum > (s.length : Int) then int32 (s.length - start) else .ok (askedLen s.length len))
      if start > (s.length : Int) then STRnull
      else
        let n ← int32 (len + 1)
        let b ← MEMmalloc (intToSize n)
        if start < 0 then .ub "pointer before the string"
        else if len < 0 then .ub "memcpy with a huge length"
        else do
          let b ← pokes b 0 ((s.drop start.toNat).take len.toNat)
          poke b len.toNat 0) := by
  have hL := sizeToInt_small s.length (by omega)
  simp only [STRsubStr, STRlen, hL]
  have : (if len < 0 then int32 ((s.length : Int) + len) else .ok len) = Res.ok (askedLen s.length len) := by
    unfold askedLen
    split
    · exact int32_ok _ (by omega)
    · rfl
  rw [this, Res.bind_ok]

theorem subStr_past (s : CStr) (hs : s.length + 1 < 2 ^ 31) (start len : Int)
    (hst : -(2 ^ 31) ≤ start ∧ start < 2 ^ 31) (hle : -(2 ^ 31) ≤ len ∧ len < 2 ^ 31)
    (h1 : -(2 ^ 31) ≤ start + askedLen s.length len ∧ start + askedLen s.length len < 2 ^ 31)
    (h : (s.length : Int) < start) : STRsubStr (some s) start len = .ok [some 0] := by
  rw [subStr_asked s hs start len hle, int32_ok _ h1, Res.bind_ok]
  have : ∃ l, (if start + askedLen s.length len > (s.length : Int) then int32 (s.length - start)
      else .ok (askedLen s.length len)) = Res.ok l := by
    split
    · exact ⟨_, int32_ok _ (by omega)⟩
    · exact ⟨_, rfl⟩
  obtain ⟨l, hl⟩ := this
  rw [hl, Res.bind_ok, if_pos h]
  rfl

theorem fill_block (d : CStr) :
    (do let b ← pokes (List.replicate (d.length + 1) none) 0 d; poke b d.length 0) =
      Res.ok (d.map some ++ [some 0]) := by
  have h1 := pokes_mid d [] (List.replicate d.length none) [none] (by simp)
  simp only [List.length_nil, List.nil_append] at h1
  have h2 := poke_mid (d.map some) none [] 0
  rw [List.length_map] at h2
  rw [show List.replicate (d.length + 1) (none : Option UInt8) = List.replicate d.length none ++ [none] by
    rw [List.replicate_succ'], h1, Res.bind_ok, h2]

theorem subStr_in (s : CStr) (hs : s.length + 1 < 2 ^ 31) (start len : Int)
    (hle : -(2 ^ 31) ≤ len ∧ len < 2 ^ 31)
    (h1 : -(2 ^ 31) ≤ start + askedLen s.length len ∧ start + askedLen s.length len < 2 ^ 31)
    (h : ¬ (s.length : Int) < start) (h0 : 0 ≤ start) (hlen : 0 ≤ askedLen s.length len) :
    STRsubStr (some s) start len = .ok ((slice s start len).map some ++ [some 0]) := by
  rw [subStr_asked s hs start len hle, int32_ok _ h1, Res.bind_ok]
  have : ∃ l : Nat, (if start + askedLen s.length len > (s.length : Int) then int32 (s.length - start)
      else .ok (askedLen s.length len)) = Res.ok (l : Int) ∧ (slice s start len).length = l ∧
      slice s start len = (s.drop start.toNat).take l ∧ l ≤ s.length := by
    unfold slice
    split
    · refine ⟨((s.length : Int) - start).toNat, ?_, ?_, ?_, ?_⟩
      · rw [int32_ok _ (by omega)]; congr 1; omega
      · rw [List.length_take, List.length_drop]; omega
      · rw [List.take_of_length_le, List.take_of_length_le] <;> rw [List.length_drop] <;> omega
      · omega
    · refine ⟨(askedLen s.length len).toNat, ?_, ?_, rfl, ?_⟩
      · congr 1; omega
      · rw [List.length_take, List.length_drop]; omega
      · omega
  obtain ⟨l, hl, hlen2, hsl, hle2⟩ := this
  rw [hl, Res.bind_ok, if_neg (by omega)]
  have e : int32 ((l : Int) + 1) = .ok ((l + 1 : Nat) : Int) := int32_ok _ (by omega)
  rw [e, Res.bind_ok, intToSize_nat _ (by omega), malloc_ok _ (by omega) (by omega), Res.bind_ok, if_neg (by omega),
    if_neg (by omega), Int.toNat_natCast, ← hsl, ← hlen2]
  exact fill_block _

theorem bind_not_ok {α β} (r : Res α) (f : α → Res β) (h : ∀ a, r = .ok a → ∀ b, f a ≠ .ok b) (b : β) :
    (r >>= f) ≠ .ok b := by
  cases r with
  | ok a => exact h a rfl b
  | ub w => intro h; cases h
  | abort w => intro h; cases h
  | diverge => intro h; cases h

theorem subStr_bad (s : CStr) (hs : s.length + 1 < 2 ^ 31) (start len : Int)
    (hle : -(2 ^ 31) ≤ len ∧ len < 2 ^ 31)
    (h : ¬ SliceOk s.length start len) (b : Buf) : STRsubStr (some s) start len ≠ .ok b := by
  rw [subStr_asked s hs start len hle]
  by_cases h1 : -(2 ^ 31) ≤ start + askedLen s.length len ∧ start + askedLen s.length len < 2 ^ 31
  · rw [int32_ok _ h1, Res.bind_ok]
    have h2 : ¬ (s.length : Int) < start ∧ (start < 0 ∨ askedLen s.length len < 0) := by
      unfold SliceOk at h; omega
    refine bind_not_ok _ _ ?_ b
    intro l hl b'
    rw [if_neg (by omega)]
    refine bind_not_ok _ _ ?_ b'
    intro n _ b'
    refine bind_not_ok _ _ ?_ b'
    intro blk _ b'
    by_cases hst : start < 0
    · rw [if_pos hst]; intro h; cases h
    · have hneg : askedLen s.length len < 0 := by omega
      rw [if_neg (by omega)] at hl
      cases hl
      rw [if_neg hst, if_pos hneg]; intro h; cases h
  · rw [int32_ub _ h1]; intro h; cases h

theorem replaced_noNul {t sub s r : CStr} (h : Replaced t sub s r) (hs : NoNul s) (hsub : NoNul sub) : NoNul r := by
  induction h with
  | nil => exact hs
  | hit _ ih => exact noNul_append hsub (ih (fun b hb => hs b (by simp [hb])))
  | @miss c s r _ _ ih =>
    intro b hb
    simp only [List.mem_cons] at hb
    rcases hb with rfl | hb
    · exact hs b (by simp)
    · exact ih (fun b hb => hs b (by simp [hb])) b hb

theorem map_some_inj {a b : CStr} (h : a.map some = b.map (some : UInt8 → Option UInt8)) : a = b := by
  have := congrArg (List.filterMap id) h
  simpa using this

end Verif.Str
