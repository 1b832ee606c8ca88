import Verif.Spec.Text

/-! # Matching, and the scanner on well-formed texts -/

namespace Verif.Lex
open Verif.Str (CStr)

/-- The texts a pattern stands for. -/
inductive Matches : Re → CStr → Prop where
  | eps : Matches .eps []
  | cls {p : UInt8 → Bool} {c : UInt8} : p c = true → Matches (.cls p) [c]
  | seq {a b : Re} {s t : CStr} : Matches a s → Matches b t → Matches (.seq a b) (s ++ t)
  | left {a b : Re} {s : CStr} : Matches a s → Matches (.alt a b) s
  | right {a b : Re} {s : CStr} : Matches b s → Matches (.alt a b) s
  | stop {a : Re} : Matches (.star a) []
  | more {a : Re} {s t : CStr} : s ≠ [] → Matches a s → Matches (.star a) t → Matches (.star a) (s ++ t)

theorem not_none {s : CStr} : ¬ Matches .none s := by intro h; cases h

theorem eps_iff {s : CStr} : Matches .eps s ↔ s = [] := ⟨fun h => by cases h; rfl, fun h => h ▸ .eps⟩

theorem cls_iff {p : UInt8 → Bool} {s : CStr} : Matches (.cls p) s ↔ ∃ c, s = [c] ∧ p c = true :=
  ⟨fun h => by cases h with | cls h => exact ⟨_, rfl, h⟩, fun ⟨_, e, h⟩ => e ▸ .cls h⟩

theorem seq_iff {a b : Re} {s : CStr} : Matches (.seq a b) s ↔ ∃ x y, s = x ++ y ∧ Matches a x ∧ Matches b y :=
  ⟨fun h => by cases h with | seq h k => exact ⟨_, _, rfl, h, k⟩, fun ⟨_, _, e, h, k⟩ => e ▸ .seq h k⟩

theorem alt_iff {a b : Re} {s : CStr} : Matches (.alt a b) s ↔ Matches a s ∨ Matches b s :=
  ⟨fun h => by cases h with | left h => exact .inl h | right h => exact .inr h, fun h => h.elim .left .right⟩

theorem mkSeq_iff {a b : Re} {s : CStr} : Matches (mkSeq a b) s ↔ Matches (.seq a b) s := by
  unfold mkSeq
  split
  · rw [seq_iff]
    exact ⟨fun h => absurd h not_none, fun ⟨_, _, _, h, _⟩ => absurd h not_none⟩
  · rw [seq_iff]
    constructor
    · intro h; exact ⟨[], s, rfl, .eps, h⟩
    · rintro ⟨x, y, e, h, k⟩
      rw [eps_iff] at h; subst h; subst e; exact k
  · exact Iff.rfl

theorem mkAlt_iff {a b : Re} {s : CStr} : Matches (mkAlt a b) s ↔ Matches (.alt a b) s := by
  unfold mkAlt
  split
  · rw [alt_iff]; exact ⟨.inr, fun h => h.elim (fun h => absurd h not_none) id⟩
  · rw [alt_iff]; exact ⟨.inl, fun h => h.elim id fun h => absurd h not_none⟩
  · exact Iff.rfl

theorem nullable_iff {r : Re} : nullable r = true ↔ Matches r [] := by
  induction r with
  | none => exact ⟨fun h => (by cases h), fun h => absurd h not_none⟩
  | eps => exact ⟨fun _ => .eps, fun _ => rfl⟩
  | cls p => exact ⟨fun h => (by cases h), fun h => by rw [cls_iff] at h; obtain ⟨_, e, _⟩ := h; cases e⟩
  | seq a b iha ihb =>
    simp only [nullable, Bool.and_eq_true, iha, ihb]
    rw [seq_iff]
    constructor
    · rintro ⟨h, k⟩; exact ⟨[], [], rfl, h, k⟩
    · rintro ⟨x, y, e, h, k⟩
      have := List.append_eq_nil_iff.mp e.symm
      rw [this.1] at h; rw [this.2] at k; exact ⟨h, k⟩
  | alt a b iha ihb => simp only [nullable, Bool.or_eq_true, iha, ihb]; rw [alt_iff]
  | star a _ => exact ⟨fun _ => .stop, fun _ => rfl⟩

theorem star_cons {a : Re} {c : UInt8} {s : CStr} (h : Matches (.star a) (c :: s)) :
    ∃ x y, s = x ++ y ∧ Matches a (c :: x) ∧ Matches (.star a) y := by
  generalize e : c :: s = t at h
  cases h with
  | stop => cases e
  | more ne h k =>
    rename_i x y
    cases x with
    | nil => exact absurd rfl ne
    | cons d x =>
      simp only [List.cons_append, List.cons.injEq] at e
      obtain ⟨rfl, rfl⟩ := e
      exact ⟨x, y, rfl, h, k⟩

theorem deriv_iff {r : Re} {c : UInt8} {s : CStr} : Matches (deriv r c) s ↔ Matches r (c :: s) := by
  induction r generalizing s with
  | none => exact ⟨fun h => absurd h not_none, fun h => absurd h not_none⟩
  | eps => exact ⟨fun h => absurd h not_none, fun h => by rw [eps_iff] at h; cases h⟩
  | cls p =>
    simp only [deriv]
    rw [cls_iff]
    split
    · rename_i h
      rw [eps_iff]
      constructor
      · rintro rfl; exact ⟨c, rfl, h⟩
      · rintro ⟨_, e, _⟩; injection e
    · rename_i h
      refine ⟨fun h => absurd h not_none, ?_⟩
      rintro ⟨d, e, k⟩
      injection e with e _
      subst e; rw [h] at k; cases k
  | seq a b iha ihb =>
    simp only [deriv]
    split
    · rename_i h
      rw [mkAlt_iff, alt_iff, mkSeq_iff, seq_iff, seq_iff]
      constructor
      · rintro (⟨x, y, e, h, k⟩ | h')
        · exact ⟨c :: x, y, by rw [e]; rfl, iha.mp h, k⟩
        · exact ⟨[], c :: s, rfl, nullable_iff.mp h, ihb.mp h'⟩
      · rintro ⟨x, y, e, h', k⟩
        cases x with
        | nil => right; rw [ihb]; rw [List.nil_append] at e; rw [e]; exact k
        | cons d x =>
          simp only [List.cons_append, List.cons.injEq] at e
          obtain ⟨rfl, rfl⟩ := e
          exact .inl ⟨x, y, rfl, iha.mpr h', k⟩
    · rename_i h
      rw [mkSeq_iff, seq_iff, seq_iff]
      constructor
      · rintro ⟨x, y, e, h, k⟩
        exact ⟨c :: x, y, by rw [e]; rfl, iha.mp h, k⟩
      · rintro ⟨x, y, e, h', k⟩
        cases x with
        | nil => rw [← nullable_iff, h] at h'; cases h'
        | cons d x =>
          simp only [List.cons_append, List.cons.injEq] at e
          obtain ⟨rfl, rfl⟩ := e
          exact ⟨x, y, rfl, iha.mpr h', k⟩
  | alt a b iha ihb => simp only [deriv]; rw [mkAlt_iff, alt_iff, alt_iff, iha, ihb]
  | star a ih =>
    simp only [deriv]
    rw [mkSeq_iff, seq_iff]
    constructor
    · rintro ⟨x, y, e, h, k⟩
      have := Matches.more (by simp) (ih.mp h) k
      rw [e]; exact this
    · intro h
      obtain ⟨x, y, e, h, k⟩ := star_cons h
      exact ⟨x, y, e, ih.mpr h, k⟩

theorem longest_none {r : Re} {s : CStr} : longest r s = none ↔ ∀ x y, s = x ++ y → ¬ Matches r x := by
  induction s generalizing r with
  | nil =>
    unfold longest
    split
    · rename_i h
      simp only [reduceCtorEq, false_iff]
      intro k
      exact k [] [] rfl (nullable_iff.mp h)
    · rename_i h
      refine ⟨fun _ x y e m => ?_, fun _ => rfl⟩
      have := (List.append_eq_nil_iff.mp e.symm).1
      rw [this, ← nullable_iff, h] at m; cases m
  | cons c cs ih =>
    unfold longest
    split
    · rename_i n h
      simp only [reduceCtorEq, false_iff]
      intro k
      have hn : longest (deriv r c) cs = none := ih.mpr fun x y e m => k (c :: x) y (by rw [e]; rfl) (deriv_iff.mp m)
      rw [hn] at h; cases h
    · rename_i hn
      split
      · rename_i h
        simp only [reduceCtorEq, false_iff]
        intro k
        exact k [] _ rfl (nullable_iff.mp h)
      · rename_i h
        refine ⟨fun _ x y e m => ?_, fun _ => rfl⟩
        cases x with
        | nil => rw [← nullable_iff, h] at m; cases m
        | cons d x =>
          simp only [List.cons_append, List.cons.injEq] at e
          obtain ⟨rfl, rfl⟩ := e
          exact ih.mp hn x y rfl (deriv_iff.mpr m)

theorem longest_some {r : Re} {s : CStr} {n : Nat} (h : longest r s = some n) :
    n ≤ s.length ∧ Matches r (s.take n) ∧ ∀ x y, s = x ++ y → Matches r x → x.length ≤ n := by
  induction s generalizing r n with
  | nil =>
    unfold longest at h
    split at h
    · rename_i k
      injection h with h
      subst h
      refine ⟨Nat.le_refl _, nullable_iff.mp k, fun x y e _ => ?_⟩
      rw [(List.append_eq_nil_iff.mp e.symm).1]; exact Nat.le_refl _
    · cases h
  | cons c cs ih =>
    unfold longest at h
    split at h
    · rename_i m k
      injection h with h
      subst h
      obtain ⟨h1, h2, h3⟩ := ih k
      refine ⟨Nat.succ_le_succ h1, deriv_iff.mp h2, fun x y e hm => ?_⟩
      cases x with
      | nil => exact Nat.zero_le _
      | cons d x =>
        simp only [List.cons_append, List.cons.injEq] at e
        obtain ⟨rfl, rfl⟩ := e
        exact Nat.succ_le_succ (h3 x y rfl (deriv_iff.mpr hm))
    · rename_i k
      split at h
      · rename_i hnull
        injection h with h
        subst h
        refine ⟨Nat.zero_le _, nullable_iff.mp hnull, fun x y e hm => ?_⟩
        cases x with
        | nil => exact Nat.le_refl _
        | cons d x =>
          simp only [List.cons_append, List.cons.injEq] at e
          obtain ⟨rfl, rfl⟩ := e
          exact absurd (deriv_iff.mpr hm) (longest_none.mp k x y rfl)
      · cases h

theorem longest_eq {r : Re} {x y : CStr} (h : Matches r x) (k : ∀ a b, x ++ y = a ++ b → Matches r a → a.length ≤ x.length) :
    longest r (x ++ y) = some x.length := by
  cases e : longest r (x ++ y) with
  | none => exact absurd h (longest_none.mp e x y rfl)
  | some n =>
    obtain ⟨h1, h2, h3⟩ := longest_some e
    have l1 := h3 x y rfl h
    have l2 := k _ _ (List.take_append_drop n (x ++ y)).symm h2
    rw [List.length_take] at l2
    rw [show n = x.length by omega]

/-! ## Patterns -/

theorem lit_iff {k s : CStr} : Matches (lit k) s ↔ s = k := by
  induction k generalizing s with
  | nil => exact eps_iff
  | cons c k ih =>
    unfold lit
    rw [seq_iff]
    constructor
    · rintro ⟨x, y, e, h, m⟩
      rw [cls_iff] at h
      obtain ⟨d, rfl, hd⟩ := h
      rw [ih.mp m] at e
      rw [e, eq_of_beq hd]; rfl
    · intro e
      exact ⟨[c], k, e, .cls (by simp), ih.mpr rfl⟩

theorem starCls_iff {p : UInt8 → Bool} {s : CStr} : Matches (.star (.cls p)) s ↔ ∀ c ∈ s, p c = true := by
  induction s with
  | nil => exact ⟨fun _ _ h => (by cases h), fun _ => .stop⟩
  | cons c s ih =>
    constructor
    · intro h
      obtain ⟨x, y, e, h, k⟩ := star_cons h
      rw [cls_iff] at h
      obtain ⟨d, e', hd⟩ := h
      injection e' with e1 e2
      subst e1; subst e2
      rw [List.nil_append] at e
      subst e
      intro d hd'
      rcases List.mem_cons.mp hd' with rfl | h
      · exact hd
      · exact ih.mp k d h
    · intro h
      have : Matches (.star (.cls p)) ([c] ++ s) :=
        .more (by simp) (.cls (h c (by simp))) (ih.mpr fun d hd => h d (by simp [hd]))
      exact this

theorem clsStar_iff {p q : UInt8 → Bool} {s : CStr} :
    Matches (.seq (.cls p) (.star (.cls q))) s ↔ ∃ c cs, s = c :: cs ∧ p c = true ∧ ∀ d ∈ cs, q d = true := by
  rw [seq_iff]
  constructor
  · rintro ⟨x, y, e, h, k⟩
    rw [cls_iff] at h
    obtain ⟨c, rfl, hc⟩ := h
    exact ⟨c, y, e, hc, starCls_iff.mp k⟩
  · rintro ⟨c, cs, e, hc, h⟩
    exact ⟨[c], cs, e, .cls hc, starCls_iff.mpr h⟩

theorem ident_iff {s : CStr} : Matches ident s ↔ ∃ c cs, s = c :: cs ∧ isLetter c = true ∧ ∀ d ∈ cs, isWord d = true := clsStar_iff

theorem digits_iff {s : CStr} : Matches digits s ↔ Spec.Text.Digits s := by
  unfold digits
  rw [clsStar_iff]
  constructor
  · rintro ⟨c, cs, rfl, h, k⟩
    refine ⟨by simp, fun d hd => ?_⟩
    rcases List.mem_cons.mp hd with rfl | hd
    · exact h
    · exact k d hd
  · rintro ⟨h, k⟩
    cases s with
    | nil => exact absurd rfl h
    | cons c cs => exact ⟨c, cs, rfl, k c (by simp), fun d hd => k d (by simp [hd])⟩

theorem intVal_iff {s : CStr} : Matches intVal s ↔ ∃ ds, s = 45 :: ds ∧ Spec.Text.Digits ds := by
  unfold intVal
  rw [seq_iff]
  constructor
  · rintro ⟨x, y, e, h, k⟩
    rw [lit_iff] at h; subst h
    exact ⟨y, e, digits_iff.mp k⟩
  · rintro ⟨ds, e, h⟩
    exact ⟨[45], ds, e, lit_iff.mpr rfl, digits_iff.mpr h⟩

theorem floatVal_iff {s : CStr} : Matches floatVal s ↔
    ∃ m ds es, s = Spec.Text.Lexeme.text (.dec m ds es) ∧ Spec.Text.Digits ds ∧ Spec.Text.Digits es := by
  unfold floatVal
  rw [seq_iff]
  constructor
  · rintro ⟨x, y, e, h, k⟩
    rw [seq_iff] at k
    obtain ⟨ds, z, e2, k1, k2⟩ := k
    rw [seq_iff] at k2
    obtain ⟨w, es, e3, k3, k4⟩ := k2
    rw [lit_iff] at k3; subst k3
    rw [alt_iff] at h
    rcases h with h | h
    · rw [lit_iff] at h
      exact ⟨true, ds, es, by rw [e, h, e2, e3]; rfl, digits_iff.mp k1, digits_iff.mp k4⟩
    · rw [eps_iff] at h
      exact ⟨false, ds, es, by rw [e, h, e2, e3]; rfl, digits_iff.mp k1, digits_iff.mp k4⟩
  · rintro ⟨m, ds, es, e, h, k⟩
    have tail : Matches (.seq digits (.seq (lit [46]) digits)) (ds ++ 46 :: es) :=
      seq_iff.mpr ⟨ds, 46 :: es, rfl, digits_iff.mpr h, seq_iff.mpr ⟨[46], es, rfl, lit_iff.mpr rfl, digits_iff.mpr k⟩⟩
    cases m with
    | true => exact ⟨[45], ds ++ 46 :: es, e, .left (lit_iff.mpr rfl), tail⟩
    | false => exact ⟨[], ds ++ 46 :: es, e, .right .eps, tail⟩

/-- The inside of a string of the scanner: newlines are possible. -/
inductive Body : CStr → Prop where
  | nil : Body []
  | plain (c : UInt8) (s : CStr) : c ≠ 34 → c ≠ 92 → Body s → Body (c :: s)
  | escape (c : UInt8) (s : CStr) : c ≠ 10 → Body s → Body (92 :: c :: s)

theorem strBody_iff {s : CStr} : Matches strBody s ↔ Body s := by
  constructor
  · intro h
    generalize e : s.length = n
    induction n using Nat.strongRecOn generalizing s with
    | _ n ih =>
      cases s with
      | nil => exact .nil
      | cons c s =>
        obtain ⟨x, y, e2, h, k⟩ := star_cons h
        have hy : Body y := by
          refine ih y.length ?_ k rfl
          rw [← e, e2]; simp only [List.length_cons, List.length_append]; omega
        rw [alt_iff] at h
        rcases h with h | h
        · rw [seq_iff] at h
          obtain ⟨u, v, e3, h1, h2⟩ := h
          rw [lit_iff] at h1; subst h1
          unfold dot at h2
          rw [cls_iff] at h2
          obtain ⟨d, rfl, hd⟩ := h2
          simp only [List.cons_append, List.nil_append, List.cons.injEq] at e3
          obtain ⟨rfl, rfl⟩ := e3
          rw [e2]
          exact .escape d y (by simpa using hd) hy
        · rw [cls_iff] at h
          obtain ⟨d, e3, hd⟩ := h
          simp only [List.cons.injEq] at e3
          obtain ⟨rfl, rfl⟩ := e3
          rw [e2]
          simp only [Bool.and_eq_true, bne_iff_ne] at hd
          exact .plain c y hd.2 hd.1 hy
  · intro h
    unfold strBody
    induction h with
    | nil => exact .stop
    | plain c s h1 h2 _ ih =>
      have := Matches.more (s := [c]) (by simp) (.right (a := .seq (lit [92]) dot) (.cls (p := fun c => c != 92 && c != 34) (by simp [h1, h2]))) ih
      exact this
    | escape c s h1 _ ih =>
      have := Matches.more (s := [92, c]) (by simp)
        (.left (b := .cls fun c => c != 92 && c != 34) (seq_iff.mpr ⟨[92], [c], rfl, lit_iff.mpr rfl, .cls (by simp [h1])⟩)) ih
      exact this

theorem strVal_iff {s : CStr} : Matches strVal s ↔ ∃ b, s = 34 :: b ++ [34] ∧ Body b := by
  unfold strVal
  rw [seq_iff]
  constructor
  · rintro ⟨x, y, e, h, k⟩
    rw [lit_iff] at h; subst h
    rw [seq_iff] at k
    obtain ⟨b, z, e2, k1, k2⟩ := k
    rw [lit_iff] at k2; subst k2
    exact ⟨b, by rw [e, e2]; rfl, strBody_iff.mp k1⟩
  · rintro ⟨b, e, h⟩
    exact ⟨[34], b ++ [34], e, lit_iff.mpr rfl, seq_iff.mpr ⟨b, [34], rfl, strBody_iff.mpr h, lit_iff.mpr rfl⟩⟩

theorem body_unique {a b x y : CStr} (ha : Body a) (hb : Body b) (e : a ++ 34 :: x = b ++ 34 :: y) : a = b := by
  induction ha generalizing b with
  | nil =>
    cases hb with
    | nil => rfl
    | plain c s h1 _ _ => simp only [List.nil_append, List.cons_append, List.cons.injEq] at e; exact absurd e.1.symm h1
    | escape c s _ _ => simp only [List.nil_append, List.cons_append, List.cons.injEq] at e; exact absurd e.1 (by decide)
  | plain c s h1 h2 _ ih =>
    cases hb with
    | nil => simp only [List.nil_append, List.cons_append, List.cons.injEq] at e; exact absurd e.1 h1
    | plain d t _ _ ht =>
      simp only [List.cons_append, List.cons.injEq] at e
      rw [e.1, ih ht e.2]
    | escape d t _ _ => simp only [List.cons_append, List.cons.injEq] at e; exact absurd e.1 h2
  | escape c s h1 _ ih =>
    cases hb with
    | nil => simp only [List.nil_append, List.cons_append, List.cons.injEq] at e; exact absurd e.1 (by decide)
    | plain d t _ h2 _ => simp only [List.cons_append, List.cons.injEq] at e; exact absurd e.1.symm h2
    | escape d t _ ht =>
      simp only [List.cons_append, List.cons.injEq] at e
      rw [e.2.1, ih ht e.2.2]

theorem lineComment_iff {s : CStr} : Matches lineComment s ↔ ∃ b, s = 47 :: 47 :: b ∧ 10 ∉ b := by
  unfold lineComment dot
  rw [seq_iff]
  constructor
  · rintro ⟨x, y, e, h, k⟩
    rw [lit_iff] at h; subst h
    refine ⟨y, e, fun m => ?_⟩
    have := starCls_iff.mp k 10 m
    simp at this
  · rintro ⟨b, e, h⟩
    exact ⟨[47, 47], b, e, lit_iff.mpr rfl, starCls_iff.mpr fun c hc => by
      simp only [bne_iff_ne]; rintro rfl; exact h hc⟩

theorem dot_iff {s : CStr} : Matches dot s ↔ ∃ c, s = [c] ∧ c ≠ 10 := by
  unfold dot; rw [cls_iff]; simp

/-! ## The choice of a rule -/

theorem pick_none {rs : List (Re × Act)} {s : CStr} (h : ∀ p ∈ rs, longest p.1 s = none) : pick rs s = none := by
  induction rs with
  | nil => rfl
  | cons p rs ih =>
    obtain ⟨r, a⟩ := p
    unfold pick
    rw [h (r, a) (by simp), ih fun q hq => h q (by simp [hq])]

theorem pick_le {rs : List (Re × Act)} {s : CStr} {n : Nat} (h : ∀ p ∈ rs, ∀ m, longest p.1 s = some m → m ≤ n) :
    ∀ x, pick rs s = some x → x.1 ≤ n := by
  induction rs with
  | nil => intro x h; cases h
  | cons p rs ih =>
    obtain ⟨r, a⟩ := p
    intro x
    have ih' := ih fun q hq => h q (by simp [hq])
    have hp := h (r, a) (by simp)
    unfold pick
    split
    · exact ih' x
    · rename_i m hm _
      intro e
      injection e with e
      subst e; exact hp m hm
    · rename_i m k b hm hk
      split
      · intro e; injection e with e; subst e; exact hp m hm
      · intro e; injection e with e; subst e; exact ih' _ hk

theorem pick_eq {pre post : List (Re × Act)} {r : Re} {a : Act} {s : CStr} {n : Nat}
    (h : longest r s = some n) (hpre : ∀ p ∈ pre, ∀ m, longest p.1 s = some m → m < n)
    (hpost : ∀ p ∈ post, ∀ m, longest p.1 s = some m → m ≤ n) :
    pick (pre ++ (r, a) :: post) s = some (n, a) := by
  induction pre with
  | nil =>
    rw [List.nil_append]
    unfold pick
    rw [h]
    cases e : pick post s with
    | none => rfl
    | some x => obtain ⟨m, b⟩ := x; simp only [if_pos (pick_le hpost _ e)]
  | cons p pre ih =>
    obtain ⟨r', a'⟩ := p
    rw [List.cons_append]
    unfold pick
    rw [ih fun q hq => hpre q (by simp [hq])]
    cases e : longest r' s with
    | none => rfl
    | some m =>
      have := hpre (r', a') (by simp) m e
      simp only
      rw [if_neg (by omega)]

/-- Characters a match can begin with. -/
def first : Re → UInt8 → Bool
  | .none, _ => false
  | .eps, _ => false
  | .cls p, c => p c
  | .seq a b, c => first a c || (nullable a && first b c)
  | .alt a b, c => first a c || first b c
  | .star a, c => first a c

theorem first_of {r : Re} {c : UInt8} {s : CStr} (h : Matches r (c :: s)) : first r c = true := by
  induction r generalizing s with
  | none => exact absurd h not_none
  | eps => rw [eps_iff] at h; cases h
  | cls p =>
    rw [cls_iff] at h
    obtain ⟨d, e, k⟩ := h
    injection e with e _
    rw [e]; exact k
  | seq a b iha ihb =>
    rw [seq_iff] at h
    obtain ⟨x, y, e, h, k⟩ := h
    simp only [first, Bool.or_eq_true, Bool.and_eq_true]
    cases x with
    | nil => rw [List.nil_append] at e; exact .inr ⟨nullable_iff.mpr h, ihb (e ▸ k)⟩
    | cons d x =>
      simp only [List.cons_append, List.cons.injEq] at e
      rw [← e.1] at h
      exact .inl (iha h)
  | alt a b iha ihb =>
    rw [alt_iff] at h
    simp only [first, Bool.or_eq_true]
    exact h.imp iha ihb
  | star a ih =>
    obtain ⟨x, y, _, h, _⟩ := star_cons h
    exact ih h

theorem longest_first {r : Re} {c : UInt8} {s : CStr} (hn : nullable r = false) (hf : first r c = false) :
    longest r (c :: s) = none := by
  rw [longest_none]
  intro x y e m
  cases x with
  | nil => rw [← nullable_iff, hn] at m; cases m
  | cons d x =>
    simp only [List.cons_append, List.cons.injEq] at e
    rw [← e.1] at m
    rw [first_of m] at hf; cases hf

end Verif.Lex
