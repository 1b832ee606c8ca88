import Verif.Model.Parse

/-!
# The grammar has one reading

A recursive-descent parser, and the proof that it finds every phrase that the grammar derives, given what follows the phrase.  Since
the parser is a function, a text has at most one reading.
-/

namespace Verif.Parse
open Verif.Str (CStr)

/-- The text does not begin with the terminal. -/
def NotHead (t : T) (r : List T) : Prop := ∀ r', r ≠ t :: r'

theorem notHead_cons {t u : T} {r : List T} (h : u ≠ t) : NotHead t (u :: r) := fun _ e => h (List.cons.inj e).1

theorem notHead_nil {t : T} : NotHead t [] := fun _ e => by cases e

/-- A `,` or `}` follows. -/
def Closes (r : List T) : Prop := ∃ r', r = .comma :: r' ∨ r = .rbrace :: r'

/-- A `;` or the end of the file follows. -/
def Ends (r : List T) : Prop := r = [] ∨ ∃ r', r = .semi :: r'

/-- A parser for items separated by commas. -/
def sepE {α : Type} (p : List T → Option (α × List T)) : Nat → List T → Option (List α × List T)
  | 0, _ => none
  | n + 1, ts =>
    match p ts with
    | some (a, .comma :: us) =>
      match sepE p n us with
      | some (as, r) => some (a :: as, r)
      | none => none
    | some (a, r) => some ([a], r)
    | none => none

/-- Items separated by commas. -/
inductive Sep {α : Type} (P : List T → α → List T → Prop) : List T → List α → List T → Prop where
  | cons (ts : List T) (a : α) (us : List T) (as : List α) (r : List T) :
    P ts a (.comma :: us) → Sep P us as r → Sep P ts (a :: as) r
  | one (ts : List T) (a : α) (r : List T) : P ts a r → Sep P ts [a] r

theorem sepE_eq {α : Type} {P : List T → α → List T → Prop} {p : List T → Option (α × List T)}
    (hp : ∀ ts a r, P ts a r → Closes r → p ts = some (a, r)) (hl : ∀ ts a r, P ts a r → r.length < ts.length)
    {ts : List T} {as : List α} {r : List T} (h : Sep P ts as (.rbrace :: r)) :
    ∀ n, ts.length ≤ n → sepE p n ts = some (as, .rbrace :: r) := by
  generalize e : T.rbrace :: r = r' at h
  induction h with
  | cons ts a us as r1 h1 _ ih =>
    intro n hn
    have := hl _ _ _ h1
    simp only [List.length_cons] at this
    match n with
    | 0 => omega
    | n + 1 => simp only [sepE, hp _ _ _ h1 ⟨us, Or.inl rfl⟩, ih e n (by omega)]
  | one ts a r1 h1 =>
    intro n hn
    subst e
    have := hl _ _ _ h1
    match n with
    | 0 => omega
    | n + 1 => simp only [sepE, hp _ _ _ h1 ⟨r, Or.inr rfl⟩]

theorem sep_lt {α : Type} {P : List T → α → List T → Prop} (hl : ∀ ts a r, P ts a r → r.length < ts.length)
    {ts : List T} {as : List α} {r : List T} (h : Sep P ts as r) : r.length < ts.length := by
  induction h with
  | cons ts a us as r1 h1 _ ih => have := hl _ _ _ h1; simp only [List.length_cons] at this; omega
  | one ts a r1 h1 => exact hl _ _ _ h1

/-! ## Short phrases -/

def idListE : List T → Option (List Name × List T)
  | .id n :: .comma :: ts =>
    match idListE ts with
    | some (ns, r) => some (n :: ns, r)
    | none => none
  | .id n :: r => some ([n], r)
  | _ => none

theorem idListE_eq {ts : List T} {ns : List Name} {r : List T} (h : IdList ts ns r) (hr : NotHead .comma r) :
    idListE ts = some (ns, r) := by
  induction h with
  | cons n ts ns r _ ih => simp only [idListE, ih hr]
  | one n r =>
    match r with
    | [] => rfl
    | t :: r => cases t <;> first | rfl | exact absurd rfl (hr r)

theorem IdList.lt {ts : List T} {ns : List Name} {r : List T} (h : IdList ts ns r) : r.length < ts.length := by
  induction h with
  | cons n ts ns r _ ih => simp only [List.length_cons]; omega
  | one n r => simp only [List.length_cons]; omega

def rangeSpecE : List T → Option (List Name × List T)
  | .id n :: .dot :: ts =>
    match rangeSpecE ts with
    | some (ns, r) => some (n :: ns, r)
    | none => none
  | .id n :: r => some ([n], r)
  | _ => none

theorem rangeSpecE_eq {ts : List T} {ns : List Name} {r : List T} (h : RangeSpec ts ns r) (hr : NotHead .dot r) :
    rangeSpecE ts = some (ns, r) := by
  induction h with
  | cons n ts ns r _ ih => simp only [rangeSpecE, ih hr]
  | one n r =>
    match r with
    | [] => rfl
    | t :: r => cases t <;> first | rfl | exact absurd rfl (hr r)

theorem RangeSpec.lt {ts : List T} {ns : List Name} {r : List T} (h : RangeSpec ts ns r) : r.length < ts.length := by
  induction h with
  | cons n ts ns r _ ih => simp only [List.length_cons]; omega
  | one n r => simp only [List.length_cons]; omega

theorem RangeSpec.head {ts : List T} {ns : List Name} {r : List T} (h : RangeSpec ts ns r) : ∃ n us, ts = .id n :: us := by
  cases h <;> exact ⟨_, _, rfl⟩

/-! ## Set expressions -/

def literalsLoop (acc : List Name) : List T → List Name × List T
  | .comma :: .id n :: ts => literalsLoop (acc ++ [n]) ts
  | r => (acc, r)

def literalsE : List T → Option (List Name × List T)
  | .id n :: ts => some (literalsLoop [n] ts)
  | _ => none

theorem literalsE_eq {ts : List T} {ns : List Name} {r : List T} (h : SetLiterals ts ns r) :
    literalsE ts = some (literalsLoop ns r) := by
  induction h with
  | snoc ts ns n r _ ih => rw [ih]; rfl
  | one n r => rfl

theorem SetLiterals.lt {ts : List T} {ns : List Name} {r : List T} (h : SetLiterals ts ns r) : r.length < ts.length := by
  induction h with
  | snoc ts ns n r _ ih => simp only [List.length_cons] at ih; omega
  | one n r => simp only [List.length_cons]; omega

/-- The operator of a terminal. -/
def opOf : T → Option SO
  | .bar => some .iunion
  | .amp => some .intersect
  | .minus => some .difference
  | _ => none

mutual

def operandE : Nat → List T → Option (SetE × List T)
  | 0, _ => none
  | n + 1, ts =>
    match ts with
    | .lpar :: us =>
      match operandE n us with
      | some (a, vs) =>
        match chainE n a false vs with
        | some (e, true, .rpar :: r) => some (e, r)
        | _ => none
      | none => none
    | .lbrace :: us =>
      match literalsE us with
      | some (ns, .rbrace :: r) => some (.lit ns, r)
      | _ => none
    | .id m :: r => some (.ref m, r)
    | _ => none

def chainE : Nat → SetE → Bool → List T → Option (SetE × Bool × List T)
  | 0, _, _, _ => none
  | n + 1, a, b, ts =>
    match ts with
    | [] => some (a, b, [])
    | t :: us =>
      match opOf t with
      | some o =>
        match operandE n us with
        | some (c, vs) => chainE n (.op o a c) true vs
        | none => none
      | none => some (a, b, t :: us)

end

def exprE (n : Nat) (ts : List T) : Option (SetE × Bool × List T) :=
  match operandE n ts with
  | some (a, us) => chainE n a false us
  | none => none

/-- Induction over the three relations at once. -/
theorem set_induct {P1 P2 P3 : List T → SetE → List T → Prop}
    (oper : ∀ ts e r, P3 ts e r → P1 ts e r) (operand : ∀ ts e r, P2 ts e r → P1 ts e r)
    (group : ∀ ts e r, P3 ts e (.rpar :: r) → P2 (.lpar :: ts) e r)
    (literal : ∀ ts ns r, SetLiterals ts ns (.rbrace :: r) → P2 (.lbrace :: ts) (.lit ns) r)
    (ref : ∀ n r, P2 (.id n :: r) (.ref n) r)
    (op : ∀ o t ts a us b r, opOf t = some o → P1 ts a (t :: us) → P2 us b r → P3 ts (.op o a b) r) :
    (∀ {ts e r}, SetExpr ts e r → P1 ts e r) ∧ (∀ {ts e r}, SetOperand ts e r → P2 ts e r) ∧
      (∀ {ts e r}, SetOperation ts e r → P3 ts e r) := by
  refine ⟨fun h => ?_, fun h => ?_, fun h => ?_⟩
  · exact SetExpr.rec (motive_1 := fun ts e r _ => P1 ts e r) (motive_2 := fun ts e r _ => P2 ts e r)
      (motive_3 := fun ts e r _ => P3 ts e r) (fun ts e r _ => oper ts e r) (fun ts e r _ => operand ts e r)
      (fun ts e r _ => group ts e r) literal ref (fun ts a us b r _ _ => op _ .bar ts a us b r rfl)
      (fun ts a us b r _ _ => op _ .amp ts a us b r rfl) (fun ts a us b r _ _ => op _ .minus ts a us b r rfl) h
  · exact SetOperand.rec (motive_1 := fun ts e r _ => P1 ts e r) (motive_2 := fun ts e r _ => P2 ts e r)
      (motive_3 := fun ts e r _ => P3 ts e r) (fun ts e r _ => oper ts e r) (fun ts e r _ => operand ts e r)
      (fun ts e r _ => group ts e r) literal ref (fun ts a us b r _ _ => op _ .bar ts a us b r rfl)
      (fun ts a us b r _ _ => op _ .amp ts a us b r rfl) (fun ts a us b r _ _ => op _ .minus ts a us b r rfl) h
  · exact SetOperation.rec (motive_1 := fun ts e r _ => P1 ts e r) (motive_2 := fun ts e r _ => P2 ts e r)
      (motive_3 := fun ts e r _ => P3 ts e r) (fun ts e r _ => oper ts e r) (fun ts e r _ => operand ts e r)
      (fun ts e r _ => group ts e r) literal ref (fun ts a us b r _ _ => op _ .bar ts a us b r rfl)
      (fun ts a us b r _ _ => op _ .amp ts a us b r rfl) (fun ts a us b r _ _ => op _ .minus ts a us b r rfl) h

theorem set_lt : (∀ {ts e r}, SetExpr ts e r → r.length < ts.length) ∧ (∀ {ts e r}, SetOperand ts e r → r.length < ts.length) ∧
    (∀ {ts e r}, SetOperation ts e r → r.length < ts.length) := by
  refine set_induct (P1 := fun ts _ r => r.length < ts.length) (P2 := fun ts _ r => r.length < ts.length)
    (P3 := fun ts _ r => r.length < ts.length) (fun _ _ _ h => h) (fun _ _ _ h => h) ?_ ?_ ?_ ?_
  · intro ts e r h; simp only [List.length_cons] at *; omega
  · intro ts ns r h; have := h.lt; simp only [List.length_cons] at *; omega
  · intro n r; simp only [List.length_cons]; omega
  · intro o t ts a us b r _ h1 h2; simp only [List.length_cons] at *; omega

theorem SetExpr.lt {ts : List T} {e : SetE} {r : List T} (h : SetExpr ts e r) : r.length < ts.length := set_lt.1 h

/-- With enough fuel the parser has come to the end of the phrase, having read `e`. -/
def Comes (ts : List T) (e : SetE) (b : Bool) (r : List T) : Prop :=
  r.length < ts.length ∧ ∀ n, ts.length < n → ∃ m, r.length < m ∧ exprE n ts = chainE m e b r

/-- With enough fuel the parser reads the operand. -/
def Reads (ts : List T) (e : SetE) (r : List T) : Prop :=
  r.length < ts.length ∧ ∀ n, ts.length < n → operandE n ts = some (e, r)

theorem set_comes : (∀ {ts e r}, SetExpr ts e r → ∃ b, Comes ts e b r) ∧ (∀ {ts e r}, SetOperand ts e r → Reads ts e r) ∧
    (∀ {ts e r}, SetOperation ts e r → Comes ts e true r) := by
  refine set_induct (P1 := fun ts e r => ∃ b, Comes ts e b r) (P2 := Reads) (P3 := fun ts e r => Comes ts e true r)
    (fun _ _ _ h => ⟨true, h⟩) ?_ ?_ ?_ ?_ ?_
  · intro ts e r h
    refine ⟨false, h.1, fun n hn => ⟨n, ?_, ?_⟩⟩
    · have := h.1; omega
    · simp only [exprE, h.2 n hn]
  · intro ts e r h
    refine ⟨by have := h.1; simp only [List.length_cons] at *; omega, fun n hn => ?_⟩
    match n with
    | 0 => omega
    | n + 1 =>
      simp only [List.length_cons] at hn
      obtain ⟨m, hm, e1⟩ := h.2 n (by omega)
      match m with
      | 0 => omega
      | m + 1 =>
        simp only [exprE, chainE, opOf] at e1
        simp only [operandE]
        split at e1
        · rename_i a us ha; simp only [e1]
        · cases e1
  · intro ts ns r h
    refine ⟨by have := h.lt; simp only [List.length_cons] at *; omega, fun n hn => ?_⟩
    match n with
    | 0 => omega
    | n + 1 => simp only [operandE, literalsE_eq h, literalsLoop]
  · intro m r
    refine ⟨by simp only [List.length_cons]; omega, fun n hn => ?_⟩
    match n with
    | 0 => omega
    | n + 1 => rfl
  · intro o t ts a us c r ho ⟨b, hb⟩ h2
    refine ⟨by have := hb.1; have := h2.1; simp only [List.length_cons] at *; omega, fun n hn => ?_⟩
    obtain ⟨m, hm, e1⟩ := hb.2 n hn
    simp only [List.length_cons] at hm
    match m with
    | 0 => omega
    | m + 1 => exact ⟨m, by have := h2.1; omega, by rw [e1]; simp only [chainE, ho, h2.2 m (by omega)]⟩

def setExprE (ts : List T) : Option (SetE × List T) :=
  match exprE (ts.length + 1) ts with
  | some (e, _, r) => some (e, r)
  | none => none

/-- No operator follows. -/
def NoOp (r : List T) : Prop := ∀ t r', r = t :: r' → opOf t = none

theorem setExprE_eq {ts : List T} {e : SetE} {r : List T} (h : SetExpr ts e r) (hr : NoOp r) : setExprE ts = some (e, r) := by
  obtain ⟨b, hb⟩ := set_comes.1 h
  obtain ⟨m, hm, e1⟩ := hb.2 (ts.length + 1) (by omega)
  match m, hm with
  | m + 1, hm =>
    match r with
    | [] => simp only [setExprE, e1, chainE]
    | t :: r => simp only [setExprE, e1, chainE, hr t r rfl]

theorem noOp_cons {t : T} {r : List T} (h : opOf t = none) : NoOp (t :: r) := by
  intro u r' e
  cases e
  exact h

theorem Ends.noOp {r : List T} (h : Ends r) : NoOp r := by
  rcases h with rfl | ⟨r', rfl⟩
  · intro t r' e; cases e
  · exact noOp_cons rfl

end Verif.Parse
