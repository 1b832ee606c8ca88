import Verif.Spec.SetGrammar

/-!
# Lemmas about the parser for set expressions
-/

namespace Verif.Grammar
open Verif.Ids Verif.Spec.Grammar

/-- The automaton gets from one configuration to the other. -/
def Steps (s : List Sym) (i : List Tok) (s' : List Sym) (i' : List Tok) : Prop := ∃ n, ∀ m, run (n + m) s i = run m s' i'

theorem Steps.refl (s i) : Steps s i s i := ⟨0, fun m => by rw [Nat.zero_add]⟩

theorem Steps.trans {a b c d e f} (h1 : Steps a b c d) (h2 : Steps c d e f) : Steps a b e f := by
  obtain ⟨n1, h1⟩ := h1
  obtain ⟨n2, h2⟩ := h2
  exact ⟨n1 + n2, fun m => by rw [Nat.add_assoc, h1, h2]⟩

theorem Steps.one {s i s' i'} (h : step s i = .go s' i') : Steps s i s' i' :=
  ⟨1, fun m => by rw [Nat.add_comm, run, h]⟩

/-- A set expression may start on top of this stack. -/
def Start : List Sym → Prop
  | [] => True
  | .tok .lpar :: _ => True
  | .tok (.op _) :: _ => True
  | _ => False

theorem start_cases {below : List Sym} (h : Start below) :
    below = [] ∨ (∃ b, below = .tok .lpar :: b) ∨ ∃ o b, below = .tok (.op o) :: b := by
  match below, h with
  | [], _ => exact Or.inl rfl
  | .tok .lpar :: b, _ => exact Or.inr (Or.inl ⟨b, rfl⟩)
  | .tok (.op o) :: b, _ => exact Or.inr (Or.inr ⟨o, b, rfl⟩)

theorem step_start {below : List Sym} (h : Start below) (input : List Tok) : step below input = start below input := by
  rcases start_cases h with rfl | ⟨b, rfl⟩ | ⟨o, b, rfl⟩ <;> rfl

theorem step_name {below : List Sym} (h : Start below) (i : Id) (input : List Tok) :
    step (.tok (.id i) :: below) input = .go (.expr (.ref i) :: below) input := by
  rcases start_cases h with rfl | ⟨b, rfl⟩ | ⟨o, b, rfl⟩ <;> rfl

theorem lits_steps (l : List Id) (seen : List Id) (i : Id) (below : List Sym) (rest : List Tok) :
    Steps (.lits seen :: below) (.comma :: (listToks i l ++ rest)) (.lits (seen ++ i :: l) :: below) rest := by
  induction l generalizing seen i with
  | nil =>
    refine (Steps.one (s' := .tok .comma :: .lits seen :: below) (i' := .id i :: rest) rfl).trans ?_
    refine (Steps.one (s' := .tok (.id i) :: .tok .comma :: .lits seen :: below) (i' := rest) rfl).trans ?_
    exact Steps.one rfl
  | cons j l ih =>
    refine (Steps.one (s' := .tok .comma :: .lits seen :: below) (i' := .id i :: .comma :: (listToks j l ++ rest)) rfl).trans ?_
    refine (Steps.one (s' := .tok (.id i) :: .tok .comma :: .lits seen :: below)
      (i' := .comma :: (listToks j l ++ rest)) rfl).trans ?_
    refine (Steps.one (s' := .lits (seen ++ [i]) :: below) (i' := .comma :: (listToks j l ++ rest)) rfl).trans ?_
    have := ih (seen ++ [i]) j
    rw [List.append_assoc] at this
    exact this

theorem brace_steps (i : Id) (l : List Id) (below : List Sym) (rest : List Tok) :
    Steps (.tok .lbrace :: below) (listToks i l ++ (.rbrace :: rest)) (.expr (.lit (i :: l)) :: below) rest := by
  have close : ∀ x, Steps (.lits x :: .tok .lbrace :: below) (.rbrace :: rest) (.expr (.lit x) :: below) rest := by
    intro x
    refine (Steps.one (s' := .tok .rbrace :: .lits x :: .tok .lbrace :: below) (i' := rest) rfl).trans ?_
    exact Steps.one rfl
  cases l with
  | nil =>
    refine (Steps.one (s' := .tok (.id i) :: .tok .lbrace :: below) (i' := .rbrace :: rest) rfl).trans ?_
    exact (Steps.one rfl).trans (close _)
  | cons j l =>
    refine (Steps.one (s' := .tok (.id i) :: .tok .lbrace :: below)
      (i' := .comma :: (listToks j l ++ (.rbrace :: rest))) rfl).trans ?_
    refine (Steps.one (s' := .lits [i] :: .tok .lbrace :: below)
      (i' := .comma :: (listToks j l ++ (.rbrace :: rest))) rfl).trans ?_
    exact (lits_steps l [i] j _ _).trans (close _)

/-- Operators associate to the left: the conflict is always resolved by reducing. -/
theorem step_bin (r l : Expr) (o : Op) (below : List Sym) (input : List Tok) :
    step (.expr r :: .tok (.op o) :: .expr l :: below) input = .go (.oper (.op o l r) :: below) input := by
  simp only [step]
  cases nextOp input with
  | none => rfl
  | some o' => cases o <;> cases o' <;> rfl

mutual
theorem atom_steps (a : Atom) (below : List Sym) (rest : List Tok) (h : Start below) :
    Steps below (a.toks ++ rest) (.expr a.value :: below) rest := by
  match a with
  | .lit i l =>
    refine (Steps.one (s' := .tok .lbrace :: below) (i' := listToks i l ++ (.rbrace :: rest)) ?_).trans ?_
    · rw [step_start h]
      simp [Atom.toks, start]
    · exact brace_steps i l below rest
  | .name i =>
    refine (Steps.one (s' := .tok (.id i) :: below) (i' := rest) ?_).trans ?_
    · rw [step_start h]; rfl
    · exact Steps.one (step_name h i rest)
  | .paren a o b t =>
    refine (Steps.one (s' := .tok .lpar :: below)
      (i' := a.toks ++ .op o :: (b.toks ++ (t.toks ++ .rpar :: rest))) ?_).trans ?_
    · rw [step_start h]
      simp [Atom.toks, start]
    refine (atom_steps a (.tok .lpar :: below) _ trivial).trans ?_
    refine (Steps.one (s' := .tok (.op o) :: .expr a.value :: .tok .lpar :: below) rfl).trans ?_
    refine (atom_steps b (.tok (.op o) :: .expr a.value :: .tok .lpar :: below) _ trivial).trans ?_
    refine (par_steps t o a.value b.value below rest).trans ?_
    refine (Steps.one (s' := .tok .rpar :: .oper (t.value (.op o a.value b.value)) :: .tok .lpar :: below)
      (i' := rest) rfl).trans ?_
    exact Steps.one rfl
theorem par_steps (t : Tail) (o : Op) (l r : Expr) (below : List Sym) (rest : List Tok) :
    Steps (.expr r :: .tok (.op o) :: .expr l :: .tok .lpar :: below) (t.toks ++ .rpar :: rest)
      (.oper (t.value (.op o l r)) :: .tok .lpar :: below) (.rpar :: rest) := by
  match t with
  | .nil => exact Steps.one (step_bin _ _ _ _ _)
  | .cons o' a t =>
    refine (Steps.one (step_bin _ _ _ _ _)).trans ?_
    refine (Steps.one (s' := .expr (.op o l r) :: .tok .lpar :: below)
      (i' := .op o' :: (a.toks ++ (t.toks ++ .rpar :: rest))) ?_).trans ?_
    · simp [step, Tail.toks, nextIs]
    refine (Steps.one (s' := .tok (.op o') :: .expr (.op o l r) :: .tok .lpar :: below)
      (i' := a.toks ++ (t.toks ++ .rpar :: rest)) rfl).trans ?_
    refine (atom_steps a (.tok (.op o') :: .expr (.op o l r) :: .tok .lpar :: below) _ trivial).trans ?_
    exact par_steps t o' _ _ below rest
end

theorem top_steps (t : Tail) (acc : Expr) (rest : List Tok) :
    Steps [.expr acc] (t.toks ++ rest) [.expr (t.value acc)] rest := by
  match t with
  | .nil => exact Steps.refl _ _
  | .cons o a t =>
    refine (Steps.one (s' := [.tok (.op o), .expr acc]) (i' := a.toks ++ (t.toks ++ rest)) ?_).trans ?_
    · simp [step, Tail.toks, nextOp, afterExpr, shift]
    refine (atom_steps a [.tok (.op o), .expr acc] _ trivial).trans ?_
    refine (Steps.one (step_bin _ _ _ _ _)).trans ?_
    refine (Steps.one (s' := [.expr (.op o acc a.value)]) (i' := t.toks ++ rest) rfl).trans ?_
    exact top_steps t _ rest

theorem chain_parses (a : Atom) (t : Tail) (rest : List Tok) (h : atEnd rest = true) :
    Parses (a.toks ++ (t.toks ++ rest)) (t.value a.value) rest := by
  obtain ⟨n, hn⟩ := (atom_steps a [] (t.toks ++ rest) trivial).trans (top_steps t a.value rest)
  refine ⟨n + 1, ?_⟩
  rw [hn]
  have hno : nextOp rest = none := by
    match rest, h with
    | [], _ => rfl
    | .comma :: _, _ => rfl
    | .rbrace :: _, _ => rfl
    | .semi :: _, _ => rfl
  simp [run, step, afterExpr, hno, h]

/-! ## More fuel does not matter -/

theorem run_mono (n : Nat) (s : List Sym) (i : List Tok) (x) (h : run n s i = some x) : run (n + 1) s i = some x := by
  induction n generalizing s i with
  | zero => simp [run] at h
  | succ n ih =>
    rw [run] at h
    rw [run]
    cases hs : step s i with
    | go s' i' => rw [hs] at h; exact ih s' i' h
    | accept e r => rw [hs] at h; exact h
    | error => rw [hs] at h; simp at h

theorem run_mono_le {n m : Nat} (hnm : n ≤ m) (s i) (x) (h : run n s i = some x) : run m s i = some x := by
  induction hnm with
  | refl => exact h
  | step _ ih => exact run_mono _ _ _ _ ih

theorem parses_unique {input e r e' r'} (h : Parses input e r) (h' : Parses input e' r') : e = e' ∧ r = r' := by
  obtain ⟨n, h⟩ := h
  obtain ⟨m, h'⟩ := h'
  have a := run_mono_le (Nat.le_max_left n m) _ _ _ h
  have b := run_mono_le (Nat.le_max_right n m) _ _ _ h'
  rw [a] at b
  simpa using b

/-! ## The sentences of the grammar are the chains -/

/-- Concatenate chains. -/
def tailAppend : Tail → Tail → Tail
  | .nil, t => t
  | .cons o a s, t => .cons o a (tailAppend s t)

theorem tailAppend_toks (s t : Tail) : (tailAppend s t).toks = s.toks ++ t.toks := by
  match s with
  | .nil => rfl
  | .cons o a s => simp only [tailAppend, Tail.toks, tailAppend_toks s t, List.cons_append, List.append_assoc]

mutual
theorem expr_chain {w : List Tok} (h : SetExpr w) : ∃ a t, w = Atom.toks a ++ Tail.toks t := by
  match h with
  | .oper h =>
    obtain ⟨a, o, b, t, e⟩ := oper_chain h
    exact ⟨a, .cons o b t, by rw [e]; simp [Tail.toks]⟩
  | .par h =>
    obtain ⟨a, o, b, t, rfl⟩ := oper_chain h
    exact ⟨.paren a o b t, .nil, by simp [Tail.toks, Atom.toks]⟩
  | .lit (i := i) (l := l) => exact ⟨.lit i l, .nil, by simp [Tail.toks, Atom.toks]⟩
  | .id (i := i) => exact ⟨.name i, .nil, by simp [Tail.toks, Atom.toks]⟩
theorem oper_chain {w : List Tok} (h : SetOper w) :
    ∃ a o b t, w = Atom.toks a ++ .op o :: (Atom.toks b ++ Tail.toks t) := by
  match h with
  | .bin (o := o) h1 h2 =>
    obtain ⟨a, t, rfl⟩ := expr_chain h1
    obtain ⟨b, s, rfl⟩ := expr_chain h2
    match t with
    | .nil => exact ⟨a, o, b, s, by simp [Tail.toks]⟩
    | .cons o1 b1 t => exact ⟨a, o1, b1, tailAppend t (.cons o b s), by simp [Tail.toks, tailAppend_toks]⟩
end

mutual
theorem atom_expr (a : Atom) : SetExpr a.toks := by
  match a with
  | .lit i l => exact .lit
  | .name i => exact .id
  | .paren a o b t =>
    have := SetExpr.par (tail_oper t _ (SetOper.bin (o := o) (atom_expr a) (atom_expr b)))
    simpa [Atom.toks] using this
theorem tail_oper (t : Tail) (w : List Tok) (h : SetOper w) : SetOper (w ++ t.toks) := by
  match t with
  | .nil => simpa [Tail.toks] using h
  | .cons o a t =>
    have := tail_oper t _ (SetOper.bin (o := o) (.oper h) (atom_expr a))
    simpa [Tail.toks] using this
end

theorem chain_expr (a : Atom) (t : Tail) : SetExpr (a.toks ++ t.toks) := by
  match t with
  | .nil => simpa [Tail.toks] using atom_expr a
  | .cons o b t =>
    have := SetExpr.oper (tail_oper t _ (SetOper.bin (o := o) (atom_expr a) (atom_expr b)))
    simpa [Tail.toks] using this

/-! ## Soundness of the automaton -/

/-- Tokens a stack symbol stands for. -/
inductive SymYield : Sym → List Tok → Prop where
  | tok (t) : SymYield (.tok t) [t]
  | lits (i l) : SymYield (.lits (i :: l)) (listToks i l)
  | oper {e w} : SetOper w → SymYield (.oper e) w
  | expr {e w} : SetExpr w → SymYield (.expr e) w

/-- Tokens the stack stands for. -/
inductive Yield : List Sym → List Tok → Prop where
  | nil : Yield [] []
  | cons {s st w ws} : Yield st w → SymYield s ws → Yield (s :: st) (w ++ ws)

theorem Yield.push {st w} (h : Yield st w) (t : Tok) : Yield (.tok t :: st) (w ++ [t]) := .cons h (.tok t)

theorem Yield.pop {s st w} (h : Yield (s :: st) w) : ∃ w1 w2, w = w1 ++ w2 ∧ Yield st w1 ∧ SymYield s w2 := by
  cases h with
  | cons h1 h2 => exact ⟨_, _, rfl, h1, h2⟩

theorem SymYield.tok_eq {t w} (h : SymYield (.tok t) w) : w = [t] := by cases h; rfl

theorem SymYield.expr_inv {e w} (h : SymYield (.expr e) w) : SetExpr w := by cases h; assumption

theorem SymYield.oper_inv {e w} (h : SymYield (.oper e) w) : SetOper w := by cases h; assumption

theorem SymYield.lits_inv {l w} (h : SymYield (.lits l) w) : ∃ i k, l = i :: k ∧ w = listToks i k := by
  cases h; exact ⟨_, _, rfl, rfl⟩

theorem listToks_snoc (i : Id) (l : List Id) (j : Id) : listToks i (l ++ [j]) = listToks i l ++ [.comma, .id j] := by
  induction l generalizing i with
  | nil => rfl
  | cons k l ih => simp [listToks, ih]

theorem shift_yield {st : List Sym} {input : List Tok} {s' i'} (h : shift st input = .go s' i') {w} (hy : Yield st w) :
    ∃ w', Yield s' w' ∧ w' ++ i' = w ++ input := by
  cases input with
  | nil => simp [shift] at h
  | cons t ts =>
    simp only [shift, Act.go.injEq] at h
    obtain ⟨rfl, rfl⟩ := h
    exact ⟨_, hy.push t, by simp⟩

theorem start_yield {st : List Sym} {input : List Tok} {s' i'} (h : start st input = .go s' i') {w} (hy : Yield st w) :
    ∃ w', Yield s' w' ∧ w' ++ i' = w ++ input := by
  unfold start at h
  split at h <;> simp only [Act.go.injEq, reduceCtorEq] at h
  all_goals
    obtain ⟨rfl, rfl⟩ := h
    exact ⟨_, hy.push _, by simp⟩

theorem name_yield {st : List Sym} {input : List Tok} {s' i'} (h : name st input = .go s' i') {w} (hy : Yield st w) :
    ∃ w', Yield s' w' ∧ w' ++ i' = w ++ input := by
  unfold name at h
  split at h <;> simp only [Act.go.injEq, reduceCtorEq] at h
  obtain ⟨rfl, rfl⟩ := h
  exact ⟨_, hy.push _, by simp⟩

theorem step_yield {st : List Sym} {input : List Tok} {s' i'} (h : step st input = .go s' i') {w} (hy : Yield st w) :
    ∃ w', Yield s' w' ∧ w' ++ i' = w ++ input := by
  unfold step at h
  split at h
  · obtain ⟨w1, w2, rfl, hy1, h2⟩ := hy.pop
    obtain ⟨w3, w4, rfl, hy3, h4⟩ := hy1.pop
    obtain ⟨w5, w6, rfl, hy5, h6⟩ := hy3.pop
    obtain ⟨i, k, rfl, rfl⟩ := h6.lits_inv
    rw [h2.tok_eq, h4.tok_eq]
    simp only [Act.go.injEq] at h
    obtain ⟨rfl, rfl⟩ := h
    rename_i j _
    refine ⟨_, .cons hy5 (List.cons_append ▸ SymYield.lits i (k ++ [j])), ?_⟩
    simp [listToks_snoc]
  · obtain ⟨w1, w2, rfl, hy1, h2⟩ := hy.pop
    rw [h2.tok_eq]
    simp only [Act.go.injEq] at h
    obtain ⟨rfl, rfl⟩ := h
    exact ⟨_, .cons hy1 (.lits _ []), by simp [listToks]⟩
  · obtain ⟨w1, w2, rfl, hy1, h2⟩ := hy.pop
    rw [h2.tok_eq]
    simp only [Act.go.injEq] at h
    obtain ⟨rfl, rfl⟩ := h
    exact ⟨_, .cons hy1 (.expr .id), rfl⟩
  · obtain ⟨w1, w2, rfl, hy1, h2⟩ := hy.pop
    obtain ⟨w3, w4, rfl, hy3, h4⟩ := hy1.pop
    obtain ⟨w5, w6, rfl, hy5, h6⟩ := hy3.pop
    obtain ⟨i, k, rfl, rfl⟩ := h4.lits_inv
    rw [h2.tok_eq, h6.tok_eq]
    simp only [Act.go.injEq] at h
    obtain ⟨rfl, rfl⟩ := h
    exact ⟨_, .cons hy5 (.expr (.lit (i := i) (l := k))), by simp⟩
  · obtain ⟨w1, w2, rfl, hy1, h2⟩ := hy.pop
    obtain ⟨w3, w4, rfl, hy3, h4⟩ := hy1.pop
    obtain ⟨w5, w6, rfl, hy5, h6⟩ := hy3.pop
    rw [h2.tok_eq, h6.tok_eq]
    simp only [Act.go.injEq] at h
    obtain ⟨rfl, rfl⟩ := h
    exact ⟨_, .cons hy5 (.expr (.par h4.oper_inv)), by simp⟩
  · rename_i r o l st
    have key : ∀ i, Act.go (.oper (.op o l r) :: st) input = .go s' i → ∃ w', Yield s' w' ∧ w' ++ i = w ++ input := by
      intro i hx
      obtain ⟨w1, w2, rfl, hy1, h2⟩ := hy.pop
      obtain ⟨w3, w4, rfl, hy3, h4⟩ := hy1.pop
      obtain ⟨w5, w6, rfl, hy5, h6⟩ := hy3.pop
      rw [h4.tok_eq]
      simp only [Act.go.injEq] at hx
      obtain ⟨rfl, rfl⟩ := hx
      exact ⟨_, .cons hy5 (.oper (.bin (o := o) h6.expr_inv h2.expr_inv)), by simp⟩
    split at h
    · split at h
      · exact shift_yield h hy
      · exact key _ h
    · exact key _ h
  · split at h
    · exact shift_yield h hy
    · obtain ⟨w1, w2, rfl, hy1, h2⟩ := hy.pop
      simp only [Act.go.injEq] at h
      obtain ⟨rfl, rfl⟩ := h
      exact ⟨_, .cons hy1 (.expr (.oper h2.oper_inv)), rfl⟩
  · obtain ⟨w1, w2, rfl, hy1, h2⟩ := hy.pop
    simp only [Act.go.injEq] at h
    obtain ⟨rfl, rfl⟩ := h
    exact ⟨_, .cons hy1 (.expr (.oper h2.oper_inv)), rfl⟩
  · unfold afterExpr at h
    split at h
    · exact shift_yield h hy
    · split at h
      · split at h <;> cases h
      · cases h
  · split at h
    · exact shift_yield h hy
    · cases h
  · exact name_yield h hy
  · exact name_yield h hy
  · exact start_yield h hy
  · exact start_yield h hy
  · exact start_yield h hy
  · cases h

theorem step_accept {st : List Sym} {input : List Tok} {e r} (h : step st input = .accept e r) :
    st = [.expr e] ∧ r = input ∧ atEnd input = true := by
  have noShift : ∀ s i, shift s i ≠ .accept e r := by intro s i; cases i <;> simp [shift]
  have noStart : ∀ s i, start s i ≠ .accept e r := by intro s i; unfold start; split <;> simp
  have noName : ∀ s i, name s i ≠ .accept e r := by intro s i; unfold name; split <;> simp
  unfold step at h
  split at h
  · cases h
  · cases h
  · cases h
  · cases h
  · cases h
  · split at h
    · split at h
      · exact absurd h (noShift _ _)
      · cases h
    · cases h
  · split at h
    · exact absurd h (noShift _ _)
    · cases h
  · cases h
  · unfold afterExpr at h
    split at h
    · exact absurd h (noShift _ _)
    · split at h
      · split at h
        · rename_i hend
          cases h
          exact ⟨rfl, rfl, hend⟩
        · cases h
      · cases h
  · split at h
    · exact absurd h (noShift _ _)
    · cases h
  · exact absurd h (noName _ _)
  · exact absurd h (noName _ _)
  · exact absurd h (noStart _ _)
  · exact absurd h (noStart _ _)
  · exact absurd h (noStart _ _)
  · cases h

theorem run_sound (n : Nat) (st : List Sym) (input : List Tok) (e r) (h : run n st input = some (e, r)) (w : List Tok)
    (hy : Yield st w) : atEnd r = true ∧ ∃ v, SetExpr v ∧ w ++ input = v ++ r := by
  induction n generalizing st input w with
  | zero => simp [run] at h
  | succ n ih =>
    rw [run] at h
    cases hs : step st input with
    | error => rw [hs] at h; simp at h
    | accept e' r' =>
      rw [hs] at h
      simp only [Option.some.injEq, Prod.mk.injEq] at h
      obtain ⟨rfl, rfl⟩ := h
      obtain ⟨rfl, rfl, he⟩ := step_accept hs
      obtain ⟨w1, w2, rfl, hy, h2⟩ := hy.pop
      cases hy
      exact ⟨he, w2, h2.expr_inv, rfl⟩
    | go s' i' =>
      rw [hs] at h
      obtain ⟨w', hy', e'⟩ := step_yield hs hy
      obtain ⟨h1, v, hv, h2⟩ := ih s' i' h w' hy'
      exact ⟨h1, v, hv, by rw [← e', h2]⟩

end Verif.Grammar
