import Verif.Lemmas.SetGrammar
import Verif.Props.Ids

/-!
# Property C42: associativity of set operators
-/

namespace Verif.Props
open Verif.Ids Verif.Grammar Verif.Spec.Grammar

/-- What may follow a set expression: nothing, `,`, `}` or `;`. -/
def Follows (rest : List Tok) : Prop := rest = [] ∨ ∃ t ts, rest = t :: ts ∧ (t = .comma ∨ t = .rbrace ∨ t = .semi)

theorem follows_iff (rest : List Tok) : atEnd rest = true ↔ Follows rest := by
  constructor
  · intro h
    match rest with
    | [] => exact Or.inl rfl
    | .comma :: ts => exact Or.inr ⟨_, ts, rfl, by simp⟩
    | .rbrace :: ts => exact Or.inr ⟨_, ts, rfl, by simp⟩
    | .semi :: ts => exact Or.inr ⟨_, ts, rfl, by simp⟩
    | .id _ :: _ => cases h
    | .lbrace :: _ => cases h
    | .lpar :: _ => cases h
    | .rpar :: _ => cases h
    | .op _ :: _ => cases h
  · rintro (rfl | ⟨t, ts, rfl, rfl | rfl | rfl⟩) <;> rfl

/-- C42: every chain of operands and operators is parsed into the tree that applies the operators strictly from left
to right (and chains in parentheses first), if what follows may follow a set expression. -/
theorem C42_left (a : Atom) (t : Tail) (rest : List Tok) (h : Follows rest) :
    Parses (a.toks ++ (t.toks ++ rest)) (t.value a.value) rest := chain_parses a t rest ((follows_iff rest).2 h)

example : (Atom.name (mkId [97])).toks ++ ((Tail.cons .diff (.name (mkId [98])) (.cons .inter (.name (mkId [99])) .nil)).toks ++ [.semi])
      = [.id (mkId [97]), .op .diff, .id (mkId [98]), .op .inter, .id (mkId [99]), .semi] ∧
    (Tail.cons .diff (.name (mkId [98])) (.cons .inter (.name (mkId [99])) .nil)).value (.ref (mkId [97])) =
      .op .inter (.op .diff (.ref (mkId [97])) (.ref (mkId [98]))) (.ref (mkId [99])) ∧ Follows [.semi] := by
  refine ⟨?_, ?_, Or.inr ⟨.semi, [], rfl, by simp⟩⟩ <;> simp [Atom.toks, Tail.toks, Tail.value, Atom.value]

/-- C42: these chains are all there is: they are the sentences of the grammar. -/
theorem C42_sentences (w : List Tok) : SetExpr w ↔ ∃ a t, w = Atom.toks a ++ Tail.toks t :=
  ⟨expr_chain, fun ⟨a, t, e⟩ => e ▸ chain_expr a t⟩

example : SetExpr [.id (mkId [97]), .op .diff, .id (mkId [98])] := .oper (.bin (w := [_]) .id .id)

/-- C42: whatever the parser accepts is a sentence of the grammar, and the tree is the left-to-right reading of it; it
stops only where an expression may end. -/
theorem C42_accepted (input : List Tok) (e : Expr) (rest : List Tok) (h : Parses input e rest) :
    ∃ a t, input = Atom.toks a ++ (Tail.toks t ++ rest) ∧ e = t.value a.value ∧ Follows rest := by
  obtain ⟨n, hn⟩ := h
  obtain ⟨he, v, hv, e1⟩ := run_sound n [] input e rest hn [] .nil
  obtain ⟨a, t, rfl⟩ := expr_chain hv
  have e2 : input = a.toks ++ (t.toks ++ rest) := by simpa using e1
  refine ⟨a, t, e2, ?_, (follows_iff rest).1 he⟩
  have := chain_parses a t rest he
  rw [← e2] at this
  exact (parses_unique ⟨n, hn⟩ this).1

example : Parses [.id (mkId [97]), .op .diff, .id (mkId [98]), .comma] (.op .diff (.ref (mkId [97])) (.ref (mkId [98])))
    [.comma] := ⟨20, by decide⟩

end Verif.Props
