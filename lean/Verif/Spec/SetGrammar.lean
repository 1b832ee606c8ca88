import Verif.Model.SetGrammar

/-!
# Specification of the syntax of set expressions
-/

namespace Verif.Spec.Grammar
open Verif.Ids Verif.Grammar

/-! ## Sentences of the grammar -/

/-- Names separated by commas. -/
def listToks (i : Id) : List Id → List Tok
  | [] => [.id i]
  | j :: l => .id i :: .comma :: listToks j l

mutual
/-- Token sequences of the non-terminal `setexpr`, straight from the rules (the grammar is ambiguous). -/
inductive SetExpr : List Tok → Prop where
  | oper {w} : SetOper w → SetExpr w
  | par {w} : SetOper w → SetExpr (.lpar :: (w ++ [.rpar]))
  | lit {i l} : SetExpr (.lbrace :: (listToks i l ++ [.rbrace]))
  | id {i} : SetExpr [.id i]
/-- Token sequences of the non-terminal `setoperation`. -/
inductive SetOper : List Tok → Prop where
  | bin {w o w'} : SetExpr w → SetExpr w' → SetOper (w ++ .op o :: w')
end

/-! ## The intended reading -/

mutual
/-- An operand: a literal, a name, or a parenthesised chain of at least two operands. -/
inductive Atom where
  | lit (i : Id) (l : List Id)
  | name (i : Id)
  | paren (a : Atom) (o : Op) (b : Atom) (rest : Tail)
/-- The rest of a chain: operators, each with its right operand. -/
inductive Tail where
  | nil
  | cons (o : Op) (a : Atom) (rest : Tail)
end

mutual
/-- How an operand is written. -/
def Atom.toks : Atom → List Tok
  | .lit i l => .lbrace :: (listToks i l ++ [.rbrace])
  | .name i => [.id i]
  | .paren a o b rest => .lpar :: (a.toks ++ .op o :: (b.toks ++ (rest.toks ++ [.rpar])))
/-- How the rest of a chain is written. -/
def Tail.toks : Tail → List Tok
  | .nil => []
  | .cons o a rest => .op o :: (a.toks ++ rest.toks)
end

mutual
/-- The meaning of an operand. -/
def Atom.value : Atom → Expr
  | .lit i l => .lit (i :: l)
  | .name i => .ref i
  | .paren a o b rest => rest.value (.op o a.value b.value)
/-- The meaning of a chain, strictly from left to right: what has been computed so far is the left operand of the
next operator. -/
def Tail.value : Tail → Expr → Expr
  | .nil, acc => acc
  | .cons o a rest, acc => rest.value (.op o acc a.value)
end

/-- The parser accepts the tokens, up to the rest, with this tree. -/
def Parses (input : List Tok) (e : Expr) (rest : List Tok) : Prop := ∃ n, run n [] input = some (e, rest)

end Verif.Spec.Grammar
