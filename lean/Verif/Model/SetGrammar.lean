import Verif.Model.Ids

/-!
# Model of the parser for set expressions

The rules `setexpr`, `setoperation` and `setliterals` of `cocogen/frontend/scanAndParse/dsl-parser.y:551-595` as a
shift-reduce automaton.  The automaton bison generates is not part of the sources; the model takes its decisions from
the top of the stack and the next token, with shift/reduce conflicts resolved by the `%left` declaration.  What
follows a set expression in the other rules is `,`, `}` or `;`, or the end of the input.
-/

namespace Verif.Grammar
open Verif.Ids

/-- The operators, with the meaning the semantic actions give them
(`cocogen/frontend/scanAndParse/dsl-parser.y:570-581`). -/
inductive Op where
  | union | inter | diff
  deriving DecidableEq, Repr

/-- Terminal symbols (`cocogen/frontend/scanAndParse/dsl-parser.y:551-595`). -/
inductive Tok where
  | id (i : Id) | lbrace | rbrace | comma | lpar | rpar | op (o : Op) | semi
  deriving DecidableEq, Repr

/-- Syntax trees of set expressions (`cocogen/main.ccn:800-831`); a literal is given by the names that its semantic
actions insert, in order. -/
inductive Expr where
  | lit (names : List Id)
  | ref (i : Id)
  | op (o : Op) (l r : Expr)
  deriving DecidableEq, Repr

/-- Stack symbols: terminals, and non-terminals with their semantic values
(`cocogen/frontend/scanAndParse/dsl-parser.y:551-595`). -/
inductive Sym where
  | tok (t : Tok)
  | lits (names : List Id)
  | oper (e : Expr)
  | expr (e : Expr)
  deriving DecidableEq, Repr

/-- The precedence level given by `%left '&' '-' '|'` (`cocogen/frontend/scanAndParse/dsl-parser.y:201`). -/
def prec : Op → Nat
  | .union => 1
  | .inter => 1
  | .diff => 1

/-- How bison resolves the conflict between reducing a rule with operator `rule` and shifting the operator `next`:
shift if `next` binds tighter; on the same level `%left` (`cocogen/frontend/scanAndParse/dsl-parser.y:201`) says
reduce. -/
def shiftWins (rule next : Op) : Bool := prec rule < prec next

/-- What the automaton does next. -/
inductive Act where
  | go (stack : List Sym) (input : List Tok)
  | accept (e : Expr) (rest : List Tok)
  | error

/-- The expression is complete before this input. -/
def atEnd : List Tok → Bool
  | [] => true
  | .comma :: _ => true
  | .rbrace :: _ => true
  | .semi :: _ => true
  | _ => false

/-- The operator that comes next. -/
def nextOp : List Tok → Option Op
  | .op o :: _ => some o
  | _ => none

/-- The token comes next. -/
def nextIs (t : Tok) : List Tok → Bool
  | x :: _ => x = t
  | [] => false

/-- Shift the next token. -/
def shift (stack : List Sym) : List Tok → Act
  | t :: ts => .go (.tok t :: stack) ts
  | [] => .error

/-- A set expression starts here (`cocogen/frontend/scanAndParse/dsl-parser.y:551-568`): shift a name, `{` or `(`. -/
def start (stack : List Sym) : List Tok → Act
  | .id i :: ts => .go (.tok (.id i) :: stack) ts
  | .lbrace :: ts => .go (.tok .lbrace :: stack) ts
  | .lpar :: ts => .go (.tok .lpar :: stack) ts
  | _ => .error

/-- A name is needed here (`cocogen/frontend/scanAndParse/dsl-parser.y:585-595`). -/
def name (stack : List Sym) : List Tok → Act
  | .id i :: ts => .go (.tok (.id i) :: stack) ts
  | _ => .error

/-- A set expression is on top, and no operator below it: shift an operator
(`cocogen/frontend/scanAndParse/dsl-parser.y:570-581`), or stop if it is all. -/
def afterExpr (e : Expr) (below : List Sym) (input : List Tok) : Act :=
  match nextOp input with
  | some _ => shift (.expr e :: below) input
  | none =>
    match below with
    | [] => if atEnd input then .accept e input else .error
    | _ => .error

/-- One step of the automaton for `cocogen/frontend/scanAndParse/dsl-parser.y:551-595`. -/
def step (stack : List Sym) (input : List Tok) : Act :=
  match stack with
  -- setliterals: setliterals ',' id
  | .tok (.id i) :: .tok .comma :: .lits l :: rest => .go (.lits (l ++ [i]) :: rest) input
  -- setliterals: id
  | .tok (.id i) :: .tok .lbrace :: rest => .go (.lits [i] :: .tok .lbrace :: rest) input
  -- setexpr: id
  | .tok (.id i) :: rest => .go (.expr (.ref i) :: rest) input
  -- setexpr: '{' setliterals '}'
  | .tok .rbrace :: .lits l :: .tok .lbrace :: rest => .go (.expr (.lit l) :: rest) input
  -- setexpr: '(' setoperation ')'
  | .tok .rpar :: .oper e :: .tok .lpar :: rest => .go (.expr e :: rest) input
  -- setoperation: setexpr op setexpr
  | .expr r :: .tok (.op o) :: .expr l :: rest =>
    match nextOp input with
    | some o' => if shiftWins o o' then shift (.expr r :: .tok (.op o) :: .expr l :: rest) input
        else .go (.oper (.op o l r) :: rest) input
    | none => .go (.oper (.op o l r) :: rest) input
  -- setexpr: setoperation, unless a parenthesis closes
  | .oper e :: .tok .lpar :: rest =>
    if nextIs .rpar input then shift (.oper e :: .tok .lpar :: rest) input
    else .go (.expr e :: .tok .lpar :: rest) input
  | .oper e :: rest => .go (.expr e :: rest) input
  | .expr e :: below => afterExpr e below input
  | .lits l :: below =>
    if nextIs .comma input || nextIs .rbrace input then shift (.lits l :: below) input else .error
  | .tok .lbrace :: below => name (.tok .lbrace :: below) input
  | .tok .comma :: below => name (.tok .comma :: below) input
  | .tok .lpar :: below => start (.tok .lpar :: below) input
  | .tok (.op o) :: below => start (.tok (.op o) :: below) input
  | [] => start [] input
  | _ => .error

/-- Run the automaton for at most `fuel` steps. -/
def run : Nat → List Sym → List Tok → Option (Expr × List Tok)
  | 0, _, _ => none
  | fuel + 1, stack, input =>
    match step stack input with
    | .go stack input => run fuel stack input
    | .accept e rest => some (e, rest)
    | .error => none

end Verif.Grammar
