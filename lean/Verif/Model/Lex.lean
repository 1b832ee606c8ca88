import Verif.Model.Str

/-!
# Model of the scanner (`cocogen/frontend/scanAndParse/dsl-lexer.l`)

The rules are data: pairs of a regular expression and an action.  What `flex` makes of them is modelled by `pick`: the longest
match wins, among equally long ones the first rule.  One call of `step` is one match with its action.  The rules of a start
condition are those active in it; `COMMENT` and `SAVELINE` are exclusive.

Simplifications: `yylineno` and `yycolumn` do not overflow (files shorter than 2^31 bytes).  The line table, an `HTnew_Int` table
(C01, C06) with a `uint64_t` as key of which the first half is read (little endian), is a list of pairs.  Token codes are named by
the text of the rule (`T_UNSAFE` is `user`).  The value of a float (`strtold`) is its text.  Copies made with `strdup`, `STRcpy`
and `STRncpy` end at the first byte 0.
-/

namespace Verif.Lex
open Verif.Str (CStr)

/-- The bytes of a text of the source. -/
def bytes (s : String) : CStr := s.toUTF8.toList

/-- Patterns (`cocogen/frontend/scanAndParse/dsl-lexer.l:52-191`); `none` matches nothing. -/
inductive Re where
  | none
  | eps
  | cls (p : UInt8 → Bool)
  | seq (a b : Re)
  | alt (a b : Re)
  | star (a : Re)

/-- The pattern matches the empty text.  (Model of the matching done by `flex`.) -/
def nullable : Re → Bool
  | .none => false
  | .eps => true
  | .cls _ => false
  | .seq a b => nullable a && nullable b
  | .alt a b => nullable a || nullable b
  | .star _ => true

/-- `seq`, without useless parts.  (Model of the matching done by `flex`.) -/
def mkSeq : Re → Re → Re
  | .none, _ => .none
  | .eps, b => b
  | a, b => .seq a b

/-- `alt`, without useless parts.  (Model of the matching done by `flex`.) -/
def mkAlt : Re → Re → Re
  | .none, b => b
  | a, .none => a
  | a, b => .alt a b

/-- The pattern for what may follow `c`.  (Model of the matching done by `flex`: a step of the automaton.) -/
def deriv : Re → UInt8 → Re
  | .none, _ => .none
  | .eps, _ => .none
  | .cls p, c =>
    match p c with
    | true => .eps
    | false => .none
  | .seq a b, c =>
    match nullable a with
    | true => mkAlt (mkSeq (deriv a c) b) (deriv b c)
    | false => mkSeq (deriv a c) b
  | .alt a b, c => mkAlt (deriv a c) (deriv b c)
  | .star a, c => mkSeq (deriv a c) (.star a)

/-- The length of the longest prefix that matches.  (Model of the matching done by `flex`.) -/
def longest : Re → CStr → Option Nat
  | r, [] =>
    match nullable r with
    | true => some 0
    | false => none
  | r, c :: cs =>
    match longest (deriv r c) cs with
    | some n => some (n + 1)
    | none =>
      match nullable r with
      | true => some 0
      | false => none

/-- A text in quotes (`cocogen/frontend/scanAndParse/dsl-lexer.l:88-163`). -/
def lit : CStr → Re
  | [] => .eps
  | c :: cs => .seq (.cls (· == c)) (lit cs)

/-- `.` (`cocogen/frontend/scanAndParse/dsl-lexer.l:54`, `86`, `191`). -/
def dot : Re := .cls (· != 10)

/-- `[A-Za-z]` (`cocogen/frontend/scanAndParse/dsl-lexer.l:166`). -/
def isLetter (c : UInt8) : Bool := (65 ≤ c && c ≤ 90) || (97 ≤ c && c ≤ 122)

/-- `[0-9]` (`cocogen/frontend/scanAndParse/dsl-lexer.l:171-177`). -/
def isDigit (c : UInt8) : Bool := 48 ≤ c && c ≤ 57

/-- `[A-Za-z0-9_]` (`cocogen/frontend/scanAndParse/dsl-lexer.l:166`). -/
def isWord (c : UInt8) : Bool := isLetter c || isDigit c || c == 95

/-- `[0-9]+` (`cocogen/frontend/scanAndParse/dsl-lexer.l:177`). -/
def digits : Re := .seq (.cls isDigit) (.star (.cls isDigit))

/-- `\/\/[^\n]*` (`cocogen/frontend/scanAndParse/dsl-lexer.l:81`). -/
def lineComment : Re := .seq (lit [47, 47]) (.star dot)

/-- `[A-Za-z][A-Za-z0-9_]*` (`cocogen/frontend/scanAndParse/dsl-lexer.l:166`). -/
def ident : Re := .seq (.cls isLetter) (.star (.cls isWord))

/-- `-?[0-9]+\.[0-9]+` (`cocogen/frontend/scanAndParse/dsl-lexer.l:171`). -/
def floatVal : Re := .seq (.alt (lit [45]) .eps) (.seq digits (.seq (lit [46]) digits))

/-- `-[0-9]+` (`cocogen/frontend/scanAndParse/dsl-lexer.l:174`). -/
def intVal : Re := .seq (lit [45]) digits

/-- `(\\.|[^\\"])*` (`cocogen/frontend/scanAndParse/dsl-lexer.l:181`). -/
def strBody : Re := .star (.alt (.seq (lit [92]) dot) (.cls fun c => c != 92 && c != 34))

/-- `\"(\\.|[^\\"])*\"` (`cocogen/frontend/scanAndParse/dsl-lexer.l:181`). -/
def strVal : Re := .seq (lit [34]) (.seq strBody (lit [34]))

/-- `[ \t\r]` (`cocogen/frontend/scanAndParse/dsl-lexer.l:185`). -/
def isBlank (c : UInt8) : Bool := c == 32 || c == 9 || c == 13

/-- The actions (`cocogen/frontend/scanAndParse/dsl-lexer.l:52-195`). -/
inductive Act where
  | save | saveNewline | skip | openComment | closeComment | newline
  | sym (c : UInt8) | kw (k : CStr) | null | ident | float | int | uint | str | bad
  deriving DecidableEq

/-- The rules of one character (`cocogen/frontend/scanAndParse/dsl-lexer.l:88-108`): `( ) [ ] { } , = ; ! | & - .` -/
def symbols : List UInt8 := [40, 41, 91, 93, 123, 125, 44, 61, 59, 33, 124, 38, 45, 46]

/-- The rules with `LEX_KEYWORD` (`cocogen/frontend/scanAndParse/dsl-lexer.l:110-162`). -/
def keywords : List CStr :=
  ["args", "attributes", "children", "constructor", "cycle", "enum", "equations", "inherited", "mandatory", "node", "nodeset",
    "nodes", "pass", "passes", "phase", "phases", "actions", "prefix", "subphases", "synthesized", "this", "to", "traversal",
    "travdata", "values", "info", "func", "root", "start", "double", "float", "int", "uint", "int8", "int16", "int32", "int64",
    "uint8", "uint16", "uint32", "uint64", "string", "bool", "lifetime", "disallowed", "optional", "allowed", "->", "false",
    "true", "gate", "user", "uid"].map bytes

/-- Start conditions (`cocogen/frontend/scanAndParse/dsl-lexer.l:48-49`). -/
inductive Start where
  | initial | comment | saveline
  deriving DecidableEq, Repr

/-- The rules that are active (`cocogen/frontend/scanAndParse/dsl-lexer.l:52-195`). -/
def rules : Start → List (Re × Act)
  | .saveline => [(.star dot, .save), (lit [10], .saveNewline)]
  | .comment => [(lit [42, 47], .closeComment), (lit [10], .newline), (dot, .skip)]
  | .initial =>
    [(lineComment, .skip), (lit [47, 42], .openComment)] ++ symbols.map (fun c => (lit [c], .sym c)) ++
      keywords.map (fun k => (lit k, .kw k)) ++
      [(lit [78, 85, 76, 76], .null), (ident, .ident), (floatVal, .float), (intVal, .int), (digits, .uint), (strVal, .str),
        (.cls isBlank, .skip), (lit [10], .newline), (dot, .bad)]

/-- The rule that is applied and the length of its match.  (Model of the matching done by `flex`.) -/
def pick : List (Re × Act) → CStr → Option (Nat × Act)
  | [], _ => none
  | (r, a) :: rest, s =>
    match longest r s, pick rest s with
    | none, x => x
    | some n, none => some (n, a)
    | some n, some (m, b) => if m ≤ n then some (n, a) else some (m, b)

/-- Tokens (`cocogen/frontend/scanAndParse/dsl-parser.y:118-192`) with `yylval`. -/
inductive Tok where
  | sym (c : UInt8)
  | kw (k : CStr)
  | null
  | id (s : CStr)
  | float (s : CStr)
  | int (v : Int)
  | uint (v : Nat)
  | str (s : CStr)
  deriving DecidableEq, Repr

/-- A token with `yytext` and `yylloc` (`cocogen/frontend/scanAndParse/dsl-lexer.l:230-237`). -/
structure Token where
  tok : Tok
  text : CStr
  line : Nat
  first : Nat
  last : Nat
  deriving DecidableEq, Repr

/-- The state of the scanner (`cocogen/frontend/scanAndParse/dsl-lexer.l:23-29` and the variables of `flex`). -/
structure St where
  input : CStr
  line : Nat
  col : Nat
  start : Start
  stack : List Start
  keywords : Bool
  inEnum : Bool
  inValues : Bool
  lines : List (Nat × CStr)
  deriving DecidableEq, Repr

/-- The scanner before the first match, `YY_USER_INIT` done (`cocogen/frontend/scanAndParse/dsl-lexer.l:23-29`, `198-213`). -/
def init (input : CStr) : St := ⟨input, 1, 1, .saveline, [.initial], true, false, false, []⟩

/-- A copy of a C string ends at the first 0 (`palm/src/str.c:28-66`). -/
def cut (s : CStr) : CStr := s.takeWhile (· != 0)

/-- The words of the regular expression for C keywords (`cocogen/frontend/scanAndParse/dsl-lexer.l:203-207`). -/
def cKeywords : List CStr :=
  ["auto", "break", "case", "char", "const", "continue", "default", "do", "double", "else", "enum", "extern", "float", "for",
    "goto", "if", "inline", "int", "long", "register", "restrict", "return", "short", "signed", "sizeof", "static", "struct",
    "switch", "typedef", "union", "unsigned", "void", "volatile", "while"].map bytes

/-- The value of decimal digits.  (Model of `strtoull` and `strtoll` within their range.) -/
def decimal (s : CStr) : Nat := s.foldl (fun v c => 10 * v + (c.toNat - 48)) 0

/-- `strtoull` (`cocogen/frontend/scanAndParse/dsl-lexer.l:179`): the largest number if out of range. -/
def strtoull (s : CStr) : Nat := min (decimal s) (2 ^ 64 - 1)

/-- `strtoll` of `-` and digits (`cocogen/frontend/scanAndParse/dsl-lexer.l:176`): the smallest number if out of range. -/
def strtoll (s : CStr) : Int := max (-(decimal (s.drop 1) : Int)) (-2 ^ 63)

/-- `yy_push_state` (`cocogen/frontend/scanAndParse/dsl-lexer.l:82-85`, `189`). -/
def push (s : St) (c : Start) : St := { s with start := c, stack := s.start :: s.stack }

/-- `LEX_KEYWORD` (`cocogen/frontend/scanAndParse/dsl-lexer.l:16-21`). -/
def lexKeyword (s : St) (k : CStr) : Tok :=
  match s.keywords with
  | true => .kw k
  | false => .id (cut k)

/-- `token_action` (`cocogen/frontend/scanAndParse/dsl-lexer.l:230-237`): the columns and lines of the match.  `s` is the state
after the match, with `yylineno` already counted up. -/
def token_action (s : St) (n : Nat) : St :=
  match s.start with
  | .saveline => s
  | _ => { s with col := s.col + n }

/-- The token of a match; `s` is the state after `token_action`
(`cocogen/frontend/scanAndParse/dsl-lexer.l:232-234`). -/
def token (s : St) (text : CStr) (t : Tok) : Option Token := some ⟨t, text, s.line, s.col - text.length, s.col - 1⟩

/-- `check_c_keyword` (`cocogen/frontend/scanAndParse/dsl-lexer.l:215-228`): the word is a C keyword and that matters. -/
def isCKeyword (s : St) (w : CStr) : Bool := s.keywords && cKeywords.contains w

/-- The action of a rule (`cocogen/frontend/scanAndParse/dsl-lexer.l:52-195`); `s` is the state after `token_action`, `text` is
`yytext`, which is given back by `yyless(0)` in line 67. -/
def act (s : St) (text : CStr) : Act → Res (St × Option Token)
  | .save =>
    match s.stack with
    | [] => .abort "start-condition stack underflow"
    | c :: rest =>
      .ok ({ s with input := text ++ s.input, col := 1, start := c, stack := rest, lines := (s.line, cut text) :: s.lines }, none)
  | .saveNewline => .ok ({ s with col := 0 }, none)
  | .skip => .ok (s, none)
  | .openComment => .ok (push s .comment, none)
  | .closeComment => .ok (push s .initial, none)
  | .newline => .ok (push s .saveline, none)
  | .sym c =>
    match decide (c = 123), decide (c = 125), s.inValues with
    | true, _, true => .ok ({ s with keywords := false, inValues := false, inEnum := false }, token s text (.sym c))
    | false, true, _ => .ok ({ s with keywords := true }, token s text (.sym c))
    | _, _, _ => .ok (s, token s text (.sym c))
  | .kw k =>
    match decide (k = bytes "enum"), decide (k = bytes "values"), s.inEnum with
    | true, _, _ => .ok ({ s with inEnum := true }, token s text (lexKeyword s k))
    | false, true, true => .ok ({ s with inValues := true }, token s text (lexKeyword s k))
    | _, _, _ => .ok (s, token s text (lexKeyword s k))
  | .null => .ok (s, token s text .null)
  | .ident =>
    match isCKeyword s text with
    | true => .abort "Found C-keyword as identifier, which would generate invalid C code."
    | false => .ok (s, token s text (.id (cut text)))
  | .float => .ok (s, token s text (.float text))
  | .int => .ok (s, token s text (.int (strtoll text)))
  | .uint => .ok (s, token s text (.uint (strtoull text)))
  | .str => .ok (s, token s text (.str (cut ((text.drop 1).take (text.length - 2)))))
  | .bad => .abort "Unexpected token found, quit parsing"

/-- The number of newlines.  (Model of `%option yylineno`, `cocogen/frontend/scanAndParse/dsl-lexer.l:41`.) -/
def newlines (s : CStr) : Nat := s.count 10

/-- The state after a match of length `n`, before `token_action` (`cocogen/frontend/scanAndParse/dsl-lexer.l:41`). -/
def after (s : St) (n : Nat) : St := { s with input := s.input.drop n, line := s.line + newlines (s.input.take n) }

/-- One match and its action (`cocogen/frontend/scanAndParse/dsl-lexer.l:52-195`).  Without a match `flex` writes one character to
the output; this does not happen as every character is in a rule. -/
def step (s : St) : Res (St × Option Token) :=
  match pick (rules s.start) s.input with
  | none => .ok (after s 1, none)
  | some (n, a) => act (token_action (after s n) n) (s.input.take n) a

/-- All calls of `yylex` until the end of the file (`cocogen/frontend/scanAndParse/dsl-lexer.l:52-195`, `239-241`); `fuel` bounds
the number of matches. -/
def scan : Nat → St → Res (List Token × St)
  | 0, _ => .diverge
  | fuel + 1, s =>
    match s.input with
    | [] => .ok ([], s)
    | _ :: _ => do
      let (s', t) ← step s
      let (ts, s'') ← scan fuel s'
      .ok (t.toList ++ ts, s'')

/-- The tokens of a file and the table of its lines.  No match needs more than this bound, see `Verif.Lemmas.Lex`
(`cocogen/frontend/scanAndParse/dsl-lexer.l:52-195`). -/
def lex (input : CStr) : Res (List Token × List (Nat × CStr)) := do
  let (ts, s) ← scan (2 * input.length + 2) (init input)
  .ok (ts, s.lines)

end Verif.Lex
