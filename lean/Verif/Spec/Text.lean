import Verif.Model.Lex

/-!
# What a source text says

The text is a list of lexemes with gaps between them.  `bytesOf` is the text, `place` the tokens it stands for, with lines and
columns counted in the text.  Nothing here refers to patterns or to the state of the scanner.
-/

namespace Verif.Spec.Text
open Verif.Str (CStr)
open Verif.Lex (Tok Token bytes)

/-- Letters. -/
def isLetter (c : UInt8) : Bool := (65 ≤ c && c ≤ 90) || (97 ≤ c && c ≤ 122)

/-- Digits. -/
def isDigit (c : UInt8) : Bool := 48 ≤ c && c ≤ 57

/-- What words go on with: letters, digits and `_`. -/
def isWord (c : UInt8) : Bool := isLetter c || isDigit c || c == 95

/-- The symbols `( ) [ ] { } , = ; ! | & - .` -/
def symbols : List UInt8 := [40, 41, 91, 93, 123, 125, 44, 61, 59, 33, 124, 38, 45, 46]

/-- The keywords of the language. -/
def keywords : List CStr :=
  ["args", "attributes", "children", "constructor", "cycle", "enum", "equations", "inherited", "mandatory", "node", "nodeset",
    "nodes", "pass", "passes", "phase", "phases", "actions", "prefix", "subphases", "synthesized", "this", "to", "traversal",
    "travdata", "values", "info", "func", "root", "start", "double", "float", "int", "uint", "int8", "int16", "int32", "int64",
    "uint8", "uint16", "uint32", "uint64", "string", "bool", "lifetime", "disallowed", "optional", "allowed", "->", "false",
    "true", "gate", "user", "uid"].map bytes

/-- The keywords of C (ISO/IEC 9899:1999, 6.4.1) that begin with a letter. -/
def cKeywords : List CStr :=
  ["auto", "break", "case", "char", "const", "continue", "default", "do", "double", "else", "enum", "extern", "float", "for",
    "goto", "if", "inline", "int", "long", "register", "restrict", "return", "short", "signed", "sizeof", "static", "struct",
    "switch", "typedef", "union", "unsigned", "void", "volatile", "while"].map bytes

/-- What the text consists of: words, symbols of one character, `->`, strings (without quotes) and numbers. -/
inductive Lexeme where
  | word (s : CStr)
  | sym (c : UInt8)
  | arrow
  | str (s : CStr)
  | nat (ds : CStr)
  | neg (ds : CStr)
  | dec (minus : Bool) (ds es : CStr)
  deriving DecidableEq, Repr

/-- The way it is written. -/
def Lexeme.text : Lexeme → CStr
  | .word s => s
  | .sym c => [c]
  | .arrow => [45, 62]
  | .str s => 34 :: s ++ [34]
  | .nat ds => ds
  | .neg ds => 45 :: ds
  | .dec m ds es => (if m then [45] else []) ++ ds ++ 46 :: es

/-- The inside of a string: a quote or backslash only behind a backslash; no newline. -/
inductive Quoted : CStr → Prop where
  | nil : Quoted []
  | plain (c : UInt8) (s : CStr) : c ≠ 34 → c ≠ 92 → c ≠ 10 → Quoted s → Quoted (c :: s)
  | escape (c : UInt8) (s : CStr) : c ≠ 10 → Quoted s → Quoted (92 :: c :: s)

/-- A non-empty row of digits. -/
def Digits (ds : CStr) : Prop := ds ≠ [] ∧ ∀ c ∈ ds, isDigit c = true

/-- The value of a row of digits. -/
def value : CStr → Nat
  | [] => 0
  | c :: cs => (c.toNat - 48) * 10 ^ cs.length + value cs

/-- The lexeme is written as the language wants it; numbers are in the range of 64 bits. -/
def Lexeme.Ok : Lexeme → Prop
  | .word s => ∃ c cs, s = c :: cs ∧ isLetter c = true ∧ ∀ d ∈ cs, isWord d = true
  | .sym c => c ∈ symbols
  | .arrow => True
  | .str s => Quoted s ∧ 0 ∉ s
  | .nat ds => Digits ds ∧ value ds < 2 ^ 64
  | .neg ds => Digits ds ∧ value ds ≤ 2 ^ 63
  | .dec _ ds es => Digits ds ∧ Digits es

/-- What may stand between lexemes: blanks, ends of lines and comments. -/
inductive Piece where
  | blank (c : UInt8)
  | newline
  | line (body : CStr)
  | block (body : CStr)
  deriving DecidableEq, Repr

/-- The way it is written; a comment to the end of the line includes the end of the line. -/
def Piece.text : Piece → CStr
  | .blank c => [c]
  | .newline => [10]
  | .line b => [47, 47] ++ b ++ [10]
  | .block b => [47, 42] ++ b ++ [42, 47]

/-- Spaces, tabs and carriage returns are blanks; a comment does not contain its own end. -/
def Piece.Ok : Piece → Prop
  | .blank c => c = 32 ∨ c = 9 ∨ c = 13
  | .newline => True
  | .line b => 10 ∉ b
  | .block b => ¬ [42, 47] <:+: b

/-- The text of a gap. -/
def gapText (g : List Piece) : CStr := g.flatMap Piece.text

/-- Two lexemes that would be read differently if nothing were between them: a word or number going on with letters or digits,
a number before a point, a minus before a number. -/
def Touch : Lexeme → Lexeme → Prop
  | .word _, .word _ => True
  | .word _, .nat _ => True
  | .word _, .dec false _ _ => True
  | .nat _, .nat _ => True
  | .nat _, .dec false _ _ => True
  | .nat _, .sym c => c = 46
  | .neg _, .nat _ => True
  | .neg _, .dec false _ _ => True
  | .neg _, .sym c => c = 46
  | .dec _ _ _, .nat _ => True
  | .dec _ _ _, .dec false _ _ => True
  | .sym c, .nat _ => c = 45
  | .sym c, .dec false _ _ => c = 45
  | _, _ => False

/-- A text: lexemes, each with the gap before it, and the gap at the end. -/
structure Text where
  items : List (List Piece × Lexeme)
  tail : List Piece

/-- The bytes of the file. -/
def bytesOf (t : Text) : CStr := (t.items.flatMap fun x => gapText x.1 ++ x.2.text) ++ gapText t.tail

/-- Neighbours are kept apart where needed. -/
def Apart : List (List Piece × Lexeme) → Prop
  | [] => True
  | [_] => True
  | x :: y :: rest => (Touch x.2 y.2 → y.1 ≠ []) ∧ Apart (y :: rest)

/-- The text is well formed. -/
structure Text.Ok (t : Text) : Prop where
  lexemes : ∀ x ∈ t.items, x.2.Ok
  gaps : ∀ x ∈ t.items, ∀ p ∈ x.1, p.Ok
  tail : ∀ p ∈ t.tail, p.Ok
  apart : Apart t.items

/-- A place in the text: line and column, both from 1. -/
structure Pos where
  row : Nat
  col : Nat
  deriving DecidableEq, Repr

/-- The place behind a text. -/
def Pos.move (p : Pos) : CStr → Pos
  | [] => p
  | c :: cs => Pos.move (if c = 10 then ⟨p.row + 1, 1⟩ else ⟨p.row, p.col + 1⟩) cs

/-- Where in the file we are: outside of enumerations, behind `enum`, behind `values`, or between the braces of the values. -/
inductive Mode where
  | outside | afterEnum | afterValues | inside
  deriving DecidableEq, Repr

/-- The values of an enumeration stand between the braces behind `values`. -/
def Mode.next : Mode → Lexeme → Mode
  | .outside, .word s => if s = bytes "enum" then .afterEnum else .outside
  | .afterEnum, .word s => if s = bytes "values" then .afterValues else .afterEnum
  | .afterValues, .sym c => if c = 123 then .inside else .afterValues
  | .inside, .sym c => if c = 125 then .outside else .inside
  | m, _ => m

/-- The token a lexeme stands for: values of enumerations are names whatever they are called; elsewhere keywords are keywords and
C keywords are not allowed (`none`). -/
def meaning (m : Mode) : Lexeme → Option Tok
  | .word s =>
    if s = bytes "NULL" then some .null
    else if m = .inside then some (.id s)
    else if s ∈ keywords then some (.kw s)
    else if s ∈ cKeywords then none
    else some (.id s)
  | .sym c => some (.sym c)
  | .arrow => some (.kw [45, 62])
  | .str s => some (.str s)
  | .nat ds => some (.uint (value ds))
  | .neg ds => some (.int (-(value ds : Int)))
  | .dec m ds es => some (.float (Lexeme.text (.dec m ds es)))

/-- The tokens of a text from a place on; `none` if it has a C keyword as name. -/
def placeFrom (m : Mode) (p : Pos) : List (List Piece × Lexeme) → Option (List Token)
  | [] => some []
  | (g, x) :: rest => do
    let q := p.move (gapText g)
    let t ← meaning m x
    let ts ← placeFrom (m.next x) (q.move x.text) rest
    some (⟨t, x.text, q.row, q.col, q.col + x.text.length - 1⟩ :: ts)

/-- The tokens of a text. -/
def place (t : Text) : Option (List Token) := placeFrom .outside ⟨1, 1⟩ t.items

/-- No value of an enumeration is called `enum`, and there is no arrow among the values. -/
def Plain (m : Mode) : List (List Piece × Lexeme) → Prop
  | [] => True
  | (_, x) :: rest => (m = .inside → x ≠ .word (bytes "enum") ∧ x ≠ .arrow) ∧ Plain (m.next x) rest

/-- The lines of a file: what stands between the newlines. -/
def linesOf : CStr → List CStr
  | [] => [[]]
  | c :: cs =>
    match linesOf cs with
    | [] => [[]]
    | l :: ls => if c = 10 then [] :: l :: ls else (c :: l) :: ls

/-- The token stands at its place: its line has its text in its columns (counted from 1). -/
def StandsAt (input : CStr) (t : Token) : Prop :=
  ∃ a b, (linesOf input)[t.line - 1]? = some (a ++ t.text ++ b) ∧ 1 ≤ t.line ∧ t.first = a.length + 1 ∧
    t.last + 1 = t.first + t.text.length ∧ t.text ≠ []

end Verif.Spec.Text
