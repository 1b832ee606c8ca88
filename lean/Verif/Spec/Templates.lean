import Verif.Spec.Declared

/-!
# Specification of the files for the user

A reader for a part of C (ISO/IEC 9899:1999, 5.1.1.2, 6.4, 6.9), and what the files of traversals and of passes are to be.

The reader splices lines, leaves out comments, and splits the text into words; external declarations are directives and definitions of functions.
It does not know character constants, and comments in directives; texts that it does not know, it does not read.  The names that a definition may
have are those that are no words of the language.
-/

namespace Verif.Spec.Templates
open Verif.Str
open Verif.Spec.Str (lowerB upperB SameName)
open Verif.Spec.Targets (Target handler)
open Verif.Spec.Compiled (passFunction)
open Verif.Spec.Declared (userNames)

/-- The bytes of a text. -/
abbrev t (s : String) : CStr := s.toUTF8.toList

/-! ### Words -/

/-- Words of a text; `bad` is what the reader does not know. -/
inductive Tok where
  | id (w : CStr)
  | num (w : CStr)
  | str (w : CStr)
  | sym (c : UInt8)
  | dir (w : CStr)
  | bad
  deriving DecidableEq, Repr

/-- Where the reader is: between words (`true` at the start of a line), in a word, a number or a text, behind `\` in a text, behind `/`, in a
comment to the end of the line, in a comment, behind `*` in one, in a directive. -/
inductive Mode where
  | code (b : Bool)
  | word (w : CStr)
  | num (w : CStr)
  | str (w : CStr)
  | esc (w : CStr)
  | slash (b : Bool)
  | line
  | block (b : Bool)
  | star (b : Bool)
  | dir (w : CStr)
  deriving DecidableEq, Repr

/-- A letter or underscore. -/
def letter (c : UInt8) : Bool := (65 ≤ c && c ≤ 90) || (97 ≤ c && c ≤ 122) || c == 95

/-- A digit. -/
def digit (c : UInt8) : Bool := 48 ≤ c && c ≤ 57

/-- A character of an identifier. -/
def inWord (c : UInt8) : Bool := letter c || digit c

/-- `! % & ( ) * + , - . : ; < = > ? [ ] ^ { | } ~` -/
def symbol (c : UInt8) : Bool :=
  c == 33 || c == 37 || c == 38 || (40 ≤ c && c ≤ 46) || (58 ≤ c && c ≤ 63) || c == 91 || c == 93 || c == 94 || (123 ≤ c && c ≤ 126)

/-- What a character between words means: the words before the rest, and where the rest is. -/
def begins (b : Bool) (c : UInt8) : List Tok × Mode :=
  if letter c then ([], .word [c])
  else if digit c then ([], .num [c])
  else if c == 10 then ([], .code true)
  else if c == 32 || c == 9 || c == 13 then ([], .code b)
  else if c == 35 && b then ([], .dir [])
  else if c == 47 then ([], .slash b)
  else if c == 34 then ([], .str [])
  else if symbol c then ([.sym c], .code false)
  else ([.bad], .code false)

/-- What a character means. -/
def step (m : Mode) (c : UInt8) : List Tok × Mode :=
  match m with
  | .code b => begins b c
  | .word w => if inWord c then ([], .word (w ++ [c])) else (.id w :: (begins false c).1, (begins false c).2)
  | .num w => if inWord c || c == 46 then ([], .num (w ++ [c])) else (.num w :: (begins false c).1, (begins false c).2)
  | .str w => if c == 34 then ([.str w], .code false) else if c == 92 then ([], .esc w) else if c == 10 then ([.bad], .code true)
    else ([], .str (w ++ [c]))
  | .esc w => ([], .str (w ++ [92, c]))
  | .slash b => if c == 47 then ([], .line) else if c == 42 then ([], .block b) else (.sym 47 :: (begins false c).1, (begins false c).2)
  | .line => if c == 10 then ([], .code true) else ([], .line)
  | .block b => if c == 42 then ([], .star b) else ([], .block b)
  | .star b => if c == 47 then ([], .code b) else if c == 42 then ([], .star b) else ([], .block b)
  | .dir w => if c == 10 then ([.dir w], .code true) else ([], .dir (w ++ [c]))

/-- What the end of the text means. -/
def ending : Mode → List Tok
  | .code _ => []
  | .word w => [.id w]
  | .num w => [.num w]
  | .line => []
  | .dir w => [.dir w]
  | _ => [.bad]

/-- The words of a text. -/
def lex : Mode → CStr → List Tok
  | m, [] => ending m
  | m, c :: rest => (step m c).1 ++ lex (step m c).2 rest

/-- Lines that end in `\` go on in the next line. -/
def splice : CStr → CStr
  | [] => []
  | [c] => [c]
  | c :: d :: rest => if c = 92 ∧ d = 10 then splice rest else c :: splice (d :: rest)

/-! ### External declarations -/

/-- The words of the language. -/
def keywords : List CStr :=
  [t "auto", t "break", t "case", t "char", t "const", t "continue", t "default", t "do", t "double", t "else", t "enum", t "extern", t "float",
    t "for", t "goto", t "if", t "inline", t "int", t "long", t "register", t "restrict", t "return", t "short", t "signed", t "sizeof", t "static",
    t "struct", t "switch", t "typedef", t "union", t "unsigned", t "void", t "volatile", t "while", t "_Bool", t "_Complex", t "_Imaginary"]

/-- A function: the words of its type before the name, its name, and the words between the parentheses and the braces. -/
structure Function where
  type : List Tok
  name : CStr
  params : List Tok
  body : List Tok
  deriving DecidableEq, Repr

/-- External declarations. -/
inductive Ext where
  | directive (w : CStr)
  | function (f : Function)
  deriving DecidableEq, Repr

/-- The words before `(`. -/
def head : List Tok → Option (List Tok × List Tok)
  | .sym 40 :: rest => some ([], rest)
  | .id w :: rest => (head rest).map fun p => (.id w :: p.1, p.2)
  | .sym 42 :: rest => (head rest).map fun p => (.sym 42 :: p.1, p.2)
  | _ => none

/-- The type and the name in them. -/
def declarator (l : List Tok) : Option (List Tok × CStr) :=
  match l.dropLast, l.getLast? with
  | ty :: tys, some (.id w) => if keywords.contains w then none else some (ty :: tys, w)
  | _, _ => none

/-- The words before `)`. -/
def params : List Tok → Option (List Tok × List Tok)
  | .sym 41 :: rest => some ([], rest)
  | .sym 40 :: _ => none
  | .bad :: _ => none
  | .dir _ :: _ => none
  | k :: rest => (params rest).map fun p => (k :: p.1, p.2)
  | [] => none

/-- The words before the `}` that fits; `d` is how many braces are open. -/
def body : Nat → List Tok → Option (List Tok × List Tok)
  | 0, .sym 125 :: rest => some ([], rest)
  | d + 1, .sym 125 :: rest => (body d rest).map fun p => (.sym 125 :: p.1, p.2)
  | d, .sym 123 :: rest => (body (d + 1) rest).map fun p => (.sym 123 :: p.1, p.2)
  | _, .bad :: _ => none
  | _, .dir _ :: _ => none
  | d, k :: rest => (body d rest).map fun p => (k :: p.1, p.2)
  | _, [] => none

/-- An external declaration, and what follows it. -/
def external : List Tok → Option (Ext × List Tok)
  | .dir w :: rest => some (.directive w, rest)
  | toks => do
    let (h, rest) ← head toks
    let (type, name) ← declarator h
    let (ps, rest) ← params rest
    match rest with
    | .sym 123 :: rest => do
      let (b, rest) ← body 0 rest
      some (.function ⟨type, name, ps, b⟩, rest)
    | _ => none

/-- The external declarations.  The number bounds how many there are. -/
def unit : Nat → List Tok → Option (List Ext)
  | _, [] => some []
  | 0, _ :: _ => none
  | n + 1, toks => do
    let (x, rest) ← external toks
    let l ← unit n rest
    some (x :: l)

/-- The external declarations of a text. -/
def read (text : CStr) : Option (List Ext) :=
  unit (lex (.code true) (splice text)).length (lex (.code true) (splice text))

/-- The functions among external declarations. -/
def functions (u : List Ext) : List Function := u.filterMap fun x => match x with | .function f => some f | .directive _ => none

/-- The directives. -/
def directives (u : List Ext) : List CStr := u.filterMap fun x => match x with | .directive w => some w | .function _ => none

/-! ### The files -/

/-- `node_st *name(node_st *node) { TRAVchildren(node); return node; }` -/
def stub (name : CStr) : Function :=
  ⟨[.id (t "node_st"), .sym 42], name, [.id (t "node_st"), .sym 42, .id (t "node")],
    [.id (t "TRAVchildren"), .sym 40, .id (t "node"), .sym 41, .sym 59, .id (t "return"), .id (t "node"), .sym 59]⟩

/-- `void name() { return; }` -/
def hook (name : CStr) : Function := ⟨[.id (t "void")], name, [], [.id (t "return"), .sym 59]⟩

/-- `node_st *name(node_st *root) { return root; }` -/
def passStub (name : CStr) : Function :=
  ⟨[.id (t "node_st"), .sym 42], name, [.id (t "node_st"), .sym 42, .id (t "root")], [.id (t "return"), .id (t "root"), .sym 59]⟩

/-- The file of a traversal: a function for each node that it is for, and two for its data, if it has any. -/
structure Template (A : Parse.Ast) (x : Parse.Traversal) (u : List Ext) : Prop where
  directives : directives u = [t "include \"ccn/ccn.h\"", t "include \"ccngen/ast.h\"", t "include \"ccngen/trav.h\""]
  functions : ∀ f, f ∈ functions u ↔ (∃ n ∈ A.nodes, Target x A n ∧ f = stub (handler x n)) ∨
    (x.data ≠ [] ∧ ∃ y ∈ userNames, f = hook (x.uid.orig.map upperB ++ y))
  once : (Templates.functions u).Nodup

/-- The file of the passes: a function for each. -/
structure PassFile (A : Parse.Ast) (u : List Ext) : Prop where
  directives : directives u = [t "include \"ccn/ccn.h\"", t "include \"ccngen/ast.h\""]
  functions : functions u = A.passes.map fun p => passStub (passFunction p)

/-! ### Conditions -/

/-- An identifier, as the scanner reads it (`cocogen/frontend/scanAndParse/dsl-lexer.l:166-170`). -/
def Word (w : CStr) : Prop := (∃ c r, w = c :: r ∧ letter c = true) ∧ ∀ c ∈ w, inWord c = true

/-- The text has these two characters next to each other. -/
def Beside (a b : UInt8) (s : CStr) : Prop := ∃ x y, s = x ++ a :: b :: y

/-- Names are identifiers, those of functions of passes no words of C; both is what the scanner sees to (`dsl-lexer.l:166-170`, `201-228`; C78).
No information on a traversal has the end of a comment, or `\` at the end of a line. -/
structure Legible (A : Parse.Ast) : Prop where
  nodes : ∀ n ∈ A.nodes, Word n.name.orig
  travs : ∀ x ∈ A.traversals, Word x.name.orig
  uids : ∀ x ∈ A.traversals, ∃ c r, x.uid.orig = c :: r ∧ Text.isLetter c = true ∧ ∀ d ∈ x.uid.orig, inWord d = true
  passes : ∀ p ∈ A.passes, Word (passFunction p) ∧ passFunction p ∉ keywords
  lines : ∀ x ∈ A.traversals, ∀ i ∈ x.info, ¬ Beside 92 10 i
  comments : ∀ x ∈ A.traversals, ∀ i ∈ x.info, ¬ Beside 42 47 i

end Verif.Spec.Templates
