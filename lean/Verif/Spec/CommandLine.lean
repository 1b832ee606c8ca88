import Verif.Base

/-!
# What a command line says

Options in the way of GNU programs.  Nothing here refers to the model of the code.
-/

namespace Verif.Spec.CommandLine

/-- A text; the bytes of a string. -/
abbrev Text := List UInt8

/-- The bytes of a string. -/
def t (s : String) : Text := s.toUTF8.toList

/-- Options without a value. -/
inductive Flag where
  | verbose | profiling | breakpoints | consistencyChecks | serialise | inspectpoints | showAst | debug
  | help | version | showStructure
  deriving DecidableEq, Repr

/-- Options with a value. -/
inductive Value where
  | dot | backend | genDir | breakpoint | maxIter
  deriving DecidableEq, Repr

/-- An option. -/
inductive Opt where
  | flag (f : Flag)
  | value (v : Value) (text : Text)
  /-- `-v` -/
  | short
  deriving DecidableEq, Repr

/-- The names of options without a value (`cocogen/commandline.c:40-62`, `73-90`). -/
def flagName : Flag → Text
  | .verbose => t "verbose"
  | .profiling => t "profiling"
  | .breakpoints => t "breakpoints"
  | .consistencyChecks => t "consistency-checks"
  | .serialise => t "serialise"
  | .inspectpoints => t "inspectpoints"
  | .showAst => t "show-ast"
  | .debug => t "debug"
  | .help => t "help"
  | .version => t "version"
  | .showStructure => t "show-structure"

/-- The names of options with a value (`cocogen/commandline.c:48-62`, `73-90`). -/
def valueName : Value → Text
  | .dot => t "dot"
  | .backend => t "backend"
  | .genDir => t "gen-dir"
  | .breakpoint => t "breakpoint"
  | .maxIter => t "ag-scheduler-max-iter"

/-- The names of all options. -/
inductive IsName : Text → Prop
  | flag (f : Flag) : IsName (flagName f)
  | value (v : Value) : IsName (valueName v)

/-- `n` stands for the option `name`: it is that name, or the start of that name and of no other. -/
def Abbrev (n name : Text) : Prop := n = name ∨ (n <+: name ∧ ∀ m, IsName m → n <+: m → m = name)

/-- An operand does not start with `-`, unless it is just that. -/
def Operand (a : Text) : Prop := a = t "-" ∨ a.head? ≠ some 45

/-- The arguments `args` start with options and operands, and `rest` comes after these. -/
inductive Begins : List Text → List Opt → List Text → List Text → Prop
  | none (rest : List Text) : Begins rest [] [] rest
  | operand {a args os ops rest} : Operand a → Begins args os ops rest → Begins (a :: args) os (a :: ops) rest
  | flag {n f args os ops rest} : Abbrev n (flagName f) → Begins args os ops rest → Begins ((t "--" ++ n) :: args) (.flag f :: os) ops rest
  | joined {n v x args os ops rest} : Abbrev n (valueName v) → Begins args os ops rest →
      Begins ((t "--" ++ n ++ t "=" ++ x) :: args) (.value v x :: os) ops rest
  | apart {n v x args os ops rest} : Abbrev n (valueName v) → Begins args os ops rest →
      Begins ((t "--" ++ n) :: x :: args) (.value v x :: os) ops rest
  | short {k args os ops rest} : Begins args os ops rest →
      Begins ((t "-" ++ List.replicate (k + 1) 118) :: args) (List.replicate (k + 1) .short ++ os) ops rest

/-- The arguments are options and operands; everything behind `--` is an operand. -/
def Says (args : List Text) (os : List Opt) (ops : List Text) : Prop :=
  Begins args os ops [] ∨ ∃ a b, Begins args os a (t "--" :: b) ∧ ops = a ++ b

/-! ## What the options mean -/

/-- The settings of a run. -/
structure Settings where
  backend : Text
  genDir : Text
  showAst : Bool
  debug : Bool
  maxIter : Nat
  /-- Messages of the phase driver. -/
  messages : Bool
  breakpoint : Option Text
  deriving DecidableEq, Repr

/-- The settings without options. -/
def usual : Settings := ⟨t "dynamic", t "ccngen/", false, false, 1000, false, none⟩

/-- A decimal digit. -/
def digit (c : UInt8) : Bool := decide (48 ≤ c.toNat ∧ c.toNat ≤ 57)

/-- The number that digits denote. -/
def number : Text → Nat → Nat
  | [], n => n
  | c :: r, n => number r (10 * n + (c.toNat - 48))

/-- `x` is a decimal number that fits in 64 bits. -/
def Decimal (x : Text) (n : Nat) : Prop := x ≠ [] ∧ (∀ c ∈ x, digit c = true) ∧ n = number x 0 ∧ n < 2 ^ 64

/-- White space. -/
def blankB (c : UInt8) : Bool := c == 32 || c == 9 || c == 10 || c == 11 || c == 12 || c == 13

/-- The text starts with a number, maybe with blanks and a sign before it. -/
def Starts (x : Text) : Prop := ∃ b sign d r, x = b ++ sign ++ d :: r ∧ (∀ c ∈ b, blankB c = true) ∧ (sign = [] ∨ sign = t "+" ∨ sign = t "-") ∧
  digit d = true

/-- The option does not end the program. -/
def Goes (o : Opt) : Prop := (∀ f ∈ [Flag.help, .version, .showStructure], o ≠ .flag f) ∧ ∀ x, o = .value .maxIter x → Starts x

/-- What an option changes, as the program itself describes it (`--help`); `dot` and the last flags are not described.  Options that end the run are not among these. -/
inductive Change : Opt → Settings → Settings → Prop
  | backend (x s) : Change (.value .backend x) s { s with backend := x }
  | genDir (x s) : Change (.value .genDir x) s { s with genDir := x }
  | breakpoint (x s) : Change (.value .breakpoint x) s { s with breakpoint := some x }
  | maxIter (x n s) : Decimal x n → Change (.value .maxIter x) s { s with maxIter := n }
  | dot (x s) : Change (.value .dot x) s s
  | showAst (s) : Change (.flag .showAst) s { s with showAst := true }
  | debug (s) : Change (.flag .debug) s { s with debug := true }
  | short (s) : Change .short s { s with messages := true }
  | verbose (s) : Change (.flag .verbose) s { s with messages := true }
  /-- The tree is checked in any case. -/
  | consistencyChecks (s) : Change (.flag .consistencyChecks) s s
  | nothing (f s) : f ∈ [Flag.profiling, .breakpoints, .serialise, .inspectpoints] → Change (.flag f) s s

/-- One option after the other. -/
inductive Changes : List Opt → Settings → Settings → Prop
  | nil (s) : Changes [] s s
  | cons {o os s s' s''} : Change o s s' → Changes os s' s'' → Changes (o :: os) s s''

/-- The directory ends in `/`. -/
def Slashed (g d : Text) : Prop := g ≠ [] ∧ ((g.getLast? = some 47 ∧ d = g) ∨ (g.getLast? ≠ some 47 ∧ d = g ++ t "/"))

end Verif.Spec.CommandLine
