import Verif.Model.GenFiles

/-!
# Model of the command line, `cocogen/commandline.c`

`getopt_long` and `strtoul` are modelled after the GNU C library: operands may stand between options, a long option may be abbreviated while
only one option has a name that starts so, and an argument of an option follows `=` or is the next argument.  Simplifications: the environment
variable `POSIXLY_CORRECT` is not set; messages are represented by what they are about.
-/

namespace Verif.CommandLine
open Verif.Str Verif.GenFiles

/-- `struct option` of `<getopt.h>` (used in `cocogen/commandline.c:73`): `flag` tells whether the pointer is set; it then points to
`global_command_line.verbose`. -/
structure LongOpt where
  name : CStr
  hasArg : Bool
  flag : Bool
  val : Nat
  deriving DecidableEq, Repr

/-- `long_options` (`cocogen/commandline.c:73-90`). -/
def long_options : List LongOpt :=
  [⟨b!"verbose", false, true, 1⟩, ⟨b!"help", false, false, 104⟩, ⟨b!"dot", true, false, 23⟩, ⟨b!"version", false, false, 20⟩,
    ⟨b!"profiling", false, false, 24⟩, ⟨b!"breakpoints", false, false, 25⟩, ⟨b!"consistency-checks", false, false, 26⟩,
    ⟨b!"serialise", false, false, 27⟩, ⟨b!"inspectpoints", false, false, 28⟩, ⟨b!"backend", true, false, 30⟩, ⟨b!"gen-dir", true, false, 31⟩,
    ⟨b!"show-ast", false, false, 32⟩, ⟨b!"breakpoint", true, false, 33⟩, ⟨b!"show-structure", false, false, 34⟩, ⟨b!"debug", false, false, 35⟩,
    ⟨b!"ag-scheduler-max-iter", true, false, 36⟩]

/-- The state of `getopt_long` (`cocogen/commandline.c:97`): the rest of an argument with several short options, the operands that were
passed over, and the arguments that were not looked at. -/
structure Scan where
  nextchar : CStr
  skipped : List CStr
  args : List CStr
  deriving DecidableEq, Repr

/-- What `getopt_long` returns (`cocogen/commandline.c:97`): `-1`, with the operands, which stand at the end of `argv` then; or a number,
`optarg`, and whether the variable of the option was set. -/
inductive Got where
  | done (operands : List CStr)
  | opt (c : Nat) (optarg : Option CStr) (flag : Bool) (next : Scan)
  deriving DecidableEq, Repr

/-- The character `?` (`cocogen/commandline.c:159`). -/
abbrev bad (s : Scan) : Got := .opt 63 none false s

/-- The option with a name, in full or abbreviated (`process_long_option` of the C library, for `cocogen/commandline.c:97`).  Two options never
have the same number and the same pointer, so an abbreviation of two names is ambiguous. -/
def findLong (n : CStr) : Option LongOpt :=
  match long_options.find? (fun o => o.name == n) with
  | some o => some o
  | none =>
    match long_options.filter (fun o => n.isPrefixOf o.name) with
    | [o] => some o
    | _ => none

/-- A long option, after `--` (`process_long_option` of the C library, for `cocogen/commandline.c:97`). -/
def longOption (s : Scan) (text : CStr) : Got :=
  let n := text.takeWhile (fun c => c != 61)
  match findLong n with
  | none => bad s
  | some o =>
    match text.drop n.length with
    | _ :: value =>
      match o.hasArg with
      | true => .opt (if o.flag then 0 else o.val) (some value) o.flag s
      | false => bad s
    | [] =>
      match o.hasArg with
      | false => .opt (if o.flag then 0 else o.val) none o.flag s
      | true =>
        match s.args with
        | [] => bad s
        | a :: rest => .opt (if o.flag then 0 else o.val) (some a) o.flag { s with args := rest }

/-- The options in `"v"` (`cocogen/commandline.c:97`). -/
def shortOption (c : UInt8) (s : Scan) : Got :=
  match c == 118 with
  | true => .opt 118 none false s
  | false => bad s

/-- `getopt_long` at the start of an argument (`cocogen/commandline.c:97`). -/
def nextArg (skipped : List CStr) : List CStr → Got
  | [] => .done skipped
  | a :: rest =>
    match a with
    | 45 :: 45 :: [] => .done (skipped ++ rest)
    | 45 :: 45 :: c :: text => longOption ⟨[], skipped, rest⟩ (c :: text)
    | 45 :: c :: more => shortOption c ⟨more, skipped, rest⟩
    | _ => nextArg (skipped ++ [a]) rest

/-- `getopt_long` (`cocogen/commandline.c:97`). -/
def getopt_long (s : Scan) : Got :=
  match s.nextchar with
  | c :: more => shortOption c { s with nextchar := more }
  | [] => nextArg s.skipped s.args

/-- `isspace` of the C library in the standard locale, for `cocogen/commandline.c:148`. -/
def isSpace (c : UInt8) : Bool := c == 32 || (9 ≤ c && c ≤ 13)

/-- A decimal digit, for `cocogen/commandline.c:148`. -/
def isDigit (c : UInt8) : Bool := 48 ≤ c && c ≤ 57

/-- The value of digits, for `cocogen/commandline.c:148`. -/
def digits (s : CStr) : Nat := s.foldl (fun n c => n * 10 + (c.toNat - 48)) 0

/-- The sign: whether it is a minus, and the rest of the text; for `cocogen/commandline.c:148`. -/
def signOf : CStr → Bool × CStr
  | 45 :: r => (true, r)
  | 43 :: r => (false, r)
  | s => (false, s)

/-- The result for a sign and digits, for `cocogen/commandline.c:148`: the largest number if it does not fit. -/
def convert (neg : Bool) (ds : CStr) : Option Nat :=
  match ds with
  | [] => none
  | _ :: _ => if 2 ^ 64 ≤ digits ds then some (2 ^ 64 - 1) else some (if neg then (2 ^ 64 - digits ds) % 2 ^ 64 else digits ds)

/-- `strtoul` with base 10 (`cocogen/commandline.c:148-149`): `none` if `endptr` is left at the start of the text. -/
def strtoul (s : CStr) : Option Nat :=
  convert (signOf (s.dropWhile isSpace)).1 ((signOf (s.dropWhile isSpace)).2.takeWhile isDigit)

/-- `struct command_line` (`cocogen/commandline.h:7-20`), and what is set in the phase driver (`copra/src/phase_driver.c:32-45`, `266-283`).
`input_file` is set at the end. -/
structure Cl where
  input_file : CStr
  verbose : Nat
  profiling : Bool
  break_inspect_points : Bool
  consistcheck : Bool
  serialise : Bool
  gen_user_files : Bool
  show_ast : Bool
  debug : Bool
  backend : Option CStr
  gen_dir : Option CStr
  ag_scheduler_max_iter : Nat
  verbosity : Nat
  breakpoint : Option CStr
  deriving DecidableEq, Repr

/-- `InitGlobalOptions` (`cocogen/commandline.c:17-30`), with the initial state of the driver (`copra/src/phase_driver.c:32-45`). -/
def InitGlobalOptions : Cl := ⟨[], 0, false, false, false, false, false, false, false, none, none, 1000, 0, none⟩

/-- What is printed before the process ends (`cocogen/commandline.c:33-67`, `141-143`, `150-154`). -/
inductive Said where
  | usage
  | version
  | tree
  | noNumber (text : CStr)
  deriving DecidableEq, Repr

/-- The end of `CLprocessArgs`: it returns, or the process ends with a status (`cocogen/commandline.c:69-176`). -/
inductive Ended (α : Type) where
  | go (a : α)
  | exit (status : Nat) (said : Said)
  deriving DecidableEq, Repr

/-- The `switch` (`cocogen/commandline.c:103-162`). -/
def handle (c : Nat) (optarg : Option CStr) (g : Cl) : Res (Ended Cl) :=
  match c with
  | 20 => .ok (.exit 0 .version)
  | 118 => .ok (.go { g with verbosity := 2, verbose := 1 })
  | 24 => .ok (.go { g with profiling := true })
  | 25 => .ok (.go { g with break_inspect_points := true })
  | 26 => .ok (.go { g with consistcheck := true })
  | 27 => .ok (.go { g with serialise := true })
  | 28 => .ok (.go { g with break_inspect_points := true })
  | 29 => .ok (.go { g with gen_user_files := true })
  | 30 => .ok (.go { g with backend := optarg })
  | 31 => .ok (.go { g with gen_dir := optarg })
  | 32 => .ok (.go { g with show_ast := true })
  | 33 => .ok (.go { g with breakpoint := optarg })
  | 34 => .ok (.exit 0 .tree)
  | 35 => .ok (.go { g with debug := true })
  | 36 =>
    match optarg with
    | none => .ub "strtoul(NULL)"
    | some text =>
      match strtoul text with
      | none => .ok (.exit 1 (.noNumber text))
      | some n => .ok (.go { g with ag_scheduler_max_iter := n })
  | 104 => .ok (.exit 0 .usage)
  | 63 => .ok (.exit 1 .usage)
  | _ => .ok (.go g)

/-- The loop (`cocogen/commandline.c:96-163`); the result also has the operands.  The number bounds the rounds; `CLprocessArgs` gives one
that suffices. -/
def loop : Nat → Scan → Cl → Res (Ended (Cl × List CStr))
  | 0, _, _ => .diverge
  | n + 1, s, g =>
    match getopt_long s with
    | .done operands => .ok (.go (g, operands))
    | .opt c optarg flag s => do
      let r ← handle c optarg (match flag with | true => { g with verbose := 1 } | false => g)
      match r with
      | .exit st said => .ok (.exit st said)
      | .go g => loop n s g

/-- The number of rounds that is given to `loop`: one for each character (`cocogen/commandline.c:96`). -/
def rounds (args : List CStr) : Nat := (args.map List.length).sum + 1

/-- `CLprocessArgs` (`cocogen/commandline.c:69-176`). -/
def CLprocessArgs (argv : List CStr) : Res (Ended Cl) := do
  let r ← loop (rounds (argv.drop 1)) ⟨[], [], argv.drop 1⟩ InitGlobalOptions
  match r with
  | .exit st said => .ok (.exit st said)
  | .go (g, operands) => do
    let d ← FSdirifyString (g.gen_dir.getD b!"ccngen/")
    match operands with
    | [f] => .ok (.go { g with gen_dir := some d, input_file := f })
    | _ =>
      match argv with
      | [] => .ub "strrchr(NULL)"
      | _ :: _ => .ok (.exit 1 .usage)

/-- `struct globals` (`cocogen/globals.h:8-24`), as far as the command line sets it, whether `DBUGoff` is called, and the state of the driver
(`cocogen/main.c:45-66`). -/
structure Globals where
  filename : CStr
  gen_src_dir : CStr
  backend : CStr
  show_ast : Bool
  ag_scheduler_max_iter : Nat
  debug : Bool
  verbosity : Nat
  breakpoint : Option CStr
  deriving DecidableEq, Repr

/-- `main` up to line 66 (`cocogen/main.c:45-66`). -/
def globalsOf (g : Cl) : Globals :=
  ⟨g.input_file, g.gen_dir.getD [], match g.backend with | none => b!"dynamic" | some b => b, g.show_ast, g.ag_scheduler_max_iter, g.debug,
    g.verbosity, g.breakpoint⟩

/-- `main` (`cocogen/main.c:43-80`): the command line, and the generated files of a description that is read from `input_file` and accepted.
`describe` gives the description in the file, with the state after the checks.
`GenFiles.main` adds a `/` to the directory again, which changes nothing. -/
def main (argv : List CStr) (describe : Globals → Parse.Ast × Semantic.Out) (k : Disk) : Res (Ended Disk) := do
  let r ← CLprocessArgs argv
  match r with
  | .exit st said => .ok (.exit st said)
  | .go g => do
    let k ← GenFiles.main (globalsOf g).gen_src_dir (globalsOf g).backend (describe (globalsOf g)).1 (describe (globalsOf g)).2 k
    .ok (.go k)

end Verif.CommandLine
