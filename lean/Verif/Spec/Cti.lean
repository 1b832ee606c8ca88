import Verif.Model.Cti

/-!
# Diagnostics: what the properties C13, C14, C47 and C48 speak about
-/

namespace Verif.Spec.Cti
open Verif Verif.Str Verif.Cti

/-- Blank, tab or newline. -/
def isBlank (c : UInt8) : Bool := c == 32 || c == 9 || c == 10

/-- The non-empty runs of bytes between separators; `cur` is the run read so far. -/
def runsFrom (sep : UInt8 → Bool) (cur : CStr) : CStr → List CStr
  | [] => if cur = [] then [] else [cur]
  | c :: s =>
    if sep c then (if cur = [] then runsFrom sep [] s else cur :: runsFrom sep [] s)
    else runsFrom sep (cur ++ [c]) s

/-- The words of a text. -/
def words (s : CStr) : List CStr := runsFrom isBlank [] s

/-- No line of the text has more than `n` characters. -/
def LinesWithin (n : Nat) (s : CStr) : Prop := ∀ l, l <:+: s → (10 : UInt8) ∉ l → l.length ≤ n

/-- Every word of the text has fewer than `n` characters. -/
def WordsBelow (n : Nat) (s : CStr) : Prop := ∀ w ∈ words s, w.length < n

/-- The header that announces a message of a type, from the documentation of the types. -/
def headerOf : CtiType → CStr
  | .error => "error: ".toUTF8.toList
  | .warn => "warning: ".toUTF8.toList
  | .note => "note: ".toUTF8.toList
  | .state => []

/-- The message can be formatted: it is a C string and its length fits an `int` with room for the terminator. -/
def TextOk (s : CStr) : Prop := NoNul s ∧ s.length + 2 < 2 ^ 31

/-- A location that can be printed: there is a file name, and the columns are below the largest `int`. -/
def InfoOk (i : Info) : Prop :=
  i.filename.isSome ∧ i.first_column < 2 ^ 31 - 1 ∧ i.last_column < 2 ^ 31 - 1

/-- A call that can be printed. -/
def CallOk : Call → Prop
  | .message _ _ obj text => TextOk text ∧ ∀ i, obj = some i → InfoOk i
  | _ => True

/-- The call reports an error. -/
def isError : Call → Bool
  | .message .error _ _ _ => true
  | _ => false

/-- The call reports a warning. -/
def isWarning : Call → Bool
  | .message .warn _ _ _ => true
  | _ => false

/-- The process has to stop at call number `i`: a check after an error, or an unconditional end. -/
def StopsAt (cs : List Call) (i : Nat) : Prop :=
  (cs[i]? = some .abortOnError ∧ ∃ c, c ∈ cs.take i ∧ isError c = true) ∨
  cs[i]? = some .abortCompilation ∨ ∃ r, cs[i]? = some (.abortOutOfMemory r)

/-- The text that ends the output of a compilation that failed. -/
def summary (errors warnings : Nat) : CStr :=
  "\n*** Compilation failed ***\n*** ".toUTF8.toList ++ decNat errors ++ " Error(s), ".toUTF8.toList ++ decNat warnings ++
    " Warning(s)\n\n".toUTF8.toList

/-- The call reports that there is no memory left; this counts as an error. -/
def isOom : Call → Bool
  | .abortOutOfMemory _ => true
  | _ => false

/-- The buffer is not there yet, or is a block of the recorded size. -/
def BufOk (st : St) : Prop :=
  (st.message_buffer = none ∧ st.message_buffer_size = 0) ∨
  ∃ b, st.message_buffer = some b ∧ st.message_buffer_size = b.length ∧ 2 ≤ b.length ∧ b.length < 2 ^ 31

/-- The marker under a line of code that spans the columns `first` to `last`: blanks up to the first column, `^` in it,
`~` in the others. -/
def marker (first last : Nat) : CStr :=
  List.replicate (first - 1) 32 ++ [94] ++ List.replicate (last - first) 126

/-- How a position is written: only the line, line and column, a range in one line, or a range over lines. -/
def position (file : CStr) (i : Info) : CStr :=
  let start := " --> ".toUTF8.toList ++ file ++ ":".toUTF8.toList ++ dec i.first_line
  if i.first_column ≤ 0 then start ++ [10]
  else if i.last_column ≤ 0 ∨ (i.first_column = i.last_column ∧ (i.last_line = 0 ∨ i.last_line = i.first_line)) then
    start ++ ":".toUTF8.toList ++ dec i.first_column ++ [10]
  else if i.last_line = 0 ∨ i.last_line = i.first_line then
    start ++ ".".toUTF8.toList ++ dec i.first_column ++ "-".toUTF8.toList ++ dec i.last_column ++ [10]
  else
    start ++ ".".toUTF8.toList ++ dec i.first_column ++ "-".toUTF8.toList ++ dec i.last_line ++ ".".toUTF8.toList ++
      dec i.last_column ++ [10]

/-- The source line and the marker, if the source line and a column are known. -/
def sourceLine (i : Info) : CStr :=
  match i.line with
  | none => []
  | some l => if i.first_column ≤ 0 then [] else
    " |> ".toUTF8.toList ++ l ++ [10] ++ "    ".toUTF8.toList ++ marker i.first_column.toNat i.last_column.toNat ++ [10]

end Verif.Spec.Cti
