import Verif.Model.Str

/-!
# Model of `palm/src/ctinfo.c`

The text a format string and its arguments produce is the input of the model; what `vsnprintf` does with the buffer is
modelled.  Everything written to `stderr` is collected in the state.  `exit` ends the process with a status.
-/

namespace Verif.Cti
open Verif.Str

/-- `enum cti_type` (`palm/include/palm/ctinfo.h:58-64`). -/
inductive CtiType where
  | state | note | warn | error
  deriving DecidableEq, Repr

/-- `struct ctinfo` (`palm/include/palm/ctinfo.h:43-50`). -/
structure Info where
  first_line : Int
  first_column : Int
  last_line : Int
  last_column : Int
  filename : Option CStr
  line : Option CStr
  deriving DecidableEq

/-- The static variables of `palm/src/ctinfo.c:14-26` that change, and the text written to `stderr` so far. -/
structure St where
  message_buffer : Option Buf
  message_buffer_size : Int
  errors : Int
  warnings : Int
  err : CStr
  deriving DecidableEq

/-- The initial values (`palm/src/ctinfo.c:14-26`). -/
def St.init : St := ⟨none, 0, 0, 0, []⟩

/-- `message_line_length` (`palm/src/ctinfo.c:16`). -/
def message_line_length : Int := 116

/-- `error: ` (`palm/src/ctinfo.c:19`). -/
def error_message_header : CStr := [101, 114, 114, 111, 114, 58, 32]

/-- `warning: ` (`palm/src/ctinfo.c:20`). -/
def warn_message_header : CStr := [119, 97, 114, 110, 105, 110, 103, 58, 32]

/-- The empty header (`palm/src/ctinfo.c:21`). -/
def state_message_header : CStr := []

/-- `note: ` (`palm/src/ctinfo.c:22`). -/
def note_message_header : CStr := [110, 111, 116, 101, 58, 32]

/-- `abort: ` (`palm/src/ctinfo.c:18`). -/
def abort_message_header : CStr := [97, 98, 111, 114, 116, 58, 32]

/-- Output to `stderr` (`fprintf`, `fputc`; e.g. `palm/src/ctinfo.c:254`). -/
def St.print (st : St) (s : CStr) : St := { st with err := st.err ++ s }

/-- The text of `%d` and `%u` for a number that is not negative (`palm/src/ctinfo.c:190`). -/
def decNat (n : Nat) : CStr := (Nat.toDigits 10 n).map fun c => UInt8.ofNat c.toNat

/-- The text of `%d` (`palm/src/ctinfo.c:190`). -/
def dec : Int → CStr
  | .ofNat n => decNat n
  | .negSucc n => 45 :: decNat (n + 1)

/-- A value of type `int` that is not negative, e.g. after `index++` (`palm/src/ctinfo.c:73-74`); a larger one is
signed overflow. -/
def intNat (n : Nat) : Res Nat := if n < 2 ^ 31 then .ok n else .ub "signed overflow"

/-- `buffer[i]` (`palm/src/ctinfo.c:50`). -/
def peek (b : Buf) (i : Nat) : Res UInt8 :=
  match b[i]? with
  | none => .ub "read out of bounds"
  | some none => .ub "read of an uninitialised byte"
  | some (some c) => .ok c

/-- A tab becomes a blank (`palm/src/ctinfo.c:51-53`). -/
def untab (b : Buf) (index : Nat) (c : UInt8) : Res Buf := if c = 9 then poke b index 32 else .ok b

/-- The loop of `ProcessMessage` (`palm/src/ctinfo.c:50-75`).  The first argument bounds the number of iterations by
the size of the block: an iteration reads `buffer[index]`, so more are never needed. -/
def processLoop (line_length : Int) : Nat → Buf → (index column last_space : Nat) → Res Buf
  | 0, _, _, _, _ => .diverge
  | n + 1, b, index, column, last_space => do
    let c ← peek b index
    match c == 0 with
    | true => .ok b
    | false => do
      let b ← untab b index c
      let c ← peek b index
      let last_space := if c = 32 then index else last_space
      match c == 10 with
      | true => do
        let b ← poke b index 64
        let index ← intNat (index + 1)
        processLoop line_length n b index 1 last_space
      | false =>
        match (column : Int) == line_length with
        | true => do
          let d ← peek b last_space
          match d == 32 with
          | true => do
            let b ← poke b last_space 64
            let column := index - last_space
            let index ← intNat (index + 1)
            let column ← intNat (column + 1)
            processLoop line_length n b index column last_space
          | false => .ok b
        | false => do
          let index ← intNat (index + 1)
          let column ← intNat (column + 1)
          processLoop line_length n b index column last_space

/-- `ProcessMessage` (`palm/src/ctinfo.c:43-76`). -/
def ProcessMessage (b : Buf) (line_length : Int) : Res Buf := processLoop line_length (b.length + 1) b 0 0 0

/-- `vsnprintf(buffer, size, …)` for the given text (`palm/src/ctinfo.c:96`): at most `size - 1` bytes and a NUL are
written, nothing at all for size 0; the result is the length of the text, or negative if that is not an `int`. -/
def vsnprintf (b : Option Buf) (size : Int) (text : CStr) : Res (Option Buf × Int) :=
  if 2 ^ 31 ≤ text.length then .ok (b, -1)
  else if size = 0 then .ok (b, text.length)
  else
    match b with
    | none => .ub "vsnprintf to NULL"
    | some b => do
      let b ← pokes b 0 (text.take (intToSize size - 1) ++ [0])
      .ok (some b, text.length)

/-- A new buffer of `len + 2` bytes for `message_buffer` (`palm/src/ctinfo.c:107-108`, `120-121`). -/
def newBuffer (len : Int) (st : St) : Res St := do
  let n ← int32 (len + 2)
  let b ← MEMmalloc (intToSize n)
  .ok { st with message_buffer := some b, message_buffer_size := n }

/-- The first part of `Format2Buffer` (`palm/src/ctinfo.c:95-114`), for a build with `DBUG_ASSERT`: the length of the
text. -/
def formatFirst (st : St) (text : CStr) : Res (St × Int) := do
  let r ← vsnprintf st.message_buffer st.message_buffer_size text
  match decide (r.2 < 0) with
  | true =>
    match decide (st.message_buffer_size = 0) with
    | true => do
      let st ← newBuffer 120 { st with message_buffer := r.1 }
      let r ← vsnprintf st.message_buffer st.message_buffer_size text
      match decide (0 ≤ r.2) with
      | true => .ok ({ st with message_buffer := r.1 }, r.2)
      | false => .abort "message buffer corruption"
    | false => .abort "message buffer corruption"
  | false => .ok ({ st with message_buffer := r.1 }, r.2)

/-- The second part of `Format2Buffer` (`palm/src/ctinfo.c:119-127`): the buffer is replaced by a larger one. -/
def formatAgain (len : Int) (st : St) (text : CStr) : Res St := do
  let st ← newBuffer len { st with message_buffer := none }
  let r ← vsnprintf st.message_buffer st.message_buffer_size text
  match decide (r.2 < st.message_buffer_size) with
  | true => .ok { st with message_buffer := r.1 }
  | false => .abort "message buffer corruption"

/-- `Format2Buffer` (`palm/src/ctinfo.c:90-129`), for a build with `DBUG_ASSERT`. -/
def Format2Buffer (st : St) (text : CStr) : Res St := do
  let r ← formatFirst st text
  match decide (r.1.message_buffer_size ≤ r.2) with
  | true => formatAgain r.2 r.1 text
  | false => .ok r.1

/-- The loop that prints blanks (`palm/src/ctinfo.c:170-174`); the first argument is the number of iterations that are
still possible. -/
def blankLoop : Nat → (c first_column : Int) → St → Res (Int × St)
  | 0, c, _, st => .ok (c, st)
  | n + 1, c, first_column, st =>
    match decide (c < first_column) with
    | true => do
      let c ← int32 (c + 1)
      blankLoop n c first_column (st.print [32])
    | false => .ok (c, st)

/-- The loop that prints `~` (`palm/src/ctinfo.c:180-183`). -/
def tildeLoop : Nat → (c last_column : Int) → St → Res St
  | 0, _, _, st => .ok st
  | n + 1, c, last_column, st =>
    match decide (c ≤ last_column) with
    | true => do
      let st := st.print [126]
      let c ← int32 (c + 1)
      tildeLoop n c last_column st
    | false => .ok st

/-- `PrintLocation` (`palm/src/ctinfo.c:164-186`). -/
def PrintLocation (info : Info) (st : St) : Res St :=
  match info.line with
  | none => .ok st
  | some l => do
    let st := st.print ([32, 124, 62, 32] ++ l ++ [10, 32, 32, 32, 32])
    let r ← blankLoop info.first_column.toNat 1 info.first_column st
    let st := r.2.print [94]
    let c ← int32 (r.1 + 1)
    let st ← tildeLoop (info.last_column + 1).toNat c info.last_column st
    .ok (st.print [10])

/-- The name of the file for `%s`, which must not be NULL (`palm/src/ctinfo.c:190`). -/
def fileName (info : Info) : Res CStr :=
  match info.filename with
  | none => .ub "%s of NULL"
  | some f => .ok f

/-- ` --> ` (`palm/src/ctinfo.c:190`). -/
def arrow : CStr := [32, 45, 45, 62, 32]

/-- `PrintLine` (`palm/src/ctinfo.c:188-191`). -/
def PrintLine (info : Info) (st : St) : Res St := do
  let f ← fileName info
  .ok (st.print (arrow ++ f ++ [58] ++ dec info.first_line ++ [10]))

/-- `PrintLineCol` (`palm/src/ctinfo.c:193-197`). -/
def PrintLineCol (info : Info) (st : St) : Res St := do
  let f ← fileName info
  PrintLocation info (st.print (arrow ++ f ++ [58] ++ dec info.first_line ++ [58] ++ dec info.first_column ++ [10]))

/-- `PrintRange` (`palm/src/ctinfo.c:199-207`). -/
def PrintRange (info : Info) (st : St) : Res St := do
  let f ← fileName info
  match info.last_line == 0 || info.first_line == info.last_line with
  | true => PrintLocation info (st.print (arrow ++ f ++ [58] ++ dec info.first_line ++ [46] ++ dec info.first_column ++
      [45] ++ dec info.last_column ++ [10]))
  | false => PrintLocation info (st.print (arrow ++ f ++ [58] ++ dec info.first_line ++ [46] ++ dec info.first_column ++
      [45] ++ dec info.last_line ++ [46] ++ dec info.last_column ++ [10]))

/-- `PrintInfo` (`palm/src/ctinfo.c:209-222`). -/
def PrintInfo (info : Option Info) (st : St) : Res St :=
  match info with
  | none => .ok st
  | some i =>
    match decide (i.first_line > 0) && decide (i.first_column ≤ 0) with
    | true => PrintLine i st
    | false =>
      match decide (i.last_column ≤ 0) || ((decide (i.last_line ≤ 0) || i.first_line == i.last_line) &&
          i.first_column == i.last_column) with
      | true => PrintLineCol i st
      | false =>
        match decide (i.last_column > 0) with
        | true => PrintRange i st
        | false => .ok st

/-- `strtok(s, "@")` (C library, as used in `palm/src/ctinfo.c:251`, `256`): skip separators; the token up to the next
separator, and what is left behind it; none if nothing is left. -/
def strtok (s : CStr) : Option (CStr × CStr) :=
  match s.dropWhile (· == 64) with
  | [] => none
  | c :: cs => some ((c :: cs).takeWhile (· != 64), ((c :: cs).dropWhile (· != 64)).drop 1)

/-- The loop that prints the parts (`palm/src/ctinfo.c:251-257`).  The first argument bounds the number of iterations
by the length of the text. -/
def printLoop : Nat → CStr → (header : CStr) → St → Res St
  | 0, _, _, _ => .diverge
  | n + 1, s, header, st =>
    match strtok s with
    | none => .ok st
    | some (line, rest) => printLoop n rest [] (st.print (header ++ line ++ [10]))

/-- `PrintMessage` (`palm/src/ctinfo.c:242-264`).  `message_line_length - strlen(header)` is computed as `size_t` and
converted to `int`.  The NULs that `strtok` writes into the buffer are left out: the next message overwrites it. -/
def PrintMessage (header text : CStr) (newline : Bool) (info : Option Info) (st : St) : Res St := do
  let st ← Format2Buffer st text
  match st.message_buffer with
  | none => .ub "read of NULL"
  | some b => do
    let b ← ProcessMessage b (sizeToInt (intToSize (message_line_length - header.length)))
    let st := { st with message_buffer := some b }
    let s ← cstr b
    let st ← printLoop (s.length + 1) s header st
    let st ← PrintInfo info st
    match newline with
    | true => .ok (st.print [10])
    | false => .ok st

/-- `HandleCtiCall` (`palm/src/ctinfo.c:468-475`). -/
def HandleCtiCall (type : CtiType) (st : St) : Res St :=
  match type with
  | .error => do
    let n ← int32 (st.errors + 1)
    .ok { st with errors := n }
  | .warn => do
    let n ← int32 (st.warnings + 1)
    .ok { st with warnings := n }
  | _ => .ok st

/-- `GetMessageHeader` (`palm/src/ctinfo.c:477-491`). -/
def GetMessageHeader : CtiType → CStr
  | .warn => warn_message_header
  | .error => error_message_header
  | .note => note_message_header
  | .state => state_message_header

/-- `CTI` and `CTIobj` (`palm/src/ctinfo.c:500-512`, `517-529`). -/
def CTI (type : CtiType) (newline : Bool) (obj : Option Info) (text : CStr) (st : St) : Res St := do
  let st ← HandleCtiCall type st
  PrintMessage (GetMessageHeader type) text newline obj st

/-- The process after a call: it goes on, or has ended with a status. -/
inductive Proc where
  | running (st : St)
  | exited (code : Int) (st : St)
  deriving DecidableEq

/-- `\n*** Compilation failed ***\n` (`palm/src/ctinfo.c:289`). -/
def failedText : CStr := [10, 42, 42, 42, 32, 67, 111, 109, 112, 105, 108, 97, 116, 105, 111, 110, 32, 102, 97, 105,
  108, 101, 100, 32, 42, 42, 42, 10]

/-- `*** %d Error(s), %d Warning(s)\n\n` (`palm/src/ctinfo.c:290-291`). -/
def countText (errors warnings : Int) : CStr :=
  [42, 42, 42, 32] ++ dec errors ++ [32, 69, 114, 114, 111, 114, 40, 115, 41, 44, 32] ++ dec warnings ++
  [32, 87, 97, 114, 110, 105, 110, 103, 40, 115, 41, 10, 10]

/-- `AbortCompilation` (`palm/src/ctinfo.c:287-296`). -/
def AbortCompilation (st : St) : Proc := .exited 1 (st.print (failedText ++ countText st.errors st.warnings))

/-- `CTIabortOnError` (`palm/src/ctinfo.c:393-398`). -/
def CTIabortOnError (st : St) : Proc :=
  match decide (st.errors > 0) with
  | true => AbortCompilation st
  | false => .running st

/-- `CTIabortOutOfMemory` (`palm/src/ctinfo.c:454-466`). -/
def CTIabortOutOfMemory (request : Nat) (st : St) : Res Proc := do
  let st := st.print ([10] ++ abort_message_header ++ [79, 117, 116, 32, 111, 102, 32, 109, 101, 109, 111, 114, 121, 58,
    10] ++ abort_message_header ++ [32] ++ decNat request ++ [32, 98, 121, 116, 101, 115, 32, 114, 101, 113, 117, 101,
    115, 116, 101, 100, 10])
  let n ← int32 (st.errors + 1)
  .ok (AbortCompilation { st with errors := n })

/-- `CTIgetErrors` (`palm/src/ctinfo.c:403-406`). -/
def CTIgetErrors (st : St) : Int := st.errors

/-- `CTIgetWarnings` (`palm/src/ctinfo.c:430-433`). -/
def CTIgetWarnings (st : St) : Int := st.warnings

/-- A call of a function of `palm/include/palm/ctinfo.h:69-137` that changes something.  `message` is `CTI` (without
`obj`) or `CTIobj`. -/
inductive Call where
  | message (type : CtiType) (newline : Bool) (obj : Option Info) (text : CStr)
  | abortOnError
  | abortCompilation
  | abortOutOfMemory (request : Nat)
  deriving DecidableEq

/-- One call (`palm/src/ctinfo.c:393-398`, `298-301`, `454-466`, `500-529`). -/
def step (c : Call) (st : St) : Res Proc :=
  match c with
  | .message type newline obj text => do
    let st ← CTI type newline obj text st
    .ok (.running st)
  | .abortOnError => .ok (CTIabortOnError st)
  | .abortCompilation => .ok (AbortCompilation st)
  | .abortOutOfMemory r => CTIabortOutOfMemory r st

/-- A sequence of calls (`palm/src/ctinfo.c:393-529`): calls after the end of the process are not made. -/
def run : List Call → St → Res Proc
  | [], st => .ok (.running st)
  | c :: cs, st => do
    let p ← step c st
    match p with
    | .running st => run cs st
    | .exited code st => .ok (.exited code st)

end Verif.Cti
