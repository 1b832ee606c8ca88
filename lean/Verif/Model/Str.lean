import Verif.Base

/-!
# Model of `palm/src/str.c`

A C string argument is the list of its bytes before the terminating NUL (`CStr`); `Option CStr` adds the NULL
pointer.  Memory that the functions allocate is a `Buf`: a block of bytes, each possibly not yet initialised.
Writing outside a block, reading uninitialised bytes, signed overflow and NULL dereferences are `ub`.
-/

namespace Verif.Str

/-- Bytes of a C string before its terminator. -/
abbrev CStr := List UInt8

/-- The list really is the contents of a C string: no NUL byte inside. -/
def NoNul (s : CStr) : Prop := ∀ b ∈ s, b ≠ 0

/-- Only 7-bit characters. -/
def Ascii (s : CStr) : Prop := ∀ b ∈ s, b < 128

/-- A block returned by `malloc`: `none` marks uninitialised bytes. -/
abbrev Buf := List (Option UInt8)

/-- `MEMmalloc(size)` (`palm/src/memory.c:16-38`) for a positive size; a request of at least 2^63 bytes always fails
and aborts (`CTIabortOutOfMemory`).  Size 0 yields NULL, which every use below would dereference. -/
def MEMmalloc (size : Nat) : Res Buf :=
  if size = 0 then .ub "use of the NULL result of MEMmalloc(0)"
  else if size ≥ 2 ^ 63 then .abort "out of memory"
  else .ok (List.replicate size none)

/-- `buf[i] = c`. -/
def poke (b : Buf) (i : Nat) (c : UInt8) : Res Buf :=
  if i < b.length then .ok (b.set i (some c)) else .ub "write out of bounds"

/-- Store consecutive bytes from offset `i` on (`memcpy`, `strncpy` with a long enough source). -/
def pokes (b : Buf) (i : Nat) : List UInt8 → Res Buf
  | [] => .ok b
  | c :: cs => do
    let b' ← poke b i c
    pokes b' (i + 1) cs

/-- The C string a block holds: bytes up to the first NUL (`strlen`/`strcpy` reading from it). -/
def cstr : Buf → Res CStr
  | [] => .ub "read past the end of the block"
  | none :: _ => .ub "read of an uninitialised byte"
  | some c :: rest => if c = 0 then .ok [] else do
    let s ← cstr rest
    .ok (c :: s)

/-- `strcpy(dst, src)`. -/
def strcpy (dst : Buf) (src : CStr) : Res Buf := pokes dst 0 (src ++ [0])

/-- `strcat(dst, src)`. -/
def strcat (dst : Buf) (src : CStr) : Res Buf := do
  let d ← cstr dst
  pokes dst d.length (src ++ [0])

/-- The value of a signed 32-bit expression; overflow is undefined. -/
@[irreducible] def int32 (x : Int) : Res Int :=
  if -(2 ^ 31) ≤ x ∧ x < 2 ^ 31 then .ok x else .ub "signed overflow"

/-- Conversion of a `size_t` to `int` (wraps on the supported platforms). -/
@[irreducible] def sizeToInt (n : Nat) : Int := Int.bmod n (2 ^ 32)

/-- Conversion of an `int` to `size_t`. -/
@[irreducible] def intToSize (x : Int) : Nat := (x % 2 ^ 64).toNat

/-- `STRlen` (`palm/src/str.c:393-404`). -/
def STRlen : Option CStr → Nat
  | none => 0
  | some s => s.length

/-- `STRcpy` (`palm/src/str.c:22-34`): the fresh block, or NULL. -/
def STRcpy : Option CStr → Res (Option Buf)
  | none => .ok none
  | some s => do
    let b ← MEMmalloc (s.length + 1)
    let b ← strcpy b s
    .ok (some b)

/-- `STRncpy` (`palm/src/str.c:48-69`).  `strncpy(ret, source, max)` with `max ≤ STRlen(source)` copies `max`
bytes. -/
def STRncpy (source : Option CStr) (maxlen : Int) : Res (Option Buf) :=
  match source with
  | none => .ok none
  | some s => do
    let max := if sizeToInt s.length > maxlen then maxlen else sizeToInt s.length
    let n ← int32 (max + 1)
    let b ← MEMmalloc (intToSize n)
    if max < 0 then .ub "strncpy with a negative length" else
    let b ← pokes b 0 (s.take max.toNat)
    let b ← poke b max.toNat 0
    .ok (some b)

/-- `STRnull` (`palm/src/str.c:113-121`). -/
def STRnull : Res Buf := do
  let b ← MEMmalloc 1
  poke b 0 0

/-- `STRsubStr` (`palm/src/str.c:79-104`). -/
def STRsubStr (string : Option CStr) (start len : Int) : Res Buf := do
  let strlen := sizeToInt (STRlen string)
  let len ← (if len < 0 then int32 (strlen + len) else .ok len)
  let sum ← int32 (start + len)
  let len ← (if sum > strlen then int32 (strlen - start) else .ok len)
  if start > strlen then STRnull
  else
    let n ← int32 (len + 1)
    let b ← MEMmalloc (intToSize n)
    match string with
    | none => .ub "memcpy from NULL"
    | some s =>
      if start < 0 then .ub "pointer before the string"
      else if len < 0 then .ub "memcpy with a huge length"
      else do
        let b ← pokes b 0 ((s.drop start.toNat).take len.toNat)
        poke b len.toNat 0

/-- `STRcat` (`palm/src/str.c:134-150`). -/
def STRcat (first second : Option CStr) : Res (Option Buf) :=
  match first, second with
  | none, second => STRcpy second
  | first, none => STRcpy first
  | some a, some b => do
    let r ← MEMmalloc (a.length + b.length + 1)
    let r ← strcpy r a
    let r ← strcat r b
    .ok (some r)

/-- The first loop of `STRcatn` (`palm/src/str.c:175-182`): `length += STRlen(ptr)` in `int` arithmetic (the sum is
computed as `size_t` and converted). -/
def catnLength (length : Int) : List (Option CStr) → Int
  | [] => length
  | none :: ps => catnLength length ps
  | some s :: ps => catnLength (sizeToInt (intToSize (length + s.length))) ps

/-- The second loop of `STRcatn` (`palm/src/str.c:194-199`). -/
def catnLoop (r : Buf) : List (Option CStr) → Res Buf
  | [] => .ok r
  | none :: ps => catnLoop r ps
  | some s :: ps => do
    let r ← strcat r s
    catnLoop r ps

/-- `STRcatn` (`palm/src/str.c:163-205`).  The variadic arguments are a list whose length is `n`; the
`DBUG_ASSERTF` of line 171 does nothing in a release build (`palm/include/palm/dbug.h`) and is not modelled. -/
def STRcatn (args : List (Option CStr)) : Res (Option Buf) := do
  let length := catnLength 0 args
  if length = 0 then .ok none
  else
    let n ← int32 (length + 1)
    let r ← MEMmalloc (intToSize n)
    let r ← poke r 0 0
    let r ← catnLoop r args
    .ok (some r)

/-- `strcmp(a, b) == 0`. -/
def strcmpEq (a b : CStr) : Bool := a == b

/-- `strncmp(a, b, n) == 0`: compare bytes until a difference, a NUL in both, or `n` bytes. -/
def strncmpEq : CStr → CStr → Nat → Bool
  | _, _, 0 => true
  | [], [], _ => true
  | [], _ :: _, _ => false
  | _ :: _, [], _ => false
  | a :: as, b :: bs, n + 1 => a == b && strncmpEq as bs n

/-- `STReq` (`palm/src/str.c:219-232`). -/
def STReq : Option CStr → Option CStr → Bool
  | none, none => true
  | none, some _ => false
  | some _, none => false
  | some a, some b => strcmpEq a b

/-- `tolower` in the C locale.  `char` is signed, so a byte above 127 reaches it as a negative `int`, which is
undefined (`palm/src/str.c:258,605,641`). -/
def ctolower (c : UInt8) : Res UInt8 :=
  if c ≥ 128 then .ub "tolower of a negative char"
  else if 65 ≤ c ∧ c ≤ 90 then .ok (c + 32) else .ok c

/-- `toupper` in the C locale (`palm/src/str.c:621,665`). -/
def ctoupper (c : UInt8) : Res UInt8 :=
  if c ≥ 128 then .ub "toupper of a negative char"
  else if 97 ≤ c ∧ c ≤ 122 then .ok (c - 32) else .ok c

/-- The loop and final test of `STReqci` (`palm/src/str.c:256-265`). -/
def eqciLoop : CStr → CStr → Res Bool
  | [], [] => .ok true
  | [], _ :: _ => .ok false
  | _ :: _, [] => .ok false
  | a :: as, b :: bs => do
    let la ← ctolower a
    let lb ← ctolower b
    if la = lb then eqciLoop as bs else .ok false

/-- `STReqci` (`palm/src/str.c:246-269`). -/
def STReqci : Option CStr → Option CStr → Res Bool
  | none, none => .ok true
  | none, some _ => .ok false
  | some _, none => .ok false
  | some a, some b => eqciLoop a b

/-- `STReqn` (`palm/src/str.c:282-299`); `n` is converted to `size_t` for `strncmp`. -/
def STReqn (first second : Option CStr) (n : Int) : Bool :=
  match first, second with
  | none, none => true
  | none, some _ => n == 0
  | some _, none => n == 0
  | some a, some b => strncmpEq a b (intToSize n)

/-- `STRprefix` (`palm/src/str.c:313-334`); `plen` is an `int` and is converted back to `size_t` in the
comparison. -/
def STRprefix (prefix_ str : Option CStr) : Bool :=
  match prefix_ with
  | none => true
  | some p =>
    match str with
    | none => false
    | some s =>
      if s.length < intToSize (sizeToInt p.length) then false
      else strncmpEq p s p.length

/-- `STRsuffix` (`palm/src/str.c:343-355`). -/
def STRsuffix (suffix str : Option CStr) : Res Bool :=
  if STRlen suffix > STRlen str then .ok false
  else
    match suffix, str with
    | some x, some s => .ok (strcmpEq (s.drop (s.length - x.length)) x)
    | _, _ => .ub "strcmp of NULL"

/-- `strstr(str, sub)`: the suffix of `str` at the first occurrence of `sub`. -/
def strstr (sub : CStr) : CStr → Option CStr
  | [] => if sub.isPrefixOf [] then some [] else none
  | c :: cs => if sub.isPrefixOf (c :: cs) then some (c :: cs) else strstr sub cs

/-- `STRsub` (`palm/src/str.c:367-382`). -/
def STRsub (sub str : Option CStr) : Bool :=
  match sub with
  | none => true
  | some x =>
    match str with
    | none => false
    | some s => (strstr x s).isSome

/-- `CharInString` (`palm/src/str.c:407-423`). -/
def CharInString (c : UInt8) : Option CStr → Bool
  | none => false
  | some s => if c = 0 then false else s.contains c

/-- The static variables of `STRtok` (`palm/src/str.c:442-443`): `current` as the rest of the private copy that has
not been split off yet.  `keep_string` only matters for freeing. -/
abbrev TokState := Option CStr

/-- The scan of `STRtok` (`palm/src/str.c:458-470`): the token before the first separator and, if there was one, the
rest behind it. -/
def tokScan (sep : Option CStr) : CStr → CStr × Option CStr
  | [] => ([], none)
  | c :: cs =>
    if CharInString c sep then ([], some cs)
    else
      let r := tokScan sep cs
      (c :: r.1, r.2)

/-- `STRtok` (`palm/src/str.c:440-474`) as a state transformer; the returned token is the contents of the fresh
copy. -/
def STRtok (st : TokState) (first sep : Option CStr) : TokState × Option CStr :=
  let current := match first with
    | some s => some s
    | none => st
  match current with
  | none => (none, none)
  | some cur =>
    let r := tokScan sep cur
    (r.2, some r.1)

/-- A client calling `STRtok(NULL, sep)` (`palm/src/str.c:440-474`) until it returns NULL: the tokens it gets. -/
inductive Drains (sep : Option CStr) : TokState → List CStr → Prop where
  | stop {st st'} : STRtok st none sep = (st', none) → Drains sep st []
  | next {st st' tk ts} : STRtok st none sep = (st', some tk) → Drains sep st' ts → Drains sep st (tk :: ts)

/-- The counting loop of `STRsubstToken` (`palm/src/str.c:571-574`): `n` bounds the iterations; an empty token finds
itself again and again. -/
def occLoop (token : CStr) : Nat → Option CStr → Nat → Res Nat
  | _, none, occ => .ok occ
  | 0, some _, _ => .diverge
  | n + 1, some found, occ => occLoop token n (strstr token (found.drop token.length)) (occ + 1)

/-- The writing loop of `STRsubstToken` (`palm/src/str.c:580-588`): `pos` is the offset in the result. -/
def substLoop (token subst : CStr) : Nat → CStr → Buf → Nat → Res (Buf × Nat)
  | _, [], b, pos => .ok (b, pos)
  | 0, _ :: _, _, _ => .diverge
  | n + 1, c :: cs, b, pos =>
    if STRprefix (some token) (some (c :: cs)) then do
      let b' ← pokes b pos subst
      substLoop token subst n ((c :: cs).drop token.length) b' (pos + subst.length)
    else do
      let b' ← poke b pos c
      substLoop token subst n cs b' (pos + 1)

/-- `STRsubstToken` (`palm/src/str.c:558-592`).  `occurrences * (STRlen(subst) - tlen)` is `size_t` arithmetic.
`occurrences`, `tlen` and `slen` are ints; strings are assumed shorter than 2^31 (precondition of the theorems).  The
bound on the loops is never reached for a non-empty token. -/
def STRsubstToken (str token subst : Option CStr) : Res Buf :=
  match str, token with
  | none, _ => .ub "strstr of NULL"
  | _, none => .ub "strstr of NULL"
  | some s, some t => do
    let occ ← occLoop t (s.length + 1) (strstr t s) 0
    let size := intToSize ((s.length : Int) + occ * ((STRlen subst : Int) - t.length) + 1)
    let b ← MEMmalloc size
    match subst with
    | none => if occ > 0 then .ub "strncpy from NULL" else do
      let r ← substLoop t [] (s.length + 1) s b 0
      poke r.1 r.2 0
    | some sub => do
      let r ← substLoop t sub (s.length + 1) s b 0
      poke r.1 r.2 0

/-- `tolower` over a string, stopping at undefined behaviour. -/
def mapRes (f : UInt8 → Res UInt8) : CStr → Res CStr
  | [] => .ok []
  | c :: cs => do
    let d ← f c
    let ds ← mapRes f cs
    .ok (d :: ds)

/-- `STRtoLower` (`palm/src/str.c:598-608`), in place: the new contents. -/
def STRtoLower : Option CStr → Res (Option CStr)
  | none => .ok none
  | some s => do let r ← mapRes ctolower s; .ok (some r)

/-- `STRtoUpper` (`palm/src/str.c:614-624`), in place: the new contents. -/
def STRtoUpper : Option CStr → Res (Option CStr)
  | none => .ok none
  | some s => do let r ← mapRes ctoupper s; .ok (some r)

/-- The copying loop of `STRlower`/`STRupper` (`palm/src/str.c:640-645,664-669`). -/
def convLoop (f : UInt8 → Res UInt8) : CStr → Buf → Nat → Res Buf
  | [], b, pos => poke b pos 0
  | c :: cs, b, pos => do
    let d ← f c
    let b' ← poke b pos d
    convLoop f cs b' (pos + 1)

/-- `STRlower` (`palm/src/str.c:631-648`). -/
def STRlower : Option CStr → Res (Option Buf)
  | none => .ok none
  | some s => do
    let b ← MEMmalloc (s.length + 1)
    let b ← convLoop ctolower s b 0
    .ok (some b)

/-- `STRupper` (`palm/src/str.c:655-672`). -/
def STRupper : Option CStr → Res (Option Buf)
  | none => .ok none
  | some s => do
    let b ← MEMmalloc (s.length + 1)
    let b ← convLoop ctoupper s b 0
    .ok (some b)

end Verif.Str
