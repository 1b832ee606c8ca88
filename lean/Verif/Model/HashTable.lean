import Verif.Base

/-!
# Model of `palm/src/hash_table.c`

A `void *` value is modelled as `Option V`: `none` is the NULL pointer.  A bucket chain
(`struct htable_entry` linked by `next`, `hash_table.c:13-17`) is a list of key/value pairs; the chain is owned
by the table only, so in-place updates of an entry are modelled by rebuilding the list.
-/

namespace Verif.HT

/-- `struct htable_entry` without `next` (`palm/src/hash_table.c:13-17`). -/
abbrev Entry (K V : Type) := K × Option V

/-- `struct htable` (`palm/src/hash_table.c:19-25`).  `hash` returns a `size_t`, here any `Nat`;
`elements` is the `size_t` counter (64 bit, wraps around). -/
structure Table (K V : Type) where
  hash : K → Nat
  eq : K → K → Bool
  size : Nat
  buckets : List (List (Entry K V))
  elements : UInt64

/-- `HTnew` (`palm/src/hash_table.c:41-51`): `calloc` gives `size` empty chains. -/
def HTnew {K V : Type} (size : Nat) (hash : K → Nat) (eq : K → K → Bool) : Table K V :=
  { hash, eq, size, buckets := List.replicate size [], elements := 0 }

/-- The bucket computation `table->hash_f(key) % table->size` shared by `Insert`, `HTremove`, `HTlookup`
(`palm/src/hash_table.c:103,142,182`); `% 0` is undefined. -/
def index {K V : Type} (t : Table K V) (k : K) : Res Nat :=
  if t.size = 0 then .ub "modulo zero" else .ok (t.hash k % t.size)

/-- Reading `table->entries[index]` (`palm/src/hash_table.c:105,146,183,289`). -/
def chainAt {K V : Type} (t : Table K V) (i : Nat) : Res (List (Entry K V)) :=
  match t.buckets[i]? with
  | some c => .ok c
  | none => .ub "bucket index out of bounds"

/-- The chain walk of `Insert` (`palm/src/hash_table.c:105-123`).  The Boolean tells whether a new entry was
appended (line 123) rather than a value overwritten (lines 111, 116). -/
def insertChain {K V : Type} (eq : K → K → Bool) (key : K) (value : Option V) :
    List (Entry K V) → List (Entry K V) × Bool
  | [] => ([(key, value)], true)
  | [last] => if eq last.1 key then ([(last.1, value)], false) else ([last, (key, value)], true)
  | last :: next :: rest =>
    if eq last.1 key then ((last.1, value) :: next :: rest, false)
    else
      let r := insertChain eq key value (next :: rest)
      (last :: r.1, r.2)

/-- `HTinsert`/`Insert` (`palm/src/hash_table.c:98-133`); the C function always returns `true`. -/
def HTinsert {K V : Type} (t : Table K V) (key : K) (value : Option V) : Res (Table K V) := do
  let i ← index t key
  let c ← chainAt t i
  let r := insertChain t.eq key value c
  .ok { t with
    buckets := t.buckets.set i r.1
    elements := if r.2 then t.elements + 1 else t.elements }

/-- The `while` loop of `HTremove` (`palm/src/hash_table.c:160-172`) on the part of the chain behind the
first entry: the chain without the first match and the removed value. -/
def removeRest {K V : Type} (eq : K → K → Bool) (key : K) :
    List (Entry K V) → List (Entry K V) × Option (Option V)
  | [] => ([], none)
  | entry :: rest =>
    if eq entry.1 key then (rest, some entry.2)
    else
      let r := removeRest eq key rest
      (entry :: r.1, r.2)

/-- `HTremove` (`palm/src/hash_table.c:140-175`).  On an empty chain `entry` is NULL and line 158 evaluates
`entry->next`.  Result: the table and the returned pointer. -/
def HTremove {K V : Type} (t : Table K V) (key : K) : Res (Table K V × Option V) := do
  let i ← index t key
  let c ← chainAt t i
  match c with
  | [] => .ub "HTremove: NULL->next (hash_table.c:158)"
  | entry :: rest =>
    if t.eq entry.1 key then
      .ok ({ t with buckets := t.buckets.set i rest, elements := t.elements - 1 }, entry.2)
    else
      let r := removeRest t.eq key rest
      match r.2 with
      | some v =>
        .ok ({ t with buckets := t.buckets.set i (entry :: r.1), elements := t.elements - 1 }, v)
      | none => .ok (t, none)

/-- The search loop of `HTlookup` (`palm/src/hash_table.c:184-189`). -/
def lookupChain {K V : Type} (eq : K → K → Bool) (key : K) : List (Entry K V) → Option V
  | [] => none
  | last :: rest => if eq last.1 key then last.2 else lookupChain eq key rest

/-- `HTlookup` (`palm/src/hash_table.c:180-192`). -/
def HTlookup {K V : Type} (t : Table K V) (key : K) : Res (Option V) := do
  let i ← index t key
  let c ← chainAt t i
  .ok (lookupChain t.eq key c)

/-- `HTclear` (`palm/src/hash_table.c:198-209`): every chain is emptied, `elements` is not touched. -/
def HTclear {K V : Type} (t : Table K V) : Table K V :=
  { t with buckets := t.buckets.map (fun _ => []) }

/-- `HTelementCount` (`palm/src/hash_table.c:222-225`). -/
def HTelementCount {K V : Type} (t : Table K V) : UInt64 := t.elements

/-- `HTfold` (`palm/src/hash_table.c:227-236`): the calls `fun(init_acc, value)` in order, with the state behind
`init_acc` made explicit. -/
def HTfold {K V A : Type} (t : Table K V) (f : A → Option V → A) (init : A) : A :=
  t.buckets.foldl (fun acc c => c.foldl (fun acc e => f acc e.2) acc) init

/-- `HTmapWithKey` (`palm/src/hash_table.c:250-259`). -/
def HTmapWithKey {K V : Type} (t : Table K V) (f : K → Option V → Option V) : Table K V :=
  { t with buckets := t.buckets.map (fun c => c.map (fun e => (e.1, f e.1 e.2))) }

/-- `HTmap` (`palm/src/hash_table.c:239-248`). -/
def HTmap {K V : Type} (t : Table K V) (f : Option V → Option V) : Table K V :=
  { t with buckets := t.buckets.map (fun c => c.map (fun e => (e.1, f e.2))) }

/-- `HTmapWithDataAndKey` (`palm/src/hash_table.c:265-274`); the state behind `data` is explicit and is threaded
through the calls. -/
def HTmapWithDataAndKey {K V D : Type} (t : Table K V) (data : D)
    (f : D → K → Option V → D × Option V) : Table K V × D :=
  let goChain : D → List (Entry K V) → List (Entry K V) × D := fun d c =>
    c.foldl (fun (acc, d) e => let r := f d e.1 e.2; (acc ++ [(e.1, r.2)], r.1)) ([], d)
  let r := t.buckets.foldl
    (fun (acc, d) c => let r := goChain d c; (acc ++ [r.1], r.2)) (([] : List (List (Entry K V))), data)
  ({ t with buckets := r.1 }, r.2)

/-- `struct htable_iter` (`palm/src/hash_table.c:27-31`): `elem` is `current_element`, and `current_entry` is the
entry at position `pos` of that chain.  The `table` pointer is passed separately. -/
structure Iter where
  elem : Nat
  pos : Nat
  deriving DecidableEq, Repr

/-- The scan for the next non-empty bucket, lines `288-294` and `309-315` of `palm/src/hash_table.c`, on the
buckets from index `i` on. -/
def scan {K V : Type} (i : Nat) : List (List (Entry K V)) → Option Iter
  | [] => none
  | c :: cs => if c.isEmpty then scan (i + 1) cs else some ⟨i, 0⟩

/-- `HTiterate` (`palm/src/hash_table.c:280-299`); `none` is the NULL iterator.  Scanning past the last bucket
leaves `current_entry` NULL and the `assert` of line 297 fails. -/
def HTiterate {K V : Type} (t : Table K V) : Res (Option Iter) :=
  if t.elements = 0 then .ok none
  else match scan 0 t.buckets with
    | some it => .ok (some it)
    | none => .abort "assert(iterator->current_entry != NULL)"

/-- The entry an iterator points at (`iter->current_entry`, `palm/src/hash_table.c:30`). -/
def entryAt {K V : Type} (t : Table K V) (it : Iter) : Option (Entry K V) :=
  (t.buckets[it.elem]?).bind (·[it.pos]?)

/-- `HTiterateNext` (`palm/src/hash_table.c:302-320`); `none` means the iterator was freed and NULL returned. -/
def HTiterateNext {K V : Type} (t : Table K V) (it : Iter) : Res (Option Iter) :=
  match entryAt t it with
  | none => .ub "iter->current_entry is not a live entry"
  | some _ =>
    match entryAt t ⟨it.elem, it.pos + 1⟩ with
    | some _ => .ok (some ⟨it.elem, it.pos + 1⟩)
    | none => .ok (scan (it.elem + 1) (t.buckets.drop (it.elem + 1)))

/-- `HTiterValue` (`palm/src/hash_table.c:328-331`). -/
def HTiterValue {K V : Type} (t : Table K V) (it : Iter) : Res (Option V) :=
  match entryAt t it with
  | some e => .ok e.2
  | none => .abort "assert(iter->current_entry != NULL)"

/-- `HTiterKey` (`palm/src/hash_table.c:340-343`). -/
def HTiterKey {K V : Type} (t : Table K V) (it : Iter) : Res K :=
  match entryAt t it with
  | some e => .ok e.1
  | none => .abort "assert(iter->current_entry != NULL)"

/-- `HTiterSetValue` (`palm/src/hash_table.c:334-337`). -/
def HTiterSetValue {K V : Type} (t : Table K V) (it : Iter) (v : Option V) : Res (Table K V) :=
  match entryAt t it with
  | some _ => .ok { t with buckets := t.buckets.modify it.elem (fun c => c.modify it.pos (fun e => (e.1, v))) }
  | none => .abort "assert(iter->current_entry != NULL)"

/-- The client loop `for (iter = HTiterate(t); iter; iter = HTiterateNext(iter)) BODY` as used by `HTcpy`
(`palm/src/hash_table.c:58-61`), from a given iterator on.  `BODY` maps a state; it may update the iterated
table.  The fuel bounds the number of steps; running out of it is reported as `abort`. -/
def iterLoop {K V S : Type} (body : Table K V × S → Iter → Res (Table K V × S)) :
    Nat → Table K V × S → Option Iter → Res (Table K V × S)
  | _, s, none => .ok s
  | 0, _, some _ => .abort "iteration did not finish"
  | fuel + 1, s, some it => do
    let s' ← body s it
    let it' ← HTiterateNext s'.1 it
    iterLoop body fuel s' it'

/-- Number of entries in the chains; used only as the fuel of client loops. -/
def chainTotal {K V : Type} (t : Table K V) : Nat := (t.buckets.map List.length).sum

/-- The whole client loop (`palm/src/hash_table.c:58-61`). -/
def forEach {K V S : Type} (t : Table K V) (s : S)
    (body : Table K V × S → Iter → Res (Table K V × S)) : Res (Table K V × S) := do
  let it ← HTiterate t
  iterLoop body (chainTotal t) (t, s) it

/-- Collect the pairs an iteration yields (`HTiterKey`, `HTiterValue`, `palm/src/hash_table.c:328-343`). -/
def collect {K V : Type} (t : Table K V) : Res (List (Entry K V)) := do
  let r ← forEach t ([] : List (Entry K V)) (fun (t, acc) it => do
    let k ← HTiterKey t it
    let v ← HTiterValue t it
    .ok (t, acc ++ [(k, v)]))
  .ok r.2

/-- `HTcpy` (`palm/src/hash_table.c:53-64`). -/
def HTcpy {K V : Type} (t : Table K V) : Res (Table K V) := do
  let r ← forEach t (HTnew (V := V) t.size t.hash t.eq) (fun (t, new) it => do
    let k ← HTiterKey t it
    let v ← HTiterValue t it
    let new' ← HTinsert new k v
    .ok (t, new'))
  .ok r.2

/-- `HTdeep_copy` (`palm/src/hash_table.c:66-79`).  The copy functions are modelled as pure functions on
contents. -/
def HTdeep_copy {K V : Type} (t : Table K V) (fk : K → K) (fv : Option V → Option V) :
    Res (Table K V) := do
  let r ← forEach t (HTnew (V := V) t.size t.hash t.eq) (fun (t, new) it => do
    let k ← HTiterKey t it
    let v ← HTiterValue t it
    let new' ← HTinsert new (fk k) (fv v)
    .ok (t, new'))
  .ok r.2

/-- The client loop that rewrites values through the iterator: `HTiterSetValue(iter, f(key, value))`
(`palm/src/hash_table.c:302-343`). -/
def iterUpdate {K V : Type} (t : Table K V) (f : K → Option V → Option V) : Res (Table K V) := do
  let r ← forEach t () (fun (t, _) it => do
    let k ← HTiterKey t it
    let v ← HTiterValue t it
    let t' ← HTiterSetValue t it (f k v)
    .ok (t', ()))
  .ok r.1

/-- The calls a client can make on one table (`palm/include/palm/hash_table.h`). -/
inductive Op (K V : Type) where
  | insert (k : K) (v : Option V)
  | remove (k : K)
  | clear
  | map (f : Option V → Option V)
  | mapWithKey (f : K → Option V → Option V)
  | iterUpdate (f : K → Option V → Option V)

/-- Run one call (dispatch to the functions of `palm/src/hash_table.c` above). -/
def step {K V : Type} (t : Table K V) : Op K V → Res (Table K V)
  | .insert k v => HTinsert t k v
  | .remove k => do let r ← HTremove t k; .ok r.1
  | .clear => .ok (HTclear t)
  | .map f => .ok (HTmap t f)
  | .mapWithKey f => .ok (HTmapWithKey t f)
  | .iterUpdate f => HT.iterUpdate t f

/-- Run a sequence of calls. -/
def run {K V : Type} (t : Table K V) : List (Op K V) → Res (Table K V)
  | [] => .ok t
  | op :: ops => do
    let t' ← step t op
    run t' ops

/-! ## Ready-made tables -/

/-- A `char` value as the signed `int` that `c = *key++` yields, then converted to `unsigned long` for the
addition in line 360 (x86-64: `char` is signed, `unsigned long` has 64 bits). -/
def charToULong (b : UInt8) : UInt64 :=
  if b < 128 then b.toUInt64 else b.toUInt64 - 256

/-- `StringHash` (`palm/src/hash_table.c:350-363`) on the bytes before the terminator. -/
def StringHash (s : List UInt8) : Nat :=
  (s.foldl (fun (h : UInt64) c => ((h <<< 5) + h) + charToULong c) 5381).toNat

/-- `PtrHash` (`palm/src/hash_table.c:376-381`). -/
def PtrHash (p : UInt64) : Nat := ((p >>> 5) &&& 0x1f).toNat

/-- `PtrEqual` (`palm/src/hash_table.c:384-387`). -/
def PtrEqual (p q : UInt64) : Bool := p == q

/-- `IntHash` (`palm/src/hash_table.c:400-403`): `(size_t)(*val)` sign-extends the 32-bit `int`.  The key is the
pointed-to value. -/
def IntHash (v : Int32) : Nat := v.toInt64.toUInt64.toNat

/-- `IntEqual` (`palm/src/hash_table.c:406-409`) on the pointed-to values. -/
def IntEqual (a b : Int32) : Bool := a == b

/-- `STReq` on two non-NULL strings (`palm/src/str.c:219-232`), the equality of string tables. -/
def StringEqual (a b : List UInt8) : Bool := a == b

/-- `HTnew_String` (`palm/src/hash_table.c:369-372`). -/
def HTnew_String {V : Type} (size : Nat) : Table (List UInt8) V := HTnew size StringHash StringEqual

/-- `HTnew_Ptr` (`palm/src/hash_table.c:393-396`). -/
def HTnew_Ptr {V : Type} (size : Nat) : Table UInt64 V := HTnew size PtrHash PtrEqual

/-- `HTnew_Int` (`palm/src/hash_table.c:411-414`). -/
def HTnew_Int {V : Type} (size : Nat) : Table Int32 V := HTnew size IntHash IntEqual

end Verif.HT
