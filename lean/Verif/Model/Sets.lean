import Verif.Model.Ids

/-!
# Model of identifier sets (`cocogen/sets/*.c`)

A set is a search tree of `setliteral` nodes (`cocogen/main.ccn:810-816`).  `Tree.null` is the NULL pointer.  Every
node carries the addresses of its own block and of the block of its `id`, so that a theorem can tell an updated node
from a fresh copy.  The heap `h` is the next unused address; `malloc` never returns a block twice in the model.
-/

namespace Verif.Sets
open Verif.Str Verif.Ids

/-- A pointer to a `setliteral` node (`cocogen/main.ccn:810-816`): own address, address of the `id`, the `id`, and the
children `left` and `right`. -/
inductive Tree where
  | null
  | node (addr idAddr : Nat) (ref : Id) (left right : Tree)
  deriving DecidableEq, Repr

/-- The pointer is NULL. -/
def Tree.isNull : Tree → Bool
  | .null => true
  | .node .. => false

/-- `ASTsetliteral(id)` (`cocogen/ccngen/ast.c:189-200`) for an `id` at the given address. -/
def ASTsetliteral (h : Nat) (idAddr : Nat) (id : Id) : Tree × Nat := (.node h idAddr id .null .null, h + 1)

/-- `TRAVstart(id, TRAV_cpy)` on an `id` (`cocogen/ccngen/ccn_copy.c:28-39`): a block with equal contents. -/
def copyId (h : Nat) (id : Id) : Nat × Id × Nat := (h, id, h + 1)

/-- `SLIsetliteral` with `NewLiteral` (`cocogen/sets/literal_insert.c:14-47`) for the copied id `value` at `idAddr`.
The result is the node with its updated children, `data->inserted`, and the heap.  `TRAVleft`/`TRAVright` store the
result of the traversal in the child (`cocogen/ccngen/trav.c:463-476,587-600`). -/
def SLIsetliteral (idAddr : Nat) (value : Id) (h : Nat) : Tree → Res (Tree × Bool × Nat)
  | .null => .ub "traversal of NULL"
  | .node a ia ref l r =>
    match strcmp value.lwr ref.lwr with
    | .eq => .ok (.node a ia ref l r, false, h)
    | .lt =>
      match l.isNull with
      | true =>
        let (n, h) := ASTsetliteral h idAddr value
        .ok (.node a ia ref n r, true, h)
      | false => do
        let (l, ins, h) ← SLIsetliteral idAddr value h l
        .ok (.node a ia ref l r, ins, h)
    | .gt =>
      match r.isNull with
      | true =>
        let (n, h) := ASTsetliteral h idAddr value
        .ok (.node a ia ref l n, true, h)
      | false => do
        let (r, ins, h) ← SLIsetliteral idAddr value h r
        .ok (.node a ia ref l r, ins, h)

/-- `SETIDinsert`/`DoInsert` (`cocogen/sets/set.c:12-40`).  The copy of the id is freed when it was not inserted; the
model does not reuse its address. -/
def SETIDinsert (h : Nat) (literal : Tree) (id : Id) : Res (Tree × Nat) :=
  match literal with
  | .null =>
    let (ia, i, h) := copyId h id
    .ok (ASTsetliteral h ia i)
  | .node a ia ref l r => do
    let (va, v, h) := copyId h id
    let (t, _, h) ← SLIsetliteral va v h (.node a ia ref l r)
    .ok (t, h)

/-- `SLCsetliteral` (`cocogen/sets/literal_lookup.c:11-26`): the (unchanged) node and `data->contains`.  On NULL
children `TRAVleft`/`TRAVright` do nothing. -/
def SLCsetliteral (lookup : Id) : Tree → Tree × Bool
  | .null => (.null, false)
  | .node a ia ref l r =>
    match strcmp lookup.lwr ref.lwr with
    | .eq => (.node a ia ref l r, true)
    | .lt => let (l, c) := SLCsetliteral lookup l; (.node a ia ref l r, c)
    | .gt => let (r, c) := SLCsetliteral lookup r; (.node a ia ref l r, c)

/-- `SETIDcontains` (`cocogen/sets/set.c:47-66`): the set after the call and the answer. -/
def SETIDcontains (literal : Tree) (id : Id) : Tree × Bool :=
  match literal with
  | .null => (.null, false)
  | .node a ia ref l r => SLCsetliteral id (.node a ia ref l r)

/-- `SLUsetliteral` (`cocogen/sets/literal_union.c:9-16`) and `TRAVchildren`: the node with its updated children,
`data->dst`, and the heap. -/
def SLUsetliteral (dst : Tree) (h : Nat) : Tree → Res (Tree × Tree × Nat)
  | .null => .ok (.null, dst, h)
  | .node a ia ref l r => do
    let (dst, h) ← SETIDinsert h dst ref
    let (l, dst, h) ← SLUsetliteral dst h l
    let (r, dst, h) ← SLUsetliteral dst h r
    .ok (.node a ia ref l r, dst, h)

/-- What a binary set operation leaves: its operands and the new set. -/
structure SetResult where
  left : Tree
  right : Tree
  new : Tree
  heap : Nat

/-- `SETIDunion` (`cocogen/sets/set.c:104-116`). -/
def SETIDunion (h : Nat) (set1 set2 : Tree) : Res SetResult := do
  let (s1, dst, h) ← SLUsetliteral .null h set1
  let (s2, dst, h) ← SLUsetliteral dst h set2
  .ok ⟨s1, s2, dst, h⟩

/-- The conditional insertion of `SLISsetliteral` (`cocogen/sets/literal_intersect.c:12-14`) and, with `want = false`,
of `SLDsetliteral` (`cocogen/sets/literal_difference.c:11-13`): `other` after the lookup, `data->new`, and the heap. -/
def insertIf (want : Bool) (other new : Tree) (h : Nat) (ref : Id) : Res (Tree × Tree × Nat) := do
  let (other, c) := SETIDcontains other ref
  if c = want then do
    let (new, h) ← SETIDinsert h new ref
    .ok (other, new, h)
  else .ok (other, new, h)

/-- `SLISsetliteral` (`cocogen/sets/literal_intersect.c:9-18`) for `want = true`, `SLDsetliteral`
(`cocogen/sets/literal_difference.c:8-16`) for `want = false`: the node with its updated children, the other operand,
`data->new`, and the heap. -/
def SLFsetliteral (want : Bool) (other new : Tree) (h : Nat) : Tree → Res (Tree × Tree × Tree × Nat)
  | .null => .ok (.null, other, new, h)
  | .node a ia ref l r => do
    let (other, new, h) ← insertIf want other new h ref
    let (l, other, new, h) ← SLFsetliteral want other new h l
    let (r, other, new, h) ← SLFsetliteral want other new h r
    .ok (.node a ia ref l r, other, new, h)

/-- `SETIDintersect` (`cocogen/sets/set.c:87-102`). -/
def SETIDintersect (h : Nat) (dst src : Tree) : Res SetResult :=
  match dst with
  | .null => .ok ⟨.null, src, .null, h⟩
  | .node a ia ref l r => do
    let (d, s, new, h) ← SLFsetliteral true src .null h (.node a ia ref l r)
    .ok ⟨d, s, new, h⟩

/-- `SETIDdifference` (`cocogen/sets/set.c:69-85`). -/
def SETIDdifference (h : Nat) (left right : Tree) : Res SetResult :=
  match left with
  | .null => .ok ⟨.null, right, .null, h⟩
  | .node a ia ref l r => do
    let (le, ri, new, h) ← SLFsetliteral false right .null h (.node a ia ref l r)
    .ok ⟨le, ri, new, h⟩

/-- `TRAVstart(set, TRAV_cpy)` (`cocogen/ccngen/ccn_copy.c:161-168`). -/
def copySet (h : Nat) : Tree → Tree × Nat
  | .null => (.null, h)
  | .node _ _ ref l r =>
    let a := h
    let (ia, i, h) := copyId (h + 1) ref
    let (l, h) := copySet h l
    let (r, h) := copySet h r
    (.node a ia i l r, h)

/-- The rule `setliterals` (`cocogen/frontend/scanAndParse/dsl-parser.y:585-595`) after its first name: the remaining
names are inserted one by one. -/
def insertAll (h : Nat) (t : Tree) : List Id → Res (Tree × Nat)
  | [] => .ok (t, h)
  | i :: rest => do
    let (t, h) ← SETIDinsert h t i
    insertAll h t rest

end Verif.Sets
