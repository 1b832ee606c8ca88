import Verif.Base

/-!
# Model of the work queue (`cocogen/frontend/attribute_scheduler/queue.c`)

Items are pointers; `none` is NULL.  The memory holds the `item_st` blocks; a block that was freed (or never allocated)
is `none`.  `MEMmalloc` never returns a block twice in the model.  The counter is a natural number: it counts blocks
that exist, so `size_t` cannot overflow.
-/

namespace Verif.Queue

/-- One `item_st` (`cocogen/frontend/attribute_scheduler/queue.h:5-8`). -/
structure Item (α : Type) where
  item : Option α
  next : Option Nat

/-- A `queue_st` (`cocogen/frontend/attribute_scheduler/queue.h:10-14`) with the memory its items live in. -/
structure Queue (α : Type) where
  cells : Nat → Option (Item α)
  fresh : Nat
  top : Option Nat
  back : Option Nat
  size : Nat

/-- `QUcreate` (`cocogen/frontend/attribute_scheduler/queue.c:4-11`). -/
def QUcreate {α : Type} : Queue α := { cells := fun _ => none, fresh := 0, top := none, back := none, size := 0 }

/-- Write a block. -/
def put {α : Type} (cells : Nat → Option (Item α)) (a : Nat) (i : Option (Item α)) : Nat → Option (Item α) :=
  fun x => if x = a then i else cells x

/-- `queue->back->next = …` (`cocogen/frontend/attribute_scheduler/queue.c:30`). -/
def setNext {α : Type} (cells : Nat → Option (Item α)) (back : Option Nat) (next : Nat) : Res (Nat → Option (Item α)) :=
  match back with
  | none => .ub "NULL->next"
  | some b =>
    match cells b with
    | none => .ub "use of a freed item"
    | some i => .ok (put cells b (some { i with next := some next }))

/-- `QUinsert` (`cocogen/frontend/attribute_scheduler/queue.c:21-35`). -/
def QUinsert {α : Type} (q : Queue α) (item : Option α) : Res (Queue α) :=
  let a := q.fresh
  let cells := put q.cells a (some { item := item, next := none })
  match q.size with
  | 0 => .ok { cells := cells, fresh := a + 1, top := some a, back := some a, size := 1 }
  | n + 1 => do
    let cells ← setNext cells q.back a
    .ok { cells := cells, fresh := a + 1, top := q.top, back := some a, size := n + 2 }

/-- `QUpeek` (`cocogen/frontend/attribute_scheduler/queue.c:37-39`) returns the first block, not the item in it. -/
def QUpeek {α : Type} (q : Queue α) : Option Nat := q.top

/-- `QUpop` (`cocogen/frontend/attribute_scheduler/queue.c:41-58`): the item (NULL if there is none) and the queue. -/
def QUpop {α : Type} (q : Queue α) : Res (Option α × Queue α) :=
  match q.size with
  | 0 => .ok (none, q)
  | n + 1 =>
    match q.top with
    | none => .ub "NULL->item"
    | some a =>
      match q.cells a with
      | none => .ub "use of a freed item"
      | some i =>
        let cells := put q.cells a none
        match n with
        | 0 => .ok (i.item, { q with cells := cells, top := none, back := none, size := 0 })
        | m + 1 => .ok (i.item, { q with cells := cells, top := i.next, size := m + 1 })

/-- `QUdelete` (`cocogen/frontend/attribute_scheduler/queue.c:13-19`): the loop frees an item and then reads its `next`. -/
def QUdelete {α : Type} (q : Queue α) : Res Unit :=
  match q.top with
  | none => .ok ()
  | some a =>
    match q.cells a with
    | none => .ub "free of a freed item"
    | some _ => .ub "item->next of a freed item"

end Verif.Queue
