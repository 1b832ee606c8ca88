import Verif.Base

/-!
# Model of the nodeset child tables (`cocogen/frontend/nodesets/nodeset_child_table.c`)

Nodesets are numbered by their position in the list of declarations; `STlookup` of a reference is resolved in the
expression (`none` for `NULL`).  Hash tables are the finite maps they implement (C01–C03): inserting replaces.
-/

namespace Verif.ChildTable

/-- A set expression as this traversal sees it: literals have no references.  The flag of an operation tells `&` and `-`
from `|` (`cocogen/frontend/nodesets/nodeset_child_table.c:150-178`). -/
inductive SExpr where
  | lit
  | ref (j : Option Nat)
  | op (interOrDiff : Bool) (l r : SExpr)
  deriving Repr

/-- `enum ht_state` (`cocogen/frontend/nodesets/nodeset_child_table.c:21-25`). -/
inductive Mark where
  | null | working | finished
  deriving DecidableEq, Repr

/-- The table `built_tables`, the child tables and the flags of the nodesets, and the number of reported errors
(`cocogen/frontend/nodesets/nodeset_child_table.c:35-38`, `51-57`, `88-94`, `151-154`). -/
structure NS where
  built : Nat → Mark
  table : Nat → List Nat
  illegal : Nat → Bool
  errors : Nat

/-- `curr_set`, `added_refs` and whether `last_entry` is set
(`cocogen/frontend/nodesets/nodeset_child_table.c:103-106`). -/
structure Ctx where
  curr : Nat
  added : List Nat
  last : Bool
  deriving Repr

/-- Change a table at one place. -/
def upd {α : Type} (f : Nat → α) (i : Nat) (x : α) : Nat → α := fun j => if j = i then x else f j

/-- `add_inheritance_entry` (`cocogen/frontend/nodesets/nodeset_child_table.c:44-59`). -/
def add_inheritance_entry (c : Ctx) (r : Nat) (s : NS) : Ctx × NS :=
  match decide (r ∈ c.added) with
  | true => (c, s)
  | false =>
    let t := match c.last with
      | false => [r]
      | true => s.table c.curr ++ [r]
    ({ c with added := r :: c.added, last := true }, { s with table := upd s.table c.curr t })

/-- `add_inheritance_entry_list` (`cocogen/frontend/nodesets/nodeset_child_table.c:61-66`): the entries are those of the
nodeset, which is never the current one. -/
def add_inheritance_entry_list (c : Ctx) : List Nat → NS → Ctx × NS
  | [], s => (c, s)
  | r :: rest, s =>
    let (c, s) := add_inheritance_entry c r s
    add_inheritance_entry_list c rest s

/-- `NCTsetoperation`, `NCTsetliteral` and `NCTsetreference`
(`cocogen/frontend/nodesets/nodeset_child_table.c:147-178`); `call` is `TRAVdo` of a nodeset. -/
def nctExpr (call : Nat → Ctx → NS → Res (Ctx × NS)) : SExpr → Ctx → NS → Res (Ctx × NS)
  | .lit, c, s => .ok (c, s)
  | .ref none, _, _ => .abort "assert reference"
  | .ref (some j), c, s => do
    let (c, s) ← call j c s
    .ok (add_inheritance_entry c j s)
  | .op b l r, c, s => do
    let s := match b with
      | true => { s with illegal := upd s.illegal c.curr true }
      | false => s
    let (c, s) ← nctExpr call l c s
    nctExpr call r c s

/-- `NCTinodeset` called from within an expression (`cocogen/frontend/nodesets/nodeset_child_table.c:80-145`, not
`is_root`). -/
def nctSet (sets : List SExpr) : Nat → Nat → Ctx → NS → Res (Ctx × NS)
  | 0, _, _, _ => .diverge
  | fuel + 1, i, c, s =>
    match s.built i with
    | .working => .ok (c, { s with errors := s.errors + 1 })
    | .finished =>
      let (c, s) := add_inheritance_entry_list c (s.table i) s
      .ok (c, { s with built := upd s.built i .finished })
    | .null =>
      match sets[i]? with
      | none => .ub "no such nodeset"
      | some e => do
        let (_, s) ← nctExpr (nctSet sets fuel) e ⟨i, [], false⟩ { s with built := upd s.built i .working }
        let (c, s) := add_inheritance_entry_list c (s.table i) s
        .ok (c, { s with built := upd s.built i .finished })

/-- `NCTinodeset` called for the list of nodesets (`cocogen/frontend/nodesets/nodeset_child_table.c:80-145`, `is_root`):
the nodeset at `i` and, by `TRAVnext`, those after it. -/
def nctRoots (sets : List SExpr) (fuel : Nat) : List SExpr → Nat → NS → Res NS
  | [], _, s => .ok s
  | e :: rest, i, s =>
    match s.built i with
    | .working => .ok { s with errors := s.errors + 1 }
    | .finished => nctRoots sets fuel rest (i + 1) { s with built := upd s.built i .finished }
    | .null => do
      let (_, s) ← nctExpr (nctSet sets fuel) e ⟨i, [], false⟩ { s with built := upd s.built i .working }
      nctRoots sets fuel rest (i + 1) { s with built := upd s.built i .finished }

/-- `NCTast` with `NCTinit` (`cocogen/frontend/nodesets/nodeset_child_table.c:35-38`, `71-75`). -/
def NCTast (sets : List SExpr) (fuel : Nat) : Res NS :=
  nctRoots sets fuel sets 0 { built := fun _ => .null, table := fun _ => [], illegal := fun _ => false, errors := 0 }

end Verif.ChildTable
