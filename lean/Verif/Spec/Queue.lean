import Verif.Model.Queue

/-!
# Specification of the work queue
-/

namespace Verif.Spec.Queue
open Verif.Queue

/-- A call. -/
inductive Call (α : Type) where
  | insert (x : α)
  | pop

/-- The calls on a new queue, one after the other: the results of the pops (NULL for none), and the queue. -/
def runFrom {α : Type} (q : Queue α) : List (Call α) → Res (List (Option α) × Queue α)
  | [] => .ok ([], q)
  | .insert x :: rest => do
    let q ← QUinsert q (some x)
    runFrom q rest
  | .pop :: rest => do
    let (r, q) ← QUpop q
    let (rs, q) ← runFrom q rest
    .ok (r :: rs, q)

/-- The items that were put in, in order. -/
def inserted {α : Type} : List (Call α) → List α
  | [] => []
  | .insert x :: rest => x :: inserted rest
  | .pop :: rest => inserted rest

/-- The number of pops. -/
def pops {α : Type} : List (Call α) → Nat
  | [] => 0
  | .insert _ :: rest => pops rest
  | .pop :: rest => pops rest + 1

/-- An abstract queue, for the individual results: what the pops return. -/
def outputs {α : Type} : List α → List (Call α) → List (Option α)
  | _, [] => []
  | l, .insert x :: rest => outputs (l ++ [x]) rest
  | [], .pop :: rest => none :: outputs [] rest
  | x :: l, .pop :: rest => some x :: outputs l rest

end Verif.Spec.Queue
