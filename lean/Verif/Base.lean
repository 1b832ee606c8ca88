/-!
# Outcomes of modelled C code

Every modelled C function that can leave the defined behaviour of C, or stop the process, returns a `Res`.
The model has no other side channel: a theorem `f x = .ok y` says that the C function returns and does not
run into undefined behaviour.
-/

namespace Verif

/-- Outcome of running a piece of C code.
* `ok a`     – the code returns `a`.
* `ub why`   – the code reaches undefined behaviour (null dereference, out-of-bounds access, `% 0`, …).
* `abort why`– the process is stopped: failed `assert`, `exit(EXIT_FAILURE)`, `err`, `CTIabortCompilation`.
* `diverge`  – the code loops forever. -/
inductive Res (α : Type u) where
  | ok (a : α)
  | ub (why : String)
  | abort (why : String)
  | diverge
  deriving Repr, DecidableEq

namespace Res

/-- Sequencing: undefined behaviour and process exit both stop everything that follows. -/
protected def bind {α : Type u} {β : Type v} (x : Res α) (f : α → Res β) : Res β :=
  match x with
  | .ok a => f a
  | .ub w => .ub w
  | .abort w => .abort w
  | .diverge => .diverge

instance : Monad Res where
  pure := .ok
  bind := Res.bind

@[simp] theorem bind_ok {α β : Type u} (a : α) (f : α → Res β) : (Res.ok a >>= f) = f a := rfl
@[simp] theorem bind_ub {α β : Type u} (w) (f : α → Res β) : (Res.ub w >>= f) = .ub w := rfl
@[simp] theorem bind_abort {α β : Type u} (w) (f : α → Res β) : (Res.abort w >>= f) = .abort w := rfl
@[simp] theorem bind_diverge {α β : Type u} (f : α → Res β) : (Res.diverge >>= f) = .diverge := rfl
@[simp] theorem pure_eq {α : Type u} (a : α) : (pure a : Res α) = .ok a := rfl
@[simp] theorem map_ok {α β : Type u} (a : α) (f : α → β) : (f <$> Res.ok a) = .ok (f a) := rfl
@[simp] theorem map_ub {α β : Type u} (w) (f : α → β) : (f <$> (Res.ub w : Res α)) = .ub w := rfl
@[simp] theorem map_abort {α β : Type u} (w) (f : α → β) :
    (f <$> (Res.abort w : Res α)) = .abort w := rfl

@[simp] theorem map_diverge {α β : Type u} (f : α → β) : (f <$> (Res.diverge : Res α)) = .diverge := rfl

theorem bind_eq_ok {α β : Type u} {x : Res α} {f : α → Res β} {b : β} :
    (x >>= f) = .ok b ↔ ∃ a, x = .ok a ∧ f a = .ok b := by
  cases x <;> simp

/-- The outcome is undefined behaviour. -/
def isUB {α : Type u} : Res α → Bool
  | .ub _ => true
  | _ => false

/-- The outcome is a normal return. -/
def isOk {α : Type u} : Res α → Bool
  | .ok _ => true
  | _ => false

/-- The process was stopped. -/
def isAbort {α : Type u} : Res α → Bool
  | .abort _ => true
  | _ => false

end Res

end Verif
