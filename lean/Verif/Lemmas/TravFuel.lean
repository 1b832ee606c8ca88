import Verif.Lemmas.Fuel
import Verif.Model.Trav

/-!
# More steps change nothing, for traversals
-/

namespace Verif.Trav
open Res

variable {E : Env}

theorem runProg_le {C C' : Op → St → Res (Ptr × St)} (h : ∀ o s, Le (C o s) (C' o s)) (p : Prog) : ∀ s, Le (runProg C p s) (runProg C' p s) := by
  induction p with
  | ret p => exact fun s => Le.refl _
  | abort why => exact fun s => Le.refl _
  | call o k ih =>
    intro s
    rw [runProg, runProg]
    exact Le.bind (h o s) fun a => ih a.1 a.2
  | mem f k ih =>
    intro s
    rw [runProg, runProg]
    exact Le.bind (Le.refl _) fun a => ih a.1 _
  | data f k ih =>
    intro s
    rw [runProg, runProg]
    split
    · exact Le.refl _
    · split
      · exact Le.refl _
      · split
        · exact Le.refl _
        · split
          · exact Le.refl _
          · exact Le.bind (Le.refl _) fun a => ih a.1 _

section
variable {R R' : Prog → St → Res (Ptr × St)} (h : ∀ p s, Le (R p s) (R' p s))
include h

theorem dataInit_le (i : DataInit) (a : Addr) (s : St) : Le (TRAVdataInit E R i a s) (TRAVdataInit E R' i a s) := by
  cases i with
  | nop => exact Le.refl _
  | data defaults init =>
    simp only [TRAVdataInit]
    split
    · exact Le.refl _
    · split
      · exact Le.refl _
      · exact Le.bind (h _ _) fun a => Le.refl _

theorem dataFree_le (i : DataFree) (a : Addr) (s : St) : Le (TRAVdataFree R i a s) (TRAVdataFree R' i a s) := by
  cases i with
  | nop => exact Le.refl _
  | data fini => exact Le.bind (h _ _) fun a => Le.refl _

theorem push_le (ty : Nat) (s : St) : Le (TRAVpush E R ty s) (TRAVpush E R' ty s) := by
  simp only [TRAVpush]
  split
  · exact Le.refl _
  · split
    · exact Le.refl _
    · exact dataInit_le h _ _ _

theorem pop_le (s : St) : Le (TRAVpop E R s) (TRAVpop E R' s) := by
  simp only [TRAVpop]
  split
  · exact Le.refl _
  · split
    · exact Le.refl _
    · split
      · exact Le.refl _
      · exact Le.bind (dataFree_le h _ _ _) fun a => Le.refl _

theorem do_le (p : Ptr) (s : St) : Le (TRAVdo E R p s) (TRAVdo E R' p s) := by
  simp only [TRAVdo]
  split
  · exact Le.refl _
  · split
    · exact Le.refl _
    · split
      · exact Le.refl _
      · refine Le.bind (Le.refl _) fun a => ?_
        split
        · exact Le.refl _
        · exact h _ _

theorem opt_le (p : Ptr) (s : St) : Le (TRAVopt E R p s) (TRAVopt E R' p s) := by
  cases p with
  | none => exact Le.refl _
  | some a => exact do_le h _ _

theorem start_le (p : Ptr) (ty : Nat) (s : St) : Le (TRAVstart E R p ty s) (TRAVstart E R' p ty s) :=
  Le.bind (push_le h _ _) fun _ => Le.bind (opt_le h _ _) fun _ => Le.bind (pop_le h _) fun _ => Le.refl _

theorem loop_le (p : Ptr) : ∀ {a b : Nat}, a ≤ b → ∀ i s, Le (childLoop E R a p i s) (childLoop E R' b p i s)
  | 0, _, _, _, _ => Le.div _
  | a + 1, 0, hab, _, _ => absurd hab (by omega)
  | a + 1, b + 1, hab, i, s => by
    rw [childLoop, childLoop]
    refine Le.bind (Le.refl _) fun x => ?_
    split
    · refine Le.bind (Le.refl _) fun x => Le.bind (opt_le h _ _) fun y => Le.bind (Le.refl _) fun z => ?_
      split
      · exact loop_le p (by omega) _ _
      · exact Le.refl _
    · exact Le.refl _

end

theorem call_le : ∀ {a b : Nat}, a ≤ b → ∀ o s, Le (call E a o s) (call E b o s)
  | 0, _, _, _, _ => Le.div _
  | a + 1, 0, hab, _, _ => absurd hab (by omega)
  | a + 1, b + 1, hab, o, s => by
    have h := runProg_le fun o s => call_le (show a ≤ b by omega) o s
    simp only [call]
    cases o with
    | travDo p => exact do_le h _ _
    | travOpt p => exact opt_le h _ _
    | travChildren p => exact Le.bind (loop_le h p (by omega) _ _) fun _ => Le.refl _
    | travStart p ty => exact start_le h _ _ _
    | passStart p ty =>
      simp only [PASSstart]
      split
      · exact Le.refl _
      · exact h _ _
    | push ty => exact Le.bind (push_le h _ _) fun _ => Le.refl _
    | pop => exact Le.bind (pop_le h _) fun _ => Le.refl _

end Verif.Trav
