import Verif.Lemmas.Queue

/-!
# Property C41: the work queue
-/

namespace Verif.Props
open Verif.Queue Verif.Spec.Queue

/-- C41: for every sequence of insertions and removals on a new queue, nothing undefined happens; each removal returns
what a first-in first-out queue returns (NULL if it is empty); the items that came out, followed by those still in
the queue, are the inserted ones in order; and the counter is the number of insertions minus successful removals. -/
theorem C41_fifo {α : Type} (calls : List (Call α)) :
    ∃ (outs : List (Option α)) (q : Queue α) (rest : List α), runFrom QUcreate calls = .ok (outs, q) ∧
      outs = outputs [] calls ∧ outs.length = pops calls ∧ outs.filterMap id ++ rest = inserted calls ∧
      q.size = rest.length ∧ q.size + (outs.filterMap id).length = (inserted calls).length := by
  obtain ⟨outs, q, as, l, e, r, h1, h2, h3⟩ := run_rep calls QUcreate [] [] create_rep
  have hs : q.size = l.length := by simpa using r.size
  refine ⟨outs, q, l, e, h1, h3, by simpa using h2, hs, ?_⟩
  have : inserted calls = outs.filterMap id ++ l := by simpa using h2.symm
  rw [this, List.length_append, hs, Nat.add_comm]

example : outputs [] [.insert 1, .insert 2, .pop, .insert 3, .pop, .pop, .pop] = [some 1, some 2, some 3, none] := by
  decide

/-- C41: whatever was done before, popping until NULL empties the queue in order, and no block is left allocated. -/
theorem C41_drain {α : Type} (calls : List (Call α)) :
    ∃ (outs : List (Option α)) (q q' : Queue α) (rest : List α), runFrom QUcreate calls = .ok (outs, q) ∧
      runFrom q (List.replicate (rest.length + 1) .pop) = .ok (rest.map some ++ [none], q') ∧ q'.size = 0 ∧
      outs.filterMap id ++ rest = inserted calls ∧ QUdelete q' = .ok () ∧
      ∀ a, (q'.cells a).isNone = true := by
  obtain ⟨outs, q, as, l, e, r, h1, h2, h3⟩ := run_rep calls QUcreate [] [] create_rep
  have key : ∀ (l : List α) (q : Queue α) (as : List Nat), Rep q as (l.map some) →
      ∃ q' as', runFrom q (List.replicate (l.length + 1) .pop) = .ok (l.map some ++ [none], q') ∧ Rep q' as' [] := by
    intro l
    induction l with
    | nil =>
      intro q as r
      exact ⟨q, as, by simp only [List.length_nil, List.replicate, runFrom, pop_empty r, Res.bind_ok]; rfl, r⟩
    | cons x l ih =>
      intro q as r
      obtain ⟨q1, as1, e1, r1⟩ := pop_rep (x := some x) (l := l.map some) r
      obtain ⟨q2, as2, e2, r2⟩ := ih q1 as1 r1
      refine ⟨q2, as2, ?_, r2⟩
      rw [List.length_cons, List.replicate_succ, runFrom]
      simp only [e1, e2, Res.bind_ok, List.map_cons, List.cons_append]
  obtain ⟨q', as', e', r'⟩ := key l q as r
  refine ⟨outs, q, q', l, e, e', r'.size, by simpa using h2, ?_⟩
  have : as' = [] := List.eq_nil_of_length_eq_zero r'.chain.length
  have ht : q'.top = none := by rw [r'.top, this]; rfl
  refine ⟨by simp only [QUdelete, ht], fun a => ?_⟩
  rw [Option.isNone_iff_eq_none]
  refine Decidable.byContradiction fun h => ?_
  have := r'.owned a (fun e => h e)
  simp_all

example : ∃ (outs : List (Option Nat)) (q : Queue Nat), runFrom QUcreate [.insert 1, .insert 2, .pop] = .ok (outs, q) ∧
    q.size = 1 ∧ outs = [some 1] := ⟨_, _, rfl, rfl, rfl⟩

/-- C41, the exception: deleting a queue that still holds an item reads the item after it was freed.  (Both users drain
the queue first.) -/
theorem C41_delete_false {α : Type} (calls : List (Call α)) (outs : List (Option α)) (q : Queue α)
    (h : runFrom QUcreate calls = .ok (outs, q)) (hne : q.size ≠ 0) : (QUdelete q).isUB = true := by
  obtain ⟨outs', q', as, l, e, r, _⟩ := run_rep calls QUcreate [] [] create_rep
  rw [h] at e
  cases e
  rcases as with _ | ⟨a, as⟩
  · have h1 := r.chain.length
    have h2 := r.size
    rw [← h1] at h2
    exact absurd h2 hne
  · have ht : q.top = some a := r.top
    obtain ⟨i, hi⟩ := r.chain.alloc a (by simp)
    simp only [QUdelete, ht, hi, Res.isUB]

example : ∃ (outs : List (Option Nat)) (q : Queue Nat), runFrom QUcreate [.insert 1] = .ok (outs, q) ∧ q.size ≠ 0 :=
  ⟨_, _, rfl, by decide⟩

end Verif.Props
