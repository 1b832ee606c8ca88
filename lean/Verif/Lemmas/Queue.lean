import Verif.Spec.Queue

/-!
# Lemmas about the work queue
-/

namespace Verif.Queue
open Verif.Spec.Queue

/-- The blocks `as` hold the items `l` and are linked in this order. -/
def Chain {α : Type} (cells : Nat → Option (Item α)) : List Nat → List (Option α) → Prop
  | [], [] => True
  | [a], [x] => cells a = some ⟨x, none⟩
  | a :: b :: as, x :: y :: l => cells a = some ⟨x, some b⟩ ∧ Chain cells (b :: as) (y :: l)
  | _, _ => False

/-- The queue holds the items `l`. -/
structure Rep {α : Type} (q : Queue α) (as : List Nat) (l : List (Option α)) : Prop where
  chain : Chain q.cells as l
  nodup : as.Nodup
  below : ∀ a ∈ as, a < q.fresh
  top : q.top = as.head?
  back : q.back = as.getLast?
  size : q.size = l.length
  owned : ∀ a, q.cells a ≠ none → a ∈ as

theorem Chain.length {α : Type} {cells : Nat → Option (Item α)} : ∀ {as l}, Chain cells as l → as.length = l.length
  | [], [], _ => rfl
  | [_], [_], _ => rfl
  | _ :: _ :: _, _ :: _ :: _, h => by simpa using Chain.length h.2
  | [], _ :: _, h => by simp [Chain] at h
  | [_], [], h => by simp [Chain] at h
  | [_], _ :: _ :: _, h => by simp [Chain] at h
  | _ :: _ :: _, [], h => by simp [Chain] at h
  | _ :: _ :: _, [_], h => by simp [Chain] at h

theorem Chain.congr {α : Type} {cells cells' : Nat → Option (Item α)} : ∀ {as l}, Chain cells as l →
    (∀ a ∈ as, cells' a = cells a) → Chain cells' as l
  | [], [], _, _ => trivial
  | [a], [_], h, e => by simpa [Chain, e a (by simp)] using h
  | a :: b :: as, _ :: _ :: _, h, e => ⟨by rw [e a (by simp)]; exact h.1, h.2.congr fun c hc => e c (List.mem_cons_of_mem _ hc)⟩
  | [], _ :: _, h, _ => by simp [Chain] at h
  | [_], [], h, _ => by simp [Chain] at h
  | [_], _ :: _ :: _, h, _ => by simp [Chain] at h
  | _ :: _ :: _, [], h, _ => by simp [Chain] at h
  | _ :: _ :: _, [_], h, _ => by simp [Chain] at h

/-- Linking a new last block. -/
theorem Chain.snoc {α : Type} {cells cells' : Nat → Option (Item α)} {n : Nat} {x : Option α} : ∀ {as l b}, Chain cells as l →
    as.getLast? = some b → as.Nodup → (∀ a ∈ as, a ≠ b → cells' a = cells a) →
    (∀ i, cells b = some i → cells' b = some { i with next := some n }) → cells' n = some ⟨x, none⟩ →
    Chain cells' (as ++ [n]) (l ++ [x])
  | [], [], _, _, h, _, _, _, _ => by simp at h
  | [a], [y], b, hc, hb, _, _, h2, h3 => by
    simp only [List.getLast?_singleton, Option.some.injEq] at hb
    subst hb
    exact ⟨h2 _ hc, h3⟩
  | a :: c :: as, y :: z :: l, b, hc, hb, hn, h1, h2, h3 => by
    have hb' : (c :: as).getLast? = some b := by simpa [List.getLast?_cons_cons] using hb
    have hne : a ≠ b := by
      intro e
      subst e
      exact (List.nodup_cons.1 hn).1 (List.mem_of_getLast? hb')
    have := Chain.snoc (x := x) hc.2 hb' (List.nodup_cons.1 hn).2 (fun a ha => h1 a (List.mem_cons_of_mem _ ha)) h2 h3
    exact ⟨by rw [h1 a (by simp) hne]; exact hc.1, this⟩
  | [], _ :: _, _, h, _, _, _, _, _ => by simp [Chain] at h
  | [_], [], _, h, _, _, _, _, _ => by simp [Chain] at h
  | [_], _ :: _ :: _, _, h, _, _, _, _, _ => by simp [Chain] at h
  | _ :: _ :: _, [], _, h, _, _, _, _, _ => by simp [Chain] at h
  | _ :: _ :: _, [_], _, h, _, _, _, _, _ => by simp [Chain] at h

/-- Every linked block is allocated. -/
theorem Chain.alloc {α : Type} {cells : Nat → Option (Item α)} : ∀ {as l}, Chain cells as l → ∀ a ∈ as, ∃ i, cells a = some i
  | [], [], _, a, h => by simp at h
  | [a], [_], h, c, hc => by
    simp only [List.mem_cons, List.not_mem_nil, or_false] at hc
    subst hc
    exact ⟨_, h⟩
  | a :: b :: as, _ :: _ :: _, h, c, hc => by
    rcases List.mem_cons.1 hc with rfl | hc
    · exact ⟨_, h.1⟩
    · exact h.2.alloc c hc
  | [], _ :: _, h, _, _ => by simp [Chain] at h
  | [_], [], h, _, _ => by simp [Chain] at h
  | [_], _ :: _ :: _, h, _, _ => by simp [Chain] at h
  | _ :: _ :: _, [], h, _, _ => by simp [Chain] at h
  | _ :: _ :: _, [_], h, _, _ => by simp [Chain] at h

theorem create_rep {α : Type} : Rep (QUcreate (α := α)) [] [] :=
  ⟨trivial, List.nodup_nil, by simp, rfl, rfl, rfl, fun _ h => absurd rfl h⟩

theorem insert_rep {α : Type} {q : Queue α} {as l} (r : Rep q as l) (x : Option α) :
    ∃ q' as', QUinsert q x = .ok q' ∧ Rep q' as' (l ++ [x]) := by
  have hl := r.chain.length
  rcases l with _ | ⟨y, l⟩
  · have ha : as = [] := List.eq_nil_of_length_eq_zero hl
    subst ha
    have hs : q.size = 0 := r.size
    refine ⟨_, [q.fresh], by (simp only [QUinsert, hs]; rfl), ?_⟩
    refine ⟨by simp [Chain, put], by simp, by simp, rfl, rfl, rfl, fun a h => ?_⟩
    by_cases e : a = q.fresh
    · simp [e]
    · simp only [put, if_neg e] at h
      exact absurd (r.owned a h) (by simp)
  · have hne : as ≠ [] := by intro e; simp [e] at hl
    obtain ⟨b, hb⟩ : ∃ b, as.getLast? = some b := ⟨_, List.getLast?_eq_some_getLast hne⟩
    have hbm := List.mem_of_getLast? hb
    obtain ⟨i, hi⟩ := r.chain.alloc b hbm
    have hlt := r.below b hbm
    have hs : q.size = l.length + 1 := r.size
    have hpb : put q.cells q.fresh (some { item := x, next := none }) b = some i := by
      rw [put, if_neg (by omega)]
      exact hi
    have hset : setNext (put q.cells q.fresh (some { item := x, next := none })) q.back q.fresh =
        .ok (put (put q.cells q.fresh (some { item := x, next := none })) b (some { i with next := some q.fresh })) := by
      simp only [setNext, r.back, hb, hpb]
    refine ⟨_, as ++ [q.fresh], by (simp only [QUinsert, hs, hset, Res.bind_ok]; rfl), ?_⟩
    refine ⟨?_, ?_, ?_, ?_, ?_, ?_, ?_⟩
    · refine r.chain.snoc hb r.nodup ?_ ?_ ?_
      · intro a ha hab
        have := r.below a ha
        simp only [put, if_neg hab, if_neg (show a ≠ q.fresh by omega)]
      · intro j hj
        rw [hi] at hj
        cases hj
        simp [put]
      · simp [put, (show q.fresh ≠ b by omega)]
    · rw [List.nodup_append]
      refine ⟨r.nodup, by simp, ?_⟩
      intro a ha c hc
      simp only [List.mem_cons, List.not_mem_nil, or_false] at hc
      have := r.below a ha
      omega
    · intro a ha
      rcases List.mem_append.1 ha with h | h
      · have := r.below a h
        show a < q.fresh + 1
        omega
      · simp only [List.mem_cons, List.not_mem_nil, or_false] at h
        show a < q.fresh + 1
        omega
    · rcases as with _ | ⟨c, as⟩
      · exact absurd rfl hne
      · exact r.top
    · simp
    · simp
    · intro a h
      by_cases e : a = q.fresh
      · simp [e]
      · by_cases e2 : a = b
        · rw [e2]; exact List.mem_append_left _ hbm
        · simp only [put, if_neg e, if_neg e2] at h
          exact List.mem_append_left _ (r.owned a h)

theorem pop_rep {α : Type} {q : Queue α} {as x l} (r : Rep q as (x :: l)) :
    ∃ q' as', QUpop q = .ok (x, q') ∧ Rep q' as' l := by
  have hs : q.size = l.length + 1 := r.size
  have hc := r.chain
  have hl := hc.length
  rcases as with _ | ⟨a, as⟩
  · simp at hl
  have ht : q.top = some a := r.top
  have hn := List.nodup_cons.1 r.nodup
  rcases as with _ | ⟨b, as⟩
  · have hle : l = [] := List.eq_nil_of_length_eq_zero (by simpa using hl.symm)
    subst hle
    have hca : q.cells a = some ⟨x, none⟩ := hc
    refine ⟨_, [], by (simp only [QUpop, hs, ht, hca, List.length_nil]; rfl), ?_⟩
    refine ⟨trivial, by simp, by simp, rfl, rfl, rfl, fun c h => ?_⟩
    by_cases e : c = a
    · simp [put, e] at h
    · simp only [put, if_neg e] at h
      have := r.owned c h
      simp only [List.mem_cons, List.not_mem_nil, or_false] at this
      exact absurd this e
  · rcases l with _ | ⟨y, l⟩
    · simp at hl
    have hca : q.cells a = some ⟨x, some b⟩ := hc.1
    refine ⟨_, b :: as, by (simp only [QUpop, hs, ht, hca, List.length_cons]; rfl), ?_⟩
    refine ⟨?_, hn.2, fun c h => r.below c (List.mem_cons_of_mem _ h), rfl, ?_, rfl, fun c h => ?_⟩
    · refine hc.2.congr fun c h => ?_
      have : c ≠ a := fun e => hn.1 (e ▸ h)
      simp [put, this]
    · have := r.back
      simpa [List.getLast?_cons_cons] using this
    · by_cases e : c = a
      · simp [put, e] at h
      · simp only [put, if_neg e] at h
        exact (List.mem_cons.1 (r.owned c h)).resolve_left e

theorem pop_empty {α : Type} {q : Queue α} {as} (r : Rep q as []) : QUpop q = .ok (none, q) := by
  have : q.size = 0 := r.size
  simp only [QUpop, this]

/-- The queue behaves like a list. -/
theorem run_rep {α : Type} (calls : List (Call α)) : ∀ (q : Queue α) (as : List Nat) (l : List α), Rep q as (l.map some) →
    ∃ outs q' as' l', runFrom q calls = .ok (outs, q') ∧ Rep q' as' (l'.map some) ∧ outs = outputs l calls ∧
      outs.filterMap id ++ l' = l ++ inserted calls ∧ outs.length = pops calls := by
  induction calls with
  | nil => intro q as l r; exact ⟨[], q, as, l, rfl, r, by simp [outputs], by simp [inserted], rfl⟩
  | cons c rest ih =>
    intro q as l r
    cases c with
    | insert x =>
      obtain ⟨q1, as1, h1, r1⟩ := insert_rep r (some x)
      have r2 : Rep q1 as1 ((l ++ [x]).map some) := by simpa using r1
      obtain ⟨outs, q', as', l', e, r', o1, o2, o3⟩ := ih q1 as1 (l ++ [x]) r2
      refine ⟨outs, q', as', l', by simp only [runFrom, h1, Res.bind_ok, e], r', by rw [o1, outputs], ?_, o3⟩
      rw [o2]
      simp [inserted]
    | pop =>
      rcases l with _ | ⟨x, l⟩
      · have h1 := pop_empty r
        obtain ⟨outs, q', as', l', e, r', o1, o2, o3⟩ := ih q as [] r
        refine ⟨none :: outs, q', as', l', by simp only [runFrom, h1, Res.bind_ok, e], r', by rw [o1, outputs], ?_,
          by simp [pops, o3]⟩
        simpa [inserted] using o2
      · obtain ⟨q1, as1, h1, r1⟩ := pop_rep (x := some x) (l := l.map some) r
        obtain ⟨outs, q', as', l', e, r', o1, o2, o3⟩ := ih q1 as1 l r1
        refine ⟨some x :: outs, q', as', l', by simp only [runFrom, h1, Res.bind_ok, e], r', by rw [o1, outputs], ?_,
          by simp [pops, o3]⟩
        simpa [inserted] using o2

end Verif.Queue
