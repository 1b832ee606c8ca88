import Verif.Spec.Lifetimes
import Verif.Lemmas.PhaseDriver

/-!
# Lemmas about numbering, resolving and checking lifetimes
-/

namespace Verif.Life
open Verif.Str Verif.Ids Verif.Spec.Life

/-! ## Addresses of the occurrences of a tree -/

/-- The addresses of the occurrences, in pre-order; the list is that of phase `p` from position `k` on. -/
def addrs (p k : Nat) : Tree → List Addr
  | .nil => []
  | .leaf _ _ next => (p, k) :: addrs p (k + 1) next
  | .phase q _ _ body next => (p, k) :: (addrs q 0 body ++ addrs p (k + 1) next)

theorem addrs_length (p k : Nat) (T : Tree) : (addrs p k T).length = size T := by
  induction T generalizing p k with
  | nil => rfl
  | leaf n u t ih => simp only [addrs, size, occ, List.length_cons, ih] at *
  | phase q n u b t ihb iht =>
    simp only [addrs, size, occ, List.length_cons, List.length_append, ihb, iht] at *

theorem addrs_mem {a : Addr} {T : Tree} : ∀ {p k : Nat}, a ∈ addrs p k T → (a.1 = p ∧ k ≤ a.2) ∨ a.1 ∈ used T := by
  induction T with
  | nil => intro p k h; simp [addrs] at h
  | leaf n u t ih =>
    intro p k h
    simp only [addrs, List.mem_cons] at h
    rcases h with rfl | h
    · exact .inl ⟨rfl, Nat.le_refl _⟩
    · rcases ih h with ⟨h1, h2⟩ | h1
      · exact .inl ⟨h1, by omega⟩
      · exact .inr h1
  | phase q n u b t ihb iht =>
    intro p k h
    simp only [addrs, List.mem_cons, List.mem_append] at h
    rcases h with rfl | h | h
    · exact .inl ⟨rfl, Nat.le_refl _⟩
    · right
      rcases ihb h with ⟨h1, _⟩ | h1
      · simp [used, h1]
      · simp [used, h1]
    · rcases iht h with ⟨h1, h2⟩ | h1
      · exact .inl ⟨h1, by omega⟩
      · exact .inr (by simp [used, h1])

theorem addrs_nodup {T : Tree} : ∀ {p k : Nat}, (p :: used T).Nodup → (addrs p k T).Nodup := by
  induction T with
  | nil => intro p k _; simp [addrs]
  | leaf n u t ih =>
    intro p k h
    simp only [addrs, List.nodup_cons]
    refine ⟨?_, ih h⟩
    intro hm
    rcases addrs_mem hm with ⟨_, h2⟩ | h1
    · exact absurd h2 (by simp)
    · exact (List.nodup_cons.mp h).1 h1
  | phase q n u b t ihb iht =>
    intro p k h
    simp only [used, List.nodup_cons, List.mem_cons, List.mem_append, List.nodup_append, not_or] at h
    obtain ⟨⟨hpq, hpb, hpt⟩, ⟨hqb, hqt⟩, hb, ht, hbt⟩ := h
    simp only [addrs, List.nodup_cons, List.nodup_append, List.mem_append, not_or]
    refine ⟨⟨?_, ?_⟩, ihb (List.nodup_cons.mpr ⟨hqb, hb⟩), iht (List.nodup_cons.mpr ⟨hpt, ht⟩), ?_⟩
    · intro hm
      rcases addrs_mem hm with ⟨h1, _⟩ | h1
      · exact hpq h1
      · exact hpb h1
    · intro hm
      rcases addrs_mem hm with ⟨_, h2⟩ | h1
      · exact absurd h2 (by simp)
      · exact hpt h1
    · intro a ha c hc hac
      subst hac
      rcases addrs_mem ha with ⟨h1, _⟩ | h1 <;> rcases addrs_mem hc with ⟨h2, _⟩ | h2
      · exact hpq (h2.symm.trans h1)
      · exact hqt (h1 ▸ h2)
      · exact hpb (h2 ▸ h1)
      · exact hbt _ h1 _ h2 rfl

/-! ## Numbering -/

theorem assign_same (s : Num) (a : Addr) : (s.assign a).ids a = s.curr := by simp [Num.assign]

theorem assign_other {s : Num} {a b : Addr} (h : b ≠ a) : (s.assign a).ids b = s.ids b := by simp [Num.assign, h]

theorem assign_curr (s : Num) (a : Addr) : (s.assign a).curr = s.curr + 1 := rfl

/-- The suffix of the actions of phase `p` from `k` on. -/
def suffix (ph : List Phase) (p k : Nat) : List Ref :=
  match ph[p]? with
  | some x => x.actions.drop k
  | none => []

theorem actionAt_suffix (ph : List Phase) (p k : Nat) : actionAt ph p k = (suffix ph p k)[0]? := by
  unfold actionAt suffix
  cases ph[p]? with
  | none => rfl
  | some x => simp

theorem suffix_tail {ph : List Phase} {p k : Nat} {r : Ref} {rs : List Ref} (h : suffix ph p k = r :: rs) :
    suffix ph p (k + 1) = rs := by
  unfold suffix at *
  cases hx : ph[p]? with
  | none => rw [hx] at h; cases h
  | some x =>
    rw [hx] at h
    simp only at h ⊢
    rw [← List.tail_drop, h]; rfl

theorem suffix_zero {ph : List Phase} {p : Nat} {x : Phase} (h : ph[p]? = some x) : suffix ph p 0 = x.actions := by
  simp [suffix, h]

/-- Numbering the actions of a phase that unfolds to a tree, each phase being used once. -/
theorem AITA_spec {ph : List Phase} : ∀ {fuel p k : Nat} {s s' : Num} {T : Tree}, Unfolds ph (suffix ph p k) T →
    (addrs p k T).Nodup → AITAiactions ph fuel p k s = .ok s' →
    s'.curr = s.curr + size T ∧ (∀ (i : Nat) a, (addrs p k T)[i]? = some a → s'.ids a = s.curr + i) ∧
      ∀ a, a ∉ addrs p k T → s'.ids a = s.ids a := by
  intro fuel
  induction fuel with
  | zero => intro p k s s' T _ _ h; simp [AITAiactions] at h
  | succ f ih =>
    intro p k s s' T hU hN h
    rw [AITAiactions, actionAt_suffix] at h
    generalize hs : suffix ph p k = rs at hU h
    cases hU with
    | nil =>
      simp only [List.getElem?_nil, Res.ok.injEq] at h
      subst h
      simp [size, occ, addrs]
    | @leaf n u rs t hU =>
      simp only [List.getElem?_cons_zero] at h
      simp only [addrs, List.nodup_cons] at hN
      obtain ⟨h1, h2, h3⟩ := ih (suffix_tail hs ▸ hU) hN.2 h
      rw [assign_curr] at h1 h2
      refine ⟨by simp only [size, occ, List.length_cons] at *; omega, ?_, ?_⟩
      · intro i a ha
        cases i with
        | zero =>
          simp only [addrs, List.getElem?_cons_zero, Option.some.injEq] at ha
          subst ha
          rw [h3 _ hN.1, assign_same]; rfl
        | succ i =>
          simp only [addrs, List.getElem?_cons_succ] at ha
          rw [h2 i a ha]; omega
      · intro a ha
        simp only [addrs, List.mem_cons, not_or] at ha
        rw [h3 a ha.2, assign_other ha.1]
    | @phase q x rs b t hq hB hU =>
      simp only [List.getElem?_cons_zero, Res.bind_eq_ok] at h
      obtain ⟨s1, e1, e2⟩ := h
      simp only [addrs, List.nodup_cons, List.mem_append, not_or, List.nodup_append] at hN
      obtain ⟨⟨n1, n2⟩, n3, n4, n5⟩ := hN
      obtain ⟨b1, b2, b3⟩ := ih (suffix_zero hq ▸ hB) n3 e1
      obtain ⟨t1, t2, t3⟩ := ih (suffix_tail hs ▸ hU) n4 e2
      rw [assign_curr] at b1 b2
      have hl : (addrs q 0 b).length = size b := addrs_length q 0 b
      refine ⟨by simp only [size, occ, List.length_cons, List.length_append] at *; omega, ?_, ?_⟩
      · intro i a ha
        cases i with
        | zero =>
          simp only [addrs, List.getElem?_cons_zero, Option.some.injEq] at ha
          subst ha
          rw [t3 _ n2, b3 _ n1, assign_same]; rfl
        | succ i =>
          simp only [addrs, List.getElem?_cons_succ] at ha
          rw [List.getElem?_append] at ha
          split at ha
          · have hm : a ∈ addrs q 0 b := List.mem_of_getElem? ha
            rw [t3 a (fun h => n5 a hm a h rfl), b2 i a ha]; omega
          · rw [t2 _ a ha, b1]; omega
      · intro a ha
        simp only [addrs, List.mem_cons, List.mem_append, not_or] at ha
        rw [t3 a ha.2.2, b3 a ha.2.1, assign_other ha.1]

/-- Numbering the actions of a phase only touches the phases it reaches, and the counter does not go down. -/
theorem AITA_frame {ph : List Phase} : ∀ {fuel p k : Nat} {s s' : Num}, AITAiactions ph fuel p k s = .ok s' →
    s.curr ≤ s'.curr ∧ ∀ a : Addr, ¬ Reaches ph p a.1 → s'.ids a = s.ids a := by
  intro fuel
  induction fuel with
  | zero => intro p k s s' h; simp [AITAiactions] at h
  | succ f ih =>
    intro p k s s' h
    rw [AITAiactions] at h
    have hne : ∀ a : Addr, ¬ Reaches ph p a.1 → a ≠ (p, k) := by
      rintro a ha rfl; exact ha .refl
    split at h
    · cases h; exact ⟨Nat.le_refl _, fun _ _ => rfl⟩
    · cases h
    · rename_i q hq
      simp only [Res.bind_eq_ok] at h
      obtain ⟨s1, e1, e2⟩ := h
      obtain ⟨a1, a2⟩ := ih e1
      obtain ⟨b1, b2⟩ := ih e2
      rw [assign_curr] at a1
      refine ⟨by omega, fun a ha => ?_⟩
      rw [b2 a ha, a2 a ?_, assign_other (hne a ha)]
      intro hr
      apply ha
      unfold actionAt at hq
      split at hq
      · rename_i x hx
        exact .step hx (List.mem_of_getElem? hq) hr
      · cases hq
    · obtain ⟨b1, b2⟩ := ih h
      rw [assign_curr] at b1
      exact ⟨by omega, fun a ha => by rw [b2 a ha, assign_other (hne a ha)]⟩

theorem AITAiphase_frame {ph : List Phase} {fuel : Nat} : ∀ {n p : Nat} {s s' : Num},
    AITAiphase ph fuel n p s = .ok s' → ∀ a : Addr, (∀ j, p ≤ j → j < p + n → ¬ Reaches ph j a.1) → s'.ids a = s.ids a := by
  intro n
  induction n with
  | zero => intro p s s' h; cases h; intros; rfl
  | succ n ih =>
    intro p s s' h a ha
    simp only [AITAiphase, Res.bind_eq_ok] at h
    obtain ⟨s1, e1, e2⟩ := h
    rw [ih e2 a (fun j h1 h2 => ha j (by omega) (by omega)), (AITA_frame e1).2 a (ha p (Nat.le_refl _) (by omega))]

/-- Every address in a tree belongs to a phase that is reached. -/
theorem used_reaches {ph : List Phase} {rs : List Ref} {T : Tree} (h : Unfolds ph rs T) :
    ∀ q ∈ used T, ∃ r, Ref.phase r ∈ rs ∧ Reaches ph r q := by
  induction h with
  | nil => simp [used]
  | leaf _ ih =>
    intro q hq
    obtain ⟨r, h1, h2⟩ := ih q hq
    exact ⟨r, List.mem_cons_of_mem _ h1, h2⟩
  | @phase q' x rs b t hq' _ _ ihb iht =>
    intro q hq
    simp only [used, List.mem_cons, List.mem_append] at hq
    rcases hq with rfl | hq | hq
    · exact ⟨q, by simp, .refl⟩
    · obtain ⟨r, h1, h2⟩ := ihb q hq
      exact ⟨q', by simp, .step hq' h1 h2⟩
    · obtain ⟨r, h1, h2⟩ := iht q hq
      exact ⟨r, List.mem_cons_of_mem _ h1, h2⟩

/-- The whole numbering, if the phases listed behind the start phase have nothing to do with it. -/
theorem AITAast_spec {ph : List Phase} {fuel start : Nat} {x : Phase} {T : Tree} {ids : Addr → Nat}
    (hx : ph[start]? = some x) (hU : Unfolds ph x.actions T) (hN : (start :: used T).Nodup)
    (hL : ∀ j, start < j → j < ph.length → ∀ q ∈ start :: used T, ¬ Reaches ph j q)
    (h : AITAast ph fuel (some start) = .ok ids) :
    ∀ (i : Nat) a, (addrs start 0 T)[i]? = some a → ids a = i + 2 := by
  intro i a ha
  simp only [AITAast, Res.bind_eq_ok, Res.ok.injEq] at h
  obtain ⟨s, h, rfl⟩ := h
  have hlt : start < ph.length := by
    rcases Nat.lt_or_ge start ph.length with h | h
    · exact h
    · rw [List.getElem?_eq_none h] at hx; cases hx
  obtain ⟨n, hn⟩ : ∃ n, ph.length - start = n + 1 := ⟨ph.length - start - 1, by omega⟩
  rw [hn] at h
  simp only [AITAiphase, Res.bind_eq_ok] at h
  obtain ⟨s1, e1, e2⟩ := h
  obtain ⟨_, b2, _⟩ := AITA_spec (by rw [suffix_zero hx]; exact hU) (addrs_nodup hN) e1
  rw [AITAiphase_frame e2 a ?_, b2 i a ha]
  · simp only; omega
  · intro j h1 h2
    refine hL j (by omega) (by omega) a.1 ?_
    rcases addrs_mem (List.mem_of_getElem? ha) with ⟨e, _⟩ | e
    · rw [e]; simp
    · simp [e]

theorem AITA_curr {ph : List Phase} : ∀ {fuel p k : Nat} {s s' : Num} {T : Tree}, Unfolds ph (suffix ph p k) T →
    AITAiactions ph fuel p k s = .ok s' → s'.curr = s.curr + size T := by
  intro fuel
  induction fuel with
  | zero => intro p k s s' T _ h; simp [AITAiactions] at h
  | succ f ih =>
    intro p k s s' T hU h
    rw [AITAiactions, actionAt_suffix] at h
    generalize hs : suffix ph p k = rs at hU h
    cases hU with
    | nil =>
      simp only [List.getElem?_nil, Res.ok.injEq] at h
      subst h; simp [size, occ]
    | @leaf n u rs t hU =>
      simp only [List.getElem?_cons_zero] at h
      have h1 := ih (suffix_tail hs ▸ hU) h
      rw [assign_curr] at h1
      simp only [size, occ, List.length_cons] at *; omega
    | @phase q x rs b t hq hB hU =>
      simp only [List.getElem?_cons_zero, Res.bind_eq_ok] at h
      obtain ⟨s1, e1, e2⟩ := h
      have b1 := ih (suffix_zero hq ▸ hB) e1
      have t1 := ih (suffix_tail hs ▸ hU) e2
      rw [assign_curr] at b1
      simp only [size, occ, List.length_cons, List.length_append] at *; omega

/-- A field keeps its value or gets one that the counter had not passed before. -/
theorem AITA_fresh {ph : List Phase} : ∀ {fuel p k : Nat} {s s' : Num}, AITAiactions ph fuel p k s = .ok s' →
    (∀ m a, m ≤ s.curr → m ≤ s.ids a → m ≤ s'.ids a) ∧ (actionAt ph p k ≠ none → s.curr ≤ s'.ids (p, k)) := by
  intro fuel
  induction fuel with
  | zero => intro p k s s' h; simp [AITAiactions] at h
  | succ f ih =>
    intro p k s s' h
    rw [AITAiactions] at h
    have ha : ∀ m b, m ≤ s.curr → m ≤ s.ids b → m ≤ (s.assign (p, k)).ids b := by
      intro m b h1 h2
      simp only [Num.assign]; split <;> assumption
    have hk : s.curr ≤ (s.assign (p, k)).ids (p, k) := by rw [assign_same]; exact Nat.le_refl _
    split at h
    · rename_i hn; cases h; exact ⟨fun _ _ _ h => h, fun h => absurd hn h⟩
    · cases h
    · rename_i q hq
      simp only [Res.bind_eq_ok] at h
      obtain ⟨s1, e1, e2⟩ := h
      have c1 := (AITA_frame e1).1
      rw [assign_curr] at c1
      obtain ⟨a1, _⟩ := ih e1
      obtain ⟨b1, _⟩ := ih e2
      rw [assign_curr] at a1
      exact ⟨fun m b h1 h2 => b1 m b (by omega) (a1 m b (by omega) (ha m b h1 h2)),
        fun _ => b1 _ _ (by omega) (a1 _ _ (by omega) hk)⟩
    · obtain ⟨b1, _⟩ := ih h
      rw [assign_curr] at b1
      exact ⟨fun m b h1 h2 => b1 m b (by omega) (ha m b h1 h2), fun _ => b1 _ _ (by omega) hk⟩

theorem AITAiphase_fresh {ph : List Phase} {fuel : Nat} : ∀ {n p : Nat} {s s' : Num},
    AITAiphase ph fuel n p s = .ok s' →
    (∀ m a, m ≤ s.curr → m ≤ s.ids a → m ≤ s'.ids a) ∧
    ∀ j, p ≤ j → j < p + n → actionAt ph j 0 ≠ none → s.curr ≤ s'.ids (j, 0) := by
  intro n
  induction n with
  | zero => intro p s s' h; cases h; exact ⟨fun _ _ _ h => h, fun j h1 h2 => absurd h2 (by omega)⟩
  | succ n ih =>
    intro p s s' h
    simp only [AITAiphase, Res.bind_eq_ok] at h
    obtain ⟨s1, e1, e2⟩ := h
    have c1 := (AITA_frame e1).1
    obtain ⟨a1, a2⟩ := AITA_fresh e1
    obtain ⟨b1, b2⟩ := ih e2
    refine ⟨fun m a h1 h2 => b1 m a (by omega) (a1 m a h1 h2), fun j h1 h2 h3 => ?_⟩
    rcases Nat.lt_or_ge p j with hj | hj
    · exact Nat.le_trans c1 (b2 j (by omega) (by omega) h3)
    · have : p = j := by omega
      subst this
      exact b1 _ _ c1 (a2 h3)

/-- The first action of a phase that is listed behind the start phase gets a number no action of the compiler has. -/
theorem AITAast_behind {ph : List Phase} {fuel start q : Nat} {x : Phase} {T : Tree} {ids : Addr → Nat}
    (hx : ph[start]? = some x) (hU : Unfolds ph x.actions T) (h : AITAast ph fuel (some start) = .ok ids)
    (h1 : start < q) (h2 : actionAt ph q 0 ≠ none) : size T + 2 ≤ ids (q, 0) := by
  simp only [AITAast, Res.bind_eq_ok, Res.ok.injEq] at h
  obtain ⟨s, h, rfl⟩ := h
  have hq : q < ph.length := by
    rcases Nat.lt_or_ge q ph.length with h | h
    · exact h
    · exact absurd (by simp [actionAt, List.getElem?_eq_none h]) h2
  obtain ⟨n, hn⟩ : ∃ n, ph.length - start = n + 1 := ⟨ph.length - start - 1, by omega⟩
  rw [hn] at h
  simp only [AITAiphase, Res.bind_eq_ok] at h
  obtain ⟨s1, e1, e2⟩ := h
  have hc := AITA_curr (by rw [suffix_zero hx]; exact hU) e1
  have := (AITAiphase_fresh e2).2 q (by omega) (by omega) h2
  simp only at hc
  omega

/-! ## Resolving a target -/

/-- The reference that leads to an occurrence. -/
def refOf : Item → Ref
  | .leaf n u => .leaf n u
  | .phase q _ _ _ => .phase q

theorem compareID_iff (a : Option Id) (t : Id) : compareID a (some t) = true ↔ ∃ x, a = some x ∧ x.lwr = t.lwr := by
  cases a with
  | none => simp [compareID]
  | some x => simp [compareID, STReq, strcmpEq]

theorem answers_iff (n : Id) (u : Option Id) (t : Id) :
    (compareID (some n) (some t) || compareID u (some t)) = true ↔ n.lwr = t.lwr ∨ ∃ x, u = some x ∧ x.lwr = t.lwr := by
  rw [Bool.or_eq_true, compareID_iff, compareID_iff]
  simp

theorem first_unique {T : Tree} {t : Id} {i j : Nat} {x y : Item} (h1 : First T t i x) (h2 : First T t j y) :
    i = j ∧ x = y := by
  have e : i = j := by
    rcases Nat.lt_trichotomy i j with h | h | h
    · exact absurd h1.2.1 (h2.2.2 i x h h1.1)
    · exact h
    · exact absurd h2.2.1 (h1.2.2 j y h h2.1)
  subst e
  have := h1.1.symm.trans h2.1
  exact ⟨rfl, by injection this⟩

theorem first_cons {T T' : Tree} {t : Id} {y : Item} (ho : occ T' = y :: occ T) (hy : ¬ Answers t y) {i : Nat}
    {x : Item} (h : First T t i x) : First T' t (i + 1) x := by
  refine ⟨by rw [ho]; simpa using h.1, h.2.1, ?_⟩
  intro j z hj hz
  rw [ho] at hz
  cases j with
  | zero => simp only [List.getElem?_cons_zero, Option.some.injEq] at hz; rw [← hz]; exact hy
  | succ j => exact h.2.2 j z (by omega) (by simpa using hz)

theorem none_answers {T : Tree} {t : Id} (h : ∀ y ∈ occ T, ¬ Answers t y) : ∀ i x, ¬ First T t i x :=
  fun _ x hf => h x (List.mem_of_getElem? hf.1) hf.2.1

/-- The search finds the first occurrence that answers. -/
theorem MITL_spec {ph : List Phase} {t : Id} : ∀ {fuel p k : Nat} {T : Tree} {r : Last}, Unfolds ph (suffix ph p k) T →
    MITLiactions ph t fuel p k none = .ok r →
    (r = none ∧ ∀ y ∈ occ T, ¬ Answers t y) ∨
    (∃ i x a, First T t i x ∧ (addrs p k T)[i]? = some a ∧ r = some (a, refOf x)) := by
  intro fuel
  induction fuel with
  | zero => intro p k T r _ h; simp [MITLiactions] at h
  | succ f ih =>
    intro p k T r hU h
    rw [MITLiactions, actionAt_suffix] at h
    generalize hs : suffix ph p k = rs at hU h
    cases hU with
    | nil =>
      simp only [List.getElem?_nil, Res.ok.injEq] at h
      exact .inl ⟨h.symm, by simp [occ]⟩
    | @leaf n u rs T hU =>
      simp only [List.getElem?_cons_zero] at h
      split at h
      · rename_i hc
        cases h
        refine .inr ⟨0, .leaf n u, (p, k), ⟨rfl, (answers_iff n u t).mp hc, fun j _ hj => absurd hj (by omega)⟩, rfl, rfl⟩
      · rename_i hc
        have hna : ¬ Answers t (.leaf n u) := fun ha => hc ((answers_iff n u t).mpr ha)
        simp only [Option.isNone_none, if_true] at h
        rcases ih (suffix_tail hs ▸ hU) h with ⟨h1, h2⟩ | ⟨i, x, a, h1, h2, h3⟩
        · refine .inl ⟨h1, ?_⟩
          intro y hy
          simp only [occ, List.mem_cons] at hy
          rcases hy with rfl | hy
          · exact hna
          · exact h2 y hy
        · exact .inr ⟨i + 1, x, a, first_cons rfl hna h1, by simpa [addrs] using h2, h3⟩
    | @phase q x rs b T hq hB hU =>
      simp only [List.getElem?_cons_zero, hq] at h
      split at h
      · rename_i hc
        cases h
        refine .inr ⟨0, .phase q x.name x.uid b, (p, k),
          ⟨rfl, (answers_iff x.name x.uid t).mp hc, fun j _ hj => absurd hj (by omega)⟩, rfl, rfl⟩
      · rename_i hc
        have hna : ¬ Answers t (.phase q x.name x.uid b) := fun ha => hc ((answers_iff _ _ t).mpr ha)
        rw [Res.bind_eq_ok] at h
        obtain ⟨r1, e1, e2⟩ := h
        have hbl : (addrs q 0 b).length = (occ b).length := addrs_length q 0 b
        rcases ih (suffix_zero hq ▸ hB) e1 with ⟨h1, h2⟩ | ⟨i, y, a, h1, h2, h3⟩
        · subst h1
          simp only [Option.isNone_none, if_true] at e2
          rcases ih (suffix_tail hs ▸ hU) e2 with ⟨h3, h4⟩ | ⟨i, y, a, h3, h4, h5⟩
          · refine .inl ⟨h3, ?_⟩
            intro y hy
            simp only [occ, List.mem_cons, List.mem_append] at hy
            rcases hy with rfl | hy | hy
            · exact hna
            · exact h2 y hy
            · exact h4 y hy
          · refine .inr ⟨(occ b).length + i + 1, y, a, ⟨?_, h3.2.1, ?_⟩, ?_, h5⟩
            · simp only [occ, List.getElem?_cons_succ]
              rw [List.getElem?_append_right (by omega)]
              rw [show (occ b).length + i - (occ b).length = i by omega]
              exact h3.1
            · intro j z hj hz
              cases j with
              | zero => simp only [occ, List.getElem?_cons_zero, Option.some.injEq] at hz; rw [← hz]; exact hna
              | succ j =>
                simp only [occ, List.getElem?_cons_succ] at hz
                rw [List.getElem?_append] at hz
                split at hz
                · exact h2 z (List.mem_of_getElem? hz)
                · exact h3.2.2 _ z (by omega) hz
            · simp only [addrs, List.getElem?_cons_succ]
              rw [List.getElem?_append_right (by omega)]
              rw [show (occ b).length + i - (addrs q 0 b).length = i by omega]
              exact h4
        · subst h3
          simp only [Option.isNone_some, Bool.false_eq_true, if_false, Res.ok.injEq] at e2
          subst e2
          have hib : i < (occ b).length := by
            rcases Nat.lt_or_ge i (occ b).length with h | h
            · exact h
            · have h1 := h1.1; rw [List.getElem?_eq_none h] at h1; cases h1
          refine .inr ⟨i + 1, y, a, ⟨?_, h1.2.1, ?_⟩, ?_, rfl⟩
          · simp only [occ, List.getElem?_cons_succ]
            rw [List.getElem?_append_left hib]; exact h1.1
          · intro j z hj hz
            cases j with
            | zero => simp only [occ, List.getElem?_cons_zero, Option.some.injEq] at hz; rw [← hz]; exact hna
            | succ j =>
              simp only [occ, List.getElem?_cons_succ] at hz
              rw [List.getElem?_append_left (by omega)] at hz
              exact h1.2.2 j z (by omega) hz
          · simp only [addrs, List.getElem?_cons_succ]
            rw [List.getElem?_append_left (by omega)]; exact h2

/-- A phase that occurs in an unfolded list unfolds itself, and its occurrences follow it. -/
theorem occ_phase {ph : List Phase} {rs : List Ref} {T : Tree} (hU : Unfolds ph rs T) : ∀ {p k i q n u body},
    (occ T)[i]? = some (.phase q n u body) →
    (∃ x, ph[q]? = some x ∧ Unfolds ph x.actions body) ∧
    ∀ (j : Nat) a, (addrs q 0 body)[j]? = some a → (addrs p k T)[i + 1 + j]? = some a := by
  induction hU with
  | nil => intro p k i q n u body h; simp [occ] at h
  | @leaf n' u' rs T hU ih =>
    intro p k i q n u body h
    cases i with
    | zero => simp [occ] at h
    | succ i =>
      simp only [occ, List.getElem?_cons_succ] at h
      obtain ⟨h1, h2⟩ := ih (p := p) (k := k + 1) h
      refine ⟨h1, fun j a ha => ?_⟩
      have := h2 j a ha
      simp only [addrs]
      rw [show i + 1 + 1 + j = (i + 1 + j) + 1 by omega, List.getElem?_cons_succ]
      exact this
  | @phase q' x rs b T hq hB hU ihb iht =>
    intro p k i q n u body h
    have hbl : (addrs q' 0 b).length = (occ b).length := addrs_length q' 0 b
    have lt : ∀ {l : List Addr} {i : Nat} {a : Addr}, l[i]? = some a → i < l.length := by
      intro l i a h
      rcases Nat.lt_or_ge i l.length with h' | h'
      · exact h'
      · rw [List.getElem?_eq_none h'] at h; cases h
    cases i with
    | zero =>
      simp only [occ, List.getElem?_cons_zero, Option.some.injEq, Item.phase.injEq] at h
      obtain ⟨rfl, _, _, rfl⟩ := h
      refine ⟨⟨x, hq, hB⟩, fun j a ha => ?_⟩
      simp only [addrs]
      rw [show 0 + 1 + j = j + 1 by omega, List.getElem?_cons_succ, List.getElem?_append_left (lt ha)]
      exact ha
    | succ i =>
      simp only [occ, List.getElem?_cons_succ] at h
      rw [List.getElem?_append] at h
      split at h
      · obtain ⟨h1, h2⟩ := ihb (p := q') (k := 0) h
        refine ⟨h1, fun j a ha => ?_⟩
        have := h2 j a ha
        simp only [addrs]
        rw [show i + 1 + 1 + j = (i + 1 + j) + 1 by omega, List.getElem?_cons_succ, List.getElem?_append_left (lt this)]
        exact this
      · obtain ⟨h1, h2⟩ := iht (p := p) (k := k + 1) h
        refine ⟨h1, fun j a ha => ?_⟩
        have := h2 j a ha
        simp only [addrs]
        rw [show i + 1 + 1 + j = (i + 1 + j) + 1 by omega, List.getElem?_cons_succ,
          List.getElem?_append_right (by omega)]
        rw [show i + 1 + j - (addrs q' 0 b).length = i - (occ b).length + 1 + j by omega]
        exact this

theorem MITLid_leaf {ph : List Phase} {fuel start : Nat} {a : Addr} {n : Id} {u : Option Id} : ∀ (ts : List Id) (e : Nat),
    MITLid ph fuel start ts (some (a, .leaf n u)) e = .ok (some (a, .leaf n u), e + ts.length) := by
  intro ts
  induction ts with
  | nil => intro e; rfl
  | cons t ts ih => intro e; rw [MITLid, ih]; simp; omega; intro q h; cases h

theorem denotes_unique {T : Tree} {ts : List Id} {i : Nat} {x : Item} (h1 : Denotes T ts i x) :
    ∀ {j y}, Denotes T ts j y → i = j ∧ x = y := by
  induction h1 with
  | here h =>
    intro j y h2
    cases h2 with
    | here h' => exact first_unique h h'
  | deep h _ ih =>
    intro j y h2
    cases h2 with
    | deep h' hd =>
      obtain ⟨rfl, e⟩ := first_unique h h'
      cases e
      obtain ⟨rfl, rfl⟩ := ih hd
      exact ⟨rfl, rfl⟩

/-- The loop of `MITLid` from a phase on. -/
def walk (ph : List Phase) (fuel start p : Nat) (t : Id) (ts : List Id) : Res (Last × Nat) := do
  let last ← MITLiactions ph t fuel p 0 none
  if last.isSome then MITLid ph fuel start ts last 0 else .ok (last, 0)

theorem walk_spec {ph : List Phase} {fuel start : Nat} : ∀ {ts : List Id} {p : Nat} {t : Id} {x : Phase} {T : Tree}
    {r : Last × Nat}, ph[p]? = some x → Unfolds ph x.actions T → walk ph fuel start p t ts = .ok r →
    (∃ i y a, Denotes T (t :: ts) i y ∧ (addrs p 0 T)[i]? = some a ∧ r = (some (a, refOf y), 0)) ∨
    ((r.1 = none ∨ r.2 ≠ 0) ∧ ∀ i y, ¬ Denotes T (t :: ts) i y) := by
  intro ts
  induction ts with
  | nil =>
    intro p t x T r hx hU h
    simp only [walk, Res.bind_eq_ok] at h
    obtain ⟨l, e1, e2⟩ := h
    rcases MITL_spec (by rw [suffix_zero hx]; exact hU) e1 with ⟨rfl, h2⟩ | ⟨i, y, a, h1, h2, rfl⟩
    · cases e2
      refine .inr ⟨.inl rfl, fun i y hd => ?_⟩
      cases hd with
      | here hf => exact none_answers h2 _ _ hf
    · cases e2
      exact .inl ⟨i, y, a, .here h1, h2, rfl⟩
  | cons t' ts ih =>
    intro p t x T r hx hU h
    simp only [walk, Res.bind_eq_ok] at h
    obtain ⟨l, e1, e2⟩ := h
    rcases MITL_spec (by rw [suffix_zero hx]; exact hU) e1 with ⟨rfl, h2⟩ | ⟨i, y, a, h1, h2, rfl⟩
    · cases e2
      refine .inr ⟨.inl rfl, fun i y hd => ?_⟩
      cases hd with
      | deep hf => exact none_answers h2 _ _ hf
    · simp only [Option.isSome_some, if_true] at e2
      cases y with
      | leaf n u =>
        simp only [refOf] at e2
        rw [MITLid_leaf] at e2
        cases e2
        refine .inr ⟨.inr (by simp), fun j z hd => ?_⟩
        cases hd with
        | deep hf => exact absurd (first_unique h1 hf).2 (by simp)
      | phase q n u body =>
        obtain ⟨⟨x', hx', hU'⟩, hA⟩ := occ_phase hU (p := p) (k := 0) h1.1
        simp only [refOf] at e2
        rw [MITLid] at e2
        rcases ih hx' hU' e2 with ⟨j, z, a', d1, d2, d3⟩ | ⟨d1, d2⟩
        · exact .inl ⟨i + 1 + j, z, a', .deep h1 d1, hA j a' d2, d3⟩
        · refine .inr ⟨d1, fun j z hd => ?_⟩
          cases hd with
          | deep hf hd =>
            obtain ⟨_, e⟩ := first_unique h1 hf
            cases e
            exact d2 _ _ hd

/-- The item a target denotes occurs in the tree. -/
theorem denotes_occ {ph : List Phase} {T : Tree} {ts : List Id} {i : Nat} {y : Item} (hd : Denotes T ts i y) :
    ∀ {rs : List Ref} {p k : Nat}, Unfolds ph rs T → ∀ {q n u body}, y = .phase q n u body →
    (∃ x, ph[q]? = some x ∧ Unfolds ph x.actions body) ∧
    ∀ (j : Nat) a, (addrs q 0 body)[j]? = some a → (addrs p k T)[i + 1 + j]? = some a := by
  induction hd with
  | here hf => intro rs p k hU q n u body e; subst e; exact occ_phase hU hf.1
  | @deep T t u ts i j q n v body y hf _ ih =>
    intro rs p k hU q' n' u' body' e
    obtain ⟨⟨x, _, hB⟩, hA⟩ := occ_phase hU (p := p) (k := k) hf.1
    obtain ⟨h1, h2⟩ := ih (p := q) (k := 0) hB e
    refine ⟨h1, fun j' a ha => ?_⟩
    have := hA _ a (h2 j' a ha)
    rw [show i + 1 + j + 1 + j' = i + 1 + (j + 1 + j') by omega]
    exact this

/-- The last direct action of a phase in pre-order. -/
theorem last_addr {ph : List Phase} {rs : List Ref} {T : Tree} (hU : Unfolds ph rs T) : ∀ {p k n : Nat}, rs.length = n + 1 →
    ∃ j, (addrs p k T)[j]? = some (p, k + n) ∧ j + 1 + belowLast T = size T := by
  induction hU with
  | nil => intro p k n h; simp at h
  | @leaf n' u' rs T hU ih =>
    intro p k n h
    cases n with
    | zero =>
      simp only [List.length_cons, Nat.add_right_cancel_iff, List.length_eq_zero_iff] at h
      subst h; cases hU
      exact ⟨0, by simp [addrs], by simp [belowLast, size, occ]⟩
    | succ n =>
      obtain ⟨j, h1, h2⟩ := ih (p := p) (k := k + 1) (n := n) (by simpa using h)
      refine ⟨j + 1, by simp only [addrs, List.getElem?_cons_succ, h1]; congr 2; omega, ?_⟩
      have hb : belowLast (.leaf n' u' T) = belowLast T := by
        cases T with
        | nil => simp [size, occ] at h2
        | leaf => rfl
        | phase => rfl
      rw [hb]; simp only [size, occ, List.length_cons] at *; omega
  | @phase q x rs b T hq hB hU ihb iht =>
    intro p k n h
    have hbl : (addrs q 0 b).length = size b := addrs_length q 0 b
    cases n with
    | zero =>
      simp only [List.length_cons, Nat.add_right_cancel_iff, List.length_eq_zero_iff] at h
      subst h; cases hU
      exact ⟨0, by simp [addrs], by simp [belowLast, size, occ]; omega⟩
    | succ n =>
      obtain ⟨j, h1, h2⟩ := iht (p := p) (k := k + 1) (n := n) (by simpa using h)
      refine ⟨size b + j + 1, ?_, ?_⟩
      · simp only [addrs, List.getElem?_cons_succ]
        rw [List.getElem?_append_right (by omega), hbl, show size b + j - size b = j by omega, h1]
        congr 2; omega
      · have hb : belowLast (.phase q x.name x.uid b T) = belowLast T := by
          cases T with
          | nil => simp [size, occ] at h2
          | leaf => rfl
          | phase => rfl
        rw [hb]; simp only [size, occ, List.length_cons, List.length_append] at *; omega

/-- Resolving a target: it is found exactly if it denotes something, and the numbers are those of the fields. -/
theorem range_spec {ph : List Phase} {fuel start : Nat} {x : Phase} {T : Tree} {ids : Addr → Nat} {t : Id} {ts : List Id}
    {r : Option Nums} (hx : ph[start]? = some x) (hU : Unfolds ph x.actions T)
    (hI : ∀ (i : Nat) a, (addrs start 0 T)[i]? = some a → ids a = i + 2)
    (h : MITLlifetime_range ph ids fuel start (t :: ts) = .ok r) :
    (∃ i y nums, Denotes T (t :: ts) i y ∧ r = some nums ∧ nums.id = i + 2 ∧
      (∀ n u, y = .leaf n u → nums.next = i + 3) ∧
      (∀ q n u body, y = .phase q n u body → nums.next + belowLast body = i + 3 + size body)) ∨
    (r = none ∧ ∀ i y, ¬ Denotes T (t :: ts) i y) := by
  simp only [MITLlifetime_range, Res.bind_eq_ok] at h
  obtain ⟨w, e1, e2⟩ := h
  rw [MITLid] at e1
  rcases walk_spec hx hU e1 with ⟨i, y, a, d1, d2, rfl⟩ | ⟨d1, d2⟩
  · refine .inl ?_
    cases y with
    | leaf n u =>
      simp only [refOf, if_true, Res.ok.injEq] at e2
      subst e2
      have := hI i a d2
      exact ⟨i, _, _, d1, rfl, this, fun _ _ _ => by simp only; omega, fun _ _ _ _ e => by cases e⟩
    | phase q n u body =>
      obtain ⟨⟨x', hx', hU'⟩, hA⟩ := denotes_occ d1 (p := start) (k := 0) hU rfl
      simp only [refOf, hx', if_true] at e2
      split at e2
      · cases e2
      · rename_i m hm
        cases e2
        obtain ⟨j, l1, l2⟩ := last_addr hU' (p := q) (k := 0) hm
        have e := hI _ _ (hA j _ l1)
        rw [Nat.zero_add] at e
        refine ⟨i, _, _, d1, rfl, hI i a d2, (fun _ _ e => by cases e), ?_⟩
        intro q' n' u' body' e'
        cases e'
        simp only
        omega
  · refine .inr ⟨?_, d2⟩
    obtain ⟨l, e⟩ := w
    rcases d1 with d1 | d1
    · simp only at d1
      subst d1
      simp only [Res.ok.injEq] at e2
      exact e2.symm
    · simp only at d1
      simp only [d1, if_false] at e2
      split at e2
      · exact (Res.ok.inj e2).symm
      · split at e2
        · cases e2
        · split at e2
          · cases e2
          · exact (Res.ok.inj e2).symm
      · exact (Res.ok.inj e2).symm

/-! ## Enough fuel -/

theorem AITA_total {ph : List Phase} : ∀ {fuel p k : Nat} {T : Tree} (s : Num), Unfolds ph (suffix ph p k) T →
    size T < fuel → ∃ s', AITAiactions ph fuel p k s = .ok s' := by
  intro fuel
  induction fuel with
  | zero => intro p k T s _ h; omega
  | succ f ih =>
    intro p k T s hU hf
    rw [AITAiactions, actionAt_suffix]
    generalize hs : suffix ph p k = rs at hU
    cases hU with
    | nil => exact ⟨s, rfl⟩
    | @leaf n u rs t hU =>
      simp only [List.getElem?_cons_zero]
      exact ih _ (suffix_tail hs ▸ hU) (by simp only [size, occ, List.length_cons] at *; omega)
    | @phase q x rs b t hq hB hU =>
      simp only [List.getElem?_cons_zero]
      simp only [size, occ, List.length_cons, List.length_append] at hf
      obtain ⟨s1, e1⟩ := ih (s.assign (p, k)) (suffix_zero hq ▸ hB) (by simp only [size]; omega)
      rw [e1, Res.bind_ok]
      exact ih _ (suffix_tail hs ▸ hU) (by simp only [size]; omega)

theorem MITL_total {ph : List Phase} {t : Id} : ∀ {fuel p k : Nat} {T : Tree} (l : Last), Unfolds ph (suffix ph p k) T →
    size T < fuel → ∃ l', MITLiactions ph t fuel p k l = .ok l' := by
  intro fuel
  induction fuel with
  | zero => intro p k T s _ h; omega
  | succ f ih =>
    intro p k T l hU hf
    rw [MITLiactions, actionAt_suffix]
    generalize hs : suffix ph p k = rs at hU
    cases hU with
    | nil => exact ⟨l, rfl⟩
    | @leaf n u rs t hU =>
      simp only [List.getElem?_cons_zero]
      split
      · exact ⟨_, rfl⟩
      · split
        · exact ih _ (suffix_tail hs ▸ hU) (by simp only [size, occ, List.length_cons] at *; omega)
        · exact ⟨_, rfl⟩
    | @phase q x rs b t hq hB hU =>
      simp only [List.getElem?_cons_zero, hq]
      simp only [size, occ, List.length_cons, List.length_append] at hf
      split
      · exact ⟨_, rfl⟩
      · obtain ⟨l1, e1⟩ := ih l (suffix_zero hq ▸ hB) (by simp only [size]; omega)
        rw [e1, Res.bind_ok]
        split
        · exact ih _ (suffix_tail hs ▸ hU) (by simp only [size]; omega)
        · exact ⟨_, rfl⟩

/-- A bound on the sizes of all phases. -/
theorem size_bound {ph qs : List Phase} (h : ∀ x ∈ qs, ∃ T, Unfolds ph x.actions T) :
    ∃ N, ∀ x ∈ qs, ∃ T, Unfolds ph x.actions T ∧ size T < N := by
  induction qs with
  | nil => exact ⟨0, by simp⟩
  | cons x qs ih =>
    obtain ⟨N, hN⟩ := ih (fun y hy => h y (List.mem_cons_of_mem _ hy))
    obtain ⟨T, hT⟩ := h x List.mem_cons_self
    refine ⟨N + size T + 1, ?_⟩
    intro y hy
    rcases List.mem_cons.mp hy with rfl | hy
    · exact ⟨T, hT, by omega⟩
    · obtain ⟨T', h1, h2⟩ := hN y hy
      exact ⟨T', h1, by omega⟩

theorem AITAiphase_total {ph : List Phase} {fuel : Nat} (h : ∀ x ∈ ph, ∃ T, Unfolds ph x.actions T ∧ size T < fuel) :
    ∀ {n p : Nat} (s : Num), p + n ≤ ph.length → ∃ s', AITAiphase ph fuel n p s = .ok s' := by
  intro n
  induction n with
  | zero => intro p s _; exact ⟨s, rfl⟩
  | succ n ih =>
    intro p s hp
    have hx := List.getElem?_eq_getElem (l := ph) (i := p) (by omega)
    obtain ⟨T, h1, h2⟩ := h _ (List.mem_of_getElem? hx)
    obtain ⟨s1, e1⟩ := AITA_total s (by rw [suffix_zero hx]; exact h1) h2
    rw [AITAiphase, e1, Res.bind_ok]
    exact ih s1 (by omega)

/-- The state of a search is nothing, a pass or traversal, or an existing phase. -/
def GoodLast (ph : List Phase) : Last → Prop
  | some (_, .phase q) => ∃ x, ph[q]? = some x
  | some (_, .leaf _ _) => True
  | some _ => False
  | none => True

theorem MITLid_total {ph : List Phase} {fuel start : Nat} {x : Phase} (hs : ph[start]? = some x)
    (h : ∀ x ∈ ph, ∃ T, Unfolds ph x.actions T ∧ size T < fuel) : ∀ (ts : List Id) (l : Last) (e : Nat), GoodLast ph l →
    ∃ r, MITLid ph fuel start ts l e = .ok r ∧ GoodLast ph r.1 := by
  have search : ∀ (t : Id) (p : Nat) (y : Phase), ph[p]? = some y →
      ∃ l', MITLiactions ph t fuel p 0 none = .ok l' ∧ GoodLast ph l' := by
    intro t p y hy
    obtain ⟨T, h1, h2⟩ := h _ (List.mem_of_getElem? hy)
    have hU : Unfolds ph (suffix ph p 0) T := by rw [suffix_zero hy]; exact h1
    obtain ⟨l', e⟩ := MITL_total (t := t) none hU h2
    refine ⟨l', e, ?_⟩
    rcases MITL_spec hU e with ⟨rfl, _⟩ | ⟨i, z, a, hf, _, rfl⟩
    · trivial
    · cases z with
      | leaf n u => trivial
      | phase q n u b =>
        obtain ⟨⟨w, hw, _⟩, _⟩ := occ_phase hU (p := 0) (k := 0) hf.1
        exact ⟨w, hw⟩
  intro ts
  induction ts with
  | nil => intro l e hg; exact ⟨(l, e), rfl, hg⟩
  | cons t ts ih =>
    intro l e hg
    match l, hg with
    | none, _ =>
      rw [MITLid]
      obtain ⟨l', e', hg'⟩ := search t start x hs
      rw [e', Res.bind_ok]
      split
      · exact ih l' e hg'
      · exact ⟨_, rfl, hg'⟩
    | some (a, .phase q), ⟨y, hy⟩ =>
      rw [MITLid]
      obtain ⟨l', e', hg'⟩ := search t q y hy
      rw [e', Res.bind_ok]
      split
      · exact ih l' e hg'
      · exact ⟨_, rfl, hg'⟩
    | some (a, .leaf n u), _ => exact ⟨_, MITLid_leaf _ _, trivial⟩

/-- Resolving ends, and does not leave defined behaviour, if all phases unfold and have actions. -/
theorem range_total {ph : List Phase} {fuel start : Nat} {x : Phase} (hs : ph[start]? = some x)
    (h : ∀ x ∈ ph, ∃ T, Unfolds ph x.actions T ∧ size T < fuel) (hne : ∀ x ∈ ph, x.actions ≠ []) (ids : Addr → Nat)
    (ts : List Id) : ∃ r, MITLlifetime_range ph ids fuel start ts = .ok r := by
  obtain ⟨⟨l, e⟩, h1, h2⟩ := MITLid_total hs h ts none 0 trivial
  simp only at h2
  rw [MITLlifetime_range, h1, Res.bind_ok]
  match l, h2 with
  | none, _ => exact ⟨_, rfl⟩
  | some (a, .leaf n u), _ => exact ⟨_, rfl⟩
  | some (a, .phase q), ⟨y, hy⟩ =>
    simp only [hy]
    have := hne y (List.mem_of_getElem? hy)
    cases ha : y.actions with
    | nil => exact absurd ha this
    | cons r rs => exact ⟨_, rfl⟩

/-! ## The running compiler -/

/-- A phase is followed by its own occurrences. -/
theorem occ_body {T : Tree} : ∀ {i q n u body}, (occ T)[i]? = some (.phase q n u body) →
    ∀ j < size body, (occ T)[i + 1 + j]? = (occ body)[j]? := by
  induction T with
  | nil => intro i q n u body h; simp [occ] at h
  | leaf n' u' t ih =>
    intro i q n u body h j hj
    cases i with
    | zero => simp [occ] at h
    | succ i =>
      simp only [occ, List.getElem?_cons_succ] at h
      rw [show i + 1 + 1 + j = (i + 1 + j) + 1 by omega]
      simp only [occ, List.getElem?_cons_succ]
      exact ih h j hj
  | phase q' n' u' b t ihb iht =>
    intro i q n u body h j hj
    cases i with
    | zero =>
      simp only [occ, List.getElem?_cons_zero, Option.some.injEq, Item.phase.injEq] at h
      obtain ⟨_, _, _, rfl⟩ := h
      rw [show 0 + 1 + j = j + 1 by omega]
      simp only [occ, List.getElem?_cons_succ]
      exact List.getElem?_append_left hj
    | succ i =>
      simp only [occ, List.getElem?_cons_succ] at h
      rw [show i + 1 + 1 + j = (i + 1 + j) + 1 by omega]
      simp only [occ, List.getElem?_cons_succ]
      rw [List.getElem?_append] at h
      split at h
      · have e := ihb h j hj
        have hl : i + 1 + j < (occ b).length := by
          rcases Nat.lt_or_ge (i + 1 + j) (occ b).length with h' | h'
          · exact h'
          · rw [List.getElem?_eq_none h'] at e
            have := List.getElem?_eq_getElem (l := occ body) hj
            rw [← e] at this; cases this
        rw [List.getElem?_append_left hl]; exact e
      · rw [List.getElem?_append_right (by omega), show i + 1 + j - (occ b).length = i - (occ b).length + 1 + j by omega]
        exact iht h j hj

theorem denotes_get {T : Tree} {ts : List Id} {i : Nat} {y : Item} (hd : Denotes T ts i y) : (occ T)[i]? = some y := by
  induction hd with
  | here hf => exact hf.1
  | @deep T t u ts i j q n v body y hf _ ih =>
    have hj : j < size body := by
      rcases Nat.lt_or_ge j (occ body).length with h | h
      · exact h
      · rw [List.getElem?_eq_none h] at ih; cases ih
    rw [occ_body hf.1 j hj]; exact ih

/-- The occurrences of the running compiler are those of the tree. -/
theorem runs_occ {ι : Type} {T : Tree} {a : Verif.PD.Acts ι} (h : Runs T a) :
    (Verif.Spec.PD.pre a).length = size T ∧
    ∀ (i : Nat) y, (occ T)[i]? = some y → ∃ z, (Verif.Spec.PD.pre a)[i]? = some z ∧ z.name = y.name.orig := by
  induction h with
  | nil => exact ⟨rfl, by simp [occ]⟩
  | leaf _ ih =>
    refine ⟨by simp only [Verif.Spec.PD.pre, size, occ, List.length_cons, ih.1], ?_⟩
    intro i y h
    cases i with
    | zero =>
      simp only [occ, List.getElem?_cons_zero, Option.some.injEq] at h
      subst h; exact ⟨_, rfl, rfl⟩
    | succ i => exact ih.2 i y (by simpa [occ] using h)
  | @phase q n u b t g c b' a _ _ ihb iht =>
    have hl := ihb.1
    refine ⟨?_, ?_⟩
    · simp only [Verif.Spec.PD.pre, size, occ, List.length_cons, List.length_append, hl, iht.1]
    · intro i y h
      cases i with
      | zero =>
        simp only [occ, List.getElem?_cons_zero, Option.some.injEq] at h
        subst h; exact ⟨_, rfl, rfl⟩
      | succ i =>
        simp only [occ, List.getElem?_cons_succ, Verif.Spec.PD.pre] at h ⊢
        rw [size] at hl
        rw [List.getElem?_append] at h ⊢
        rw [hl]
        split at h
        · rename_i hi; rw [if_pos hi]; exact ihb.2 i y h
        · rename_i hi; rw [if_neg hi]; exact iht.2 _ y h

/-! ## The generated check -/

theorem inside_iff (l : Lifetime) (i : Nat) : (inside l).all (Cmp.eval i) = true ↔ InRange l.begin l.fin i := by
  obtain ⟨k, b, f⟩ := l
  unfold inside InRange
  simp only [List.all_append, Bool.and_eq_true]
  refine and_congr ?_ ?_
  · cases b with
    | none => simp
    | some r =>
      obtain ⟨inc, n⟩ := r
      cases inc <;> simp [Cmp.eval]
  · cases f with
    | none => simp
    | some r =>
      obtain ⟨inc, n⟩ := r
      cases inc <;> simp [Cmp.eval]

theorem outside_iff (l : Lifetime) (i : Nat) : (outside l).any (Cmp.eval i) = true ↔ ¬ InRange l.begin l.fin i := by
  rw [← inside_iff]
  obtain ⟨k, b, f⟩ := l
  unfold inside outside
  simp only [List.any_append, List.all_append, Bool.or_eq_true, Bool.and_eq_true]
  rw [Decidable.not_and_iff_not_or_not]
  refine or_congr ?_ ?_
  · cases b with
    | none => simp
    | some r =>
      obtain ⟨inc, n⟩ := r
      cases inc <;> simp [Cmp.eval]
  · cases f with
    | none => simp
    | some r =>
      obtain ⟨inc, n⟩ := r
      cases inc <;> simp [Cmp.eval]

theorem inRange_none (i : Nat) : InRange none none i := by
  refine ⟨?_, ?_⟩ <;> (intro r h; cases h)

/-- The statements of one lifetime of a field report exactly what the lifetime forbids. -/
theorem fieldGen_iff (l : Lifetime) (i : Nat) (present : Bool) :
    (∃ s ∈ fieldGen l, s.run i present = true) ↔ Forbids l i present := by
  obtain ⟨k, b, f⟩ := l
  have hi := inside_iff ⟨k, b, f⟩ i
  have ho := outside_iff ⟨k, b, f⟩ i
  by_cases hc : b = none ∧ f = none
  · obtain ⟨rfl, rfl⟩ := hc
    have hn := inRange_none i
    cases k <;> cases present <;> simp [fieldGen, Forbids, Stmt.run, hn]
  · have hc' : (b.isNone && f.isNone) = false := by
      cases b <;> cases f <;> simp_all
    cases k <;> simp only [fieldGen, hc', Forbids, Bool.false_eq_true, if_false, List.mem_singleton, exists_eq_left, Stmt.run,
      if_true, Bool.and_eq_true, beq_iff_eq, hi, ho] <;> cases present <;> simp

/-- The statements of one lifetime of a node report exactly what the lifetime forbids. -/
theorem nodeGen_iff {l : Lifetime} {ss : List Stmt} (h : nodeGen l = .ok ss) (i : Nat) :
    (∃ s ∈ ss, s.run i true = true) ↔ Forbids l i true := by
  obtain ⟨k, b, f⟩ := l
  have hi := inside_iff ⟨k, b, f⟩ i
  have ho := outside_iff ⟨k, b, f⟩ i
  cases k with
  | mandatory => simp [nodeGen] at h
  | optional => simp [nodeGen] at h
  | disallowed =>
    simp only [nodeGen, Res.ok.injEq] at h
    subst h
    simp only [Forbids, List.mem_singleton, exists_eq_left, Stmt.run, if_true, Bool.and_true, hi, and_true]
  | allowed =>
    simp only [nodeGen, Res.ok.injEq] at h
    subst h
    by_cases hc : b = none ∧ f = none
    · obtain ⟨rfl, rfl⟩ := hc
      have hn := inRange_none i
      simp [Forbids, hn]
    · have hc' : (b.isNone && f.isNone) = false := by
        cases b <;> cases f <;> simp_all
      simp only [hc', Forbids, Bool.false_eq_true, if_false, List.mem_singleton, exists_eq_left, Stmt.run, Bool.and_true,
        ho, and_true]

/-- The number of errors of a list of statements is positive exactly if one of them reports. -/
theorem mem_reports {ss : List Stmt} {i : Nat} {b : Bool} {α : Type} {r x : α} :
    x ∈ (ss.filter (Stmt.run i b)).map (fun _ => r) ↔ x = r ∧ ∃ s ∈ ss, s.run i b = true := by
  simp only [List.mem_map, List.mem_filter]
  constructor
  · rintro ⟨s, ⟨h1, h2⟩, rfl⟩; exact ⟨rfl, s, h1, h2⟩
  · rintro ⟨rfl, s, h1, h2⟩; exact ⟨s, ⟨h1, h2⟩, rfl⟩

theorem fieldLifetimes_iff {ls : List Lifetime} (h : ls.length ≤ 1) (i : Nat) (b : Bool) :
    (∃ s ∈ fieldLifetimes ls, s.run i b = true) ↔ ∃ l ∈ ls, Forbids l i b := by
  cases ls with
  | nil => simp [fieldLifetimes]
  | cons l ls =>
    have : ls = [] := by
      cases ls with
      | nil => rfl
      | cons _ _ => simp at h
    subst this
    simp only [fieldLifetimes, fieldGen_iff, List.mem_singleton, exists_eq_left]

theorem nodeLifetimes_iff {ls : List Lifetime} {ss : List Stmt} (h : ls.length ≤ 1) (hg : nodeLifetimes ls = .ok ss)
    (i : Nat) : (∃ s ∈ ss, s.run i true = true) ↔ ∃ l ∈ ls, Forbids l i true := by
  cases ls with
  | nil => cases hg; simp
  | cons l ls =>
    have : ls = [] := by
      cases ls with
      | nil => rfl
      | cons _ _ => simp at h
    subst this
    simp only [nodeLifetimes] at hg
    simp only [nodeGen_iff hg, List.mem_singleton, exists_eq_left]

theorem mem_chkChildren {i : Nat} {r : Report} : ∀ {cs : List (List Nat × List Stmt)} {xs : List (Option Node)} {k : Nat},
    r ∈ chkChildren i k cs xs ↔ ∃ (j : Nat) (c : List Nat × List Stmt) (x : Option Node), cs[j]? = some c ∧
      xs[j]? = some x ∧
      ((r = .type (k + j) ∧ ∃ n, x = some n ∧ n.ty ∉ c.1) ∨ (r = .child (k + j) ∧ ∃ s ∈ c.2, s.run i x.isSome = true)) := by
  intro cs
  induction cs with
  | nil => intro xs k; simp [chkChildren]
  | cons c cs ih =>
    intro xs k
    cases xs with
    | nil => simp [chkChildren]
    | cons x xs =>
      simp only [chkChildren, List.mem_append, mem_reports, ih]
      constructor
      · rintro ((h | h) | ⟨j, c', x', h1, h2, h3⟩)
        · refine ⟨0, c, x, rfl, rfl, .inl ?_⟩
          cases x with
          | none => simp at h
          | some n =>
            simp only at h
            split at h
            · simp at h
            · rename_i hn
              simp only [List.mem_singleton] at h
              exact ⟨by simp [h], n, rfl, fun hm => hn (by simpa using hm)⟩
        · exact ⟨0, c, x, rfl, rfl, .inr ⟨by simp [h.1], h.2⟩⟩
        · refine ⟨j + 1, c', x', by simpa using h1, by simpa using h2, ?_⟩
          rw [show k + (j + 1) = k + 1 + j by omega]; exact h3
      · rintro ⟨j, c', x', h1, h2, h3⟩
        cases j with
        | zero =>
          simp only [List.getElem?_cons_zero, Option.some.injEq] at h1 h2
          subst h1 h2
          left
          rcases h3 with ⟨h, n, rfl, hn⟩ | h
          · left
            simp [hn, h]
          · right; exact ⟨by simp [h.1], h.2⟩
        | succ j =>
          right
          refine ⟨j, c', x', by simpa using h1, by simpa using h2, ?_⟩
          rw [show k + 1 + j = k + (j + 1) by omega]; exact h3

theorem mem_chkAttrs {i : Nat} {r : Report} : ∀ {cs : List (List Stmt)} {xs : List Bool} {k : Nat},
    r ∈ chkAttrs i k cs xs ↔ ∃ (j : Nat) (c : List Stmt) (x : Bool), cs[j]? = some c ∧ xs[j]? = some x ∧
      r = .attr (k + j) ∧ ∃ s ∈ c, s.run i x = true := by
  intro cs
  induction cs with
  | nil => intro xs k; simp [chkAttrs]
  | cons c cs ih =>
    intro xs k
    cases xs with
    | nil => simp [chkAttrs]
    | cons x xs =>
      simp only [chkAttrs, List.mem_append, mem_reports, ih]
      constructor
      · rintro (h | ⟨j, c', x', h1, h2, h3⟩)
        · exact ⟨0, c, x, rfl, rfl, by simp [h.1], h.2⟩
        · refine ⟨j + 1, c', x', by simpa using h1, by simpa using h2, ?_⟩
          rw [show k + (j + 1) = k + 1 + j by omega]; exact h3
      · rintro ⟨j, c', x', h1, h2, h3⟩
        cases j with
        | zero =>
          simp only [List.getElem?_cons_zero, Option.some.injEq] at h1 h2
          subst h1 h2
          left
          exact ⟨by simp [h3.1], h3.2⟩
        | succ j =>
          right
          refine ⟨j, c', x', by simpa using h1, by simpa using h2, ?_⟩
          rw [show k + 1 + j = k + (j + 1) by omega]; exact h3

/-- One call of a generated function reports exactly what is wrong with its node. -/
theorem chkNode_iff {d : NodeDecl} {c : Chk} (hs : Single d) (hg : genNode d = .ok c) (i : Nat)
    (kids : List (Option Node)) (attrs : List Bool) (r : Report) :
    r ∈ chkNode i c kids attrs ↔ Wrong d i kids attrs r := by
  simp only [genNode, Res.bind_eq_ok, Res.ok.injEq] at hg
  obtain ⟨ss, h1, rfl⟩ := hg
  simp only [chkNode, List.mem_append, mem_chkChildren, mem_chkAttrs, mem_reports, nodeLifetimes_iff hs.1 h1]
  simp only [Nat.zero_add, List.getElem?_map, Option.map_eq_some_iff]
  constructor
  · rintro ((⟨j, _, x, ⟨c, hc, rfl⟩, hx, h⟩ | ⟨j, _, x, ⟨ls, hc, rfl⟩, hx, rfl, h⟩) | ⟨rfl, h⟩)
    · rcases h with ⟨rfl, n, rfl, hn⟩ | ⟨rfl, h⟩
      · exact ⟨c, n, hc, hx, hn⟩
      · exact ⟨c, x, hc, hx, (fieldLifetimes_iff (hs.2.1 c (List.mem_of_getElem? hc)) i _).mp h⟩
    · exact ⟨ls, x, hc, hx, (fieldLifetimes_iff (hs.2.2 ls (List.mem_of_getElem? hc)) i _).mp h⟩
    · exact h
  · intro h
    cases r with
    | node => exact .inr ⟨rfl, h⟩
    | child k =>
      obtain ⟨c, x, hc, hx, h⟩ := h
      exact .inl (.inl ⟨k, _, x, ⟨c, hc, rfl⟩, hx, .inr ⟨rfl,
        (fieldLifetimes_iff (hs.2.1 c (List.mem_of_getElem? hc)) i _).mpr h⟩⟩)
    | type k =>
      obtain ⟨c, n, hc, hx, hn⟩ := h
      exact .inl (.inl ⟨k, _, some n, ⟨c, hc, rfl⟩, hx, .inl ⟨rfl, n, rfl, hn⟩⟩)
    | attr k =>
      obtain ⟨ls, x, hc, hx, h⟩ := h
      exact .inl (.inr ⟨k, _, x, ⟨ls, hc, rfl⟩, hx, rfl,
        (fieldLifetimes_iff (hs.2.2 ls (List.mem_of_getElem? hc)) i _).mpr h⟩)

theorem genAll_get {ds : List NodeDecl} : ∀ {cs : List Chk}, genAll ds = .ok cs →
    cs.length = ds.length ∧ ∀ (t : Nat) d, ds[t]? = some d → ∃ c, cs[t]? = some c ∧ genNode d = .ok c := by
  induction ds with
  | nil => intro cs h; cases h; simp
  | cons d ds ih =>
    intro cs h
    simp only [genAll, Res.bind_eq_ok, Res.ok.injEq] at h
    obtain ⟨c, h1, cs', h2, rfl⟩ := h
    obtain ⟨l, ih⟩ := ih h2
    refine ⟨by simp [l], ?_⟩
    intro t d' ht
    cases t with
    | zero => simp only [List.getElem?_cons_zero, Option.some.injEq] at ht; subst ht; exact ⟨c, rfl, h1⟩
    | succ t => simpa using ih t d' (by simpa using ht)

mutual
/-- The check of a whole tree reports exactly what the calls for its nodes report. -/
theorem mem_chk {i : Nat} {cs : List Chk} : ∀ (n : Node) {rs : List Report}, chk i cs n = .ok rs → ∀ r,
    r ∈ rs ↔ ∃ m ty kids attrs c, Within m n ∧ m = Node.mk ty kids attrs ∧ cs[ty]? = some c ∧
      r ∈ chkNode i c kids.list attrs
  | .mk ty kids attrs, rs, h, r => by
    rw [chk] at h
    split at h
    · cases h
    · rename_i c hc
      simp only [Res.bind_eq_ok, Res.ok.injEq] at h
      obtain ⟨rest, h1, rfl⟩ := h
      rw [List.mem_append, mem_chkKids kids h1 r]
      constructor
      · rintro (h | ⟨k, m, ty', kids', attrs', c', hk, hw, e, hc', hr⟩)
        · exact ⟨_, ty, kids, attrs, c, .refl, rfl, hc, h⟩
        · exact ⟨m, ty', kids', attrs', c', .step hk hw rfl, e, hc', hr⟩
      · rintro ⟨m, ty', kids', attrs', c', hw, e, hc', hr⟩
        cases hw with
        | refl =>
          cases e
          rw [hc] at hc'
          cases hc'
          exact .inl hr
        | step hk hw e' =>
          cases e'
          exact .inr ⟨_, m, ty', kids', attrs', c', hk, hw, e, hc', hr⟩
theorem mem_chkKids {i : Nat} {cs : List Chk} : ∀ (ks : Kids) {rs : List Report}, chkKids i cs ks = .ok rs → ∀ r,
    r ∈ rs ↔ ∃ k m ty kids attrs c, some k ∈ ks.list ∧ Within m k ∧ m = Node.mk ty kids attrs ∧ cs[ty]? = some c ∧
      r ∈ chkNode i c kids.list attrs
  | .nil, rs, h, r => by
    cases h
    simp [Kids.list]
  | .none ks, rs, h, r => by
    rw [chkKids] at h
    rw [mem_chkKids ks h r]
    simp [Kids.list]
  | .some n ks, rs, h, r => by
    rw [chkKids] at h
    simp only [Res.bind_eq_ok, Res.ok.injEq] at h
    obtain ⟨a, h1, b, h2, rfl⟩ := h
    rw [List.mem_append, mem_chk n h1 r, mem_chkKids ks h2 r]
    simp only [Kids.list, List.mem_cons, Option.some.injEq]
    constructor
    · rintro (⟨m, ty, kids, attrs, c, h⟩ | ⟨k, m, ty, kids, attrs, c, h, h'⟩)
      · exact ⟨n, m, ty, kids, attrs, c, .inl rfl, h⟩
      · exact ⟨k, m, ty, kids, attrs, c, .inr h, h'⟩
    · rintro ⟨k, m, ty, kids, attrs, c, rfl | h, h'⟩
      · exact .inl ⟨m, ty, kids, attrs, c, h'⟩
      · exact .inr ⟨k, m, ty, kids, attrs, c, h, h'⟩
end

end Verif.Life
