import Verif.Spec.Partition
import Verif.Lemmas.Graph
import Verif.Lemmas.Queue

/-!
# Lemmas about partitions and visits
-/

namespace Verif.Partition
open Verif.Graph Verif.Queue Verif.Spec.Graph Verif.Spec.Partition

theorem own_owner {g : Graph} {t i : Nat} : owner g i = some t ↔ Own g t i := by
  unfold owner Own
  constructor
  · intro h
    rw [Option.map_eq_some_iff] at h
    obtain ⟨⟨n, a⟩, h1, h2⟩ := h
    exact ⟨a, by rw [h1]; simp_all⟩
  · rintro ⟨a, h⟩
    rw [h]; rfl

theorem own_lt {g : Graph} {t i : Nat} (h : Own g t i) : i < g.nodes.length := by
  obtain ⟨a, h⟩ := h
  exact (List.getElem?_eq_some_iff.1 h).1

theorem mem_deps {g : Graph} {t i d : Nat} (hi : Own g t i) : d ∈ GRget_inter_node_dependencies g i ↔ Needs g t d i := by
  unfold GRget_inter_node_dependencies Needs
  rw [own_owner.2 hi]
  simp only [List.mem_reverse, List.mem_filter, List.mem_range, Bool.and_eq_true, decide_eq_true_eq, own_owner, ne_eq]
  have hl : GRlookup_edge g d i false = true ↔ (g.edge d i = some .normal ∨ g.edge d i = some .induced) := by
    unfold GRlookup_edge
    cases he : g.edge d i with
    | none => simp
    | some t => cases t <;> simp
  rw [hl]
  constructor
  · rintro ⟨_, ⟨h1, h2⟩, h3⟩; exact ⟨h2, hi, h1, h3⟩
  · rintro ⟨h1, _, h2, h3⟩; exact ⟨own_lt h1, ⟨h2, h1⟩, h3⟩

/-- A finite set has an element nothing in the set leads to. -/
theorem exists_min {R : Nat → Nat → Prop} (h : ¬ Cyclic R) (l : List Nat) (hl : l ≠ []) :
    ∃ m ∈ l, ∀ d ∈ l, ¬ Path R d m := by
  induction l with
  | nil => exact absurd rfl hl
  | cons a l ih =>
    by_cases hn : l = []
    · subst hn
      refine ⟨a, by simp, fun d hd p => ?_⟩
      simp only [List.mem_cons, List.not_mem_nil, or_false] at hd
      subst hd
      exact h ⟨_, p⟩
    · obtain ⟨m, hm, h1⟩ := ih hn
      by_cases ha : Path R a m
      · refine ⟨a, by simp, fun d hd p => ?_⟩
        rcases List.mem_cons.1 hd with rfl | hd
        · exact h ⟨_, p⟩
        · exact h1 d hd (Graph.Path.trans p ha)
      · refine ⟨m, List.mem_cons_of_mem _ hm, fun d hd p => ?_⟩
        rcases List.mem_cons.1 hd with rfl | hd
        · exact ha p
        · exact h1 d hd p

theorem scanDeps_false {A : Attrs} {g : Graph} {T : Table} (ds : List Nat) : ∀ (m : Nat),
    (scanDeps A g T ds m false).2 = false := by
  induction ds with
  | nil => intro m; rfl
  | cons d ds ih =>
    intro m
    rw [scanDeps]
    split <;> exact ih _

theorem scanDeps_spec {A : Attrs} {g : Graph} {T : Table} (ds : List Nat) : ∀ (m : Nat),
    (scanDeps A g T ds m true).2 = true ∧ (∀ d ∈ ds, T (nameOf A g d) ≠ 0 ∧ T (nameOf A g d) ≤ (scanDeps A g T ds m true).1) ∧
      m ≤ (scanDeps A g T ds m true).1 ∧
      ((scanDeps A g T ds m true).1 = m ∨ ∃ d ∈ ds, T (nameOf A g d) = (scanDeps A g T ds m true).1) ∨
    (scanDeps A g T ds m true).2 = false ∧ ∃ d ∈ ds, T (nameOf A g d) = 0 := by
  induction ds with
  | nil => intro m; exact Or.inl ⟨rfl, by simp, Nat.le_refl _, Or.inl rfl⟩
  | cons d ds ih =>
    intro m
    rw [scanDeps]
    split
    · next h => exact Or.inr ⟨scanDeps_false ds m, d, by simp, h⟩
    · next p h =>
      rcases ih (if p + 1 > m then p + 1 else m) with ⟨h1, h2, h3, h4⟩ | ⟨h1, e, h2, h3⟩
      · refine Or.inl ⟨h1, ?_, ?_, ?_⟩
        · intro e he
          rcases List.mem_cons.1 he with rfl | he
          · rw [h]
            refine ⟨by omega, ?_⟩
            split at h3 <;> (split <;> omega)
          · exact h2 e he
        · split at h3 <;> (split <;> omega)
        · rcases h4 with h4 | ⟨e, he, h4⟩
          · by_cases hm : p + 1 > m
            · rw [if_pos hm] at h4 ⊢
              exact Or.inr ⟨d, by simp, by rw [h4, h]⟩
            · rw [if_neg hm] at h4 ⊢
              exact Or.inl h4
          · exact Or.inr ⟨e, List.mem_cons_of_mem _ he, h4⟩
      · exact Or.inr ⟨h1, e, List.mem_cons_of_mem _ h2, h3⟩

/-- The invariant of the main loop: `l` is the contents of the queue. -/
structure PInv (A : Attrs) (g : Graph) (t : Nat) (l : List Nat) (T : Table) : Prop where
  own : ∀ i ∈ l, Own g t i
  nodup : l.Nodup
  queued : ∀ i, Own g t i → (T (nameOf A g i) = 0 ↔ i ∈ l)
  done : ∀ i, Own g t i → T (nameOf A g i) ≠ 0 → (∀ d, Needs g t d i → T (nameOf A g d) ≠ 0) ∧
    Least (synOf A g i) (fun q => ∃ d, Needs g t d i ∧ q = T (nameOf A g d)) (T (nameOf A g i))
  other : ∀ s, T s ≠ 0 → ∃ i, Own g t i ∧ s = nameOf A g i

/-- Assigning a number that is least for a node whose dependencies are all assigned. -/
theorem PInv.assign {A : Attrs} {g : Graph} {t i : Nat} {l : List Nat} {T : Table} (v : PInv A g t (i :: l) T)
    (hd : Distinct A g t) {p : Nat} (hdep : ∀ d, Needs g t d i → T (nameOf A g d) ≠ 0)
    (hp : Least (synOf A g i) (fun q => ∃ d, Needs g t d i ∧ q = T (nameOf A g d)) p) :
    PInv A g t l (T.insert (nameOf A g i) p) := by
  have hi : Own g t i := v.own i (by simp)
  have hn := List.nodup_cons.1 v.nodup
  have hne : p ≠ 0 := by have := hp.1.1; omega
  have h0 : T (nameOf A g i) = 0 := (v.queued i hi).2 (by simp)
  have same : ∀ j, T (nameOf A g j) ≠ 0 → (T.insert (nameOf A g i) p) (nameOf A g j) = T (nameOf A g j) := by
    intro j hj
    unfold Table.insert
    rw [if_neg]
    intro e
    rw [e] at hj
    exact hj h0
  have self : (T.insert (nameOf A g i) p) (nameOf A g i) = p := by simp [Table.insert]
  have diff : ∀ j, Own g t j → j ≠ i → (T.insert (nameOf A g i) p) (nameOf A g j) = T (nameOf A g j) := by
    intro j hj hji
    unfold Table.insert
    rw [if_neg]
    intro e
    exact hji (hd j i hj hi e)
  have conv : ∀ j, (∀ d, Needs g t d j → T (nameOf A g d) ≠ 0) →
      (fun q => ∃ d, Needs g t d j ∧ q = (T.insert (nameOf A g i) p) (nameOf A g d)) =
      (fun q => ∃ d, Needs g t d j ∧ q = T (nameOf A g d)) := by
    intro j hj
    funext q
    apply propext
    constructor
    · rintro ⟨d, h1, h2⟩
      exact ⟨d, h1, by rw [h2, same d (hj d h1)]⟩
    · rintro ⟨d, h1, h2⟩
      exact ⟨d, h1, by rw [h2, same d (hj d h1)]⟩
  refine ⟨fun j hj => v.own j (List.mem_cons_of_mem _ hj), hn.2, ?_, ?_, ?_⟩
  · intro j hj
    by_cases e : j = i
    · subst e
      rw [self]
      exact ⟨fun h => absurd h hne, fun h => absurd h hn.1⟩
    · rw [diff j hj e, v.queued j hj]
      simp [e]
  · intro j hj h1
    by_cases e : j = i
    · subst e
      rw [self, conv j hdep]
      refine ⟨fun d h2 => ?_, hp⟩
      rw [same d (hdep d h2)]
      exact hdep d h2
    · rw [diff j hj e] at h1 ⊢
      obtain ⟨h2, h3⟩ := v.done j hj h1
      rw [conv j h2]
      refine ⟨fun d h4 => ?_, h3⟩
      rw [same d (h2 d h4)]
      exact h2 d h4
  · intro s hs
    unfold Table.insert at hs
    split at hs
    · next e => exact ⟨i, hi, e⟩
    · exact v.other s hs

/-- One step on the head of the queue. -/
theorem partStep_spec {A : Attrs} {g : Graph} {t i : Nat} {l : List Nat} {T : Table} {q : Queue Nat} {as : List Nat}
    (v : PInv A g t (i :: l) T) (hd : Distinct A g t) (r : Rep q as (l.map some)) :
    (∃ T' , partStep A g i q T = .ok (q, T') ∧ PInv A g t l T') ∨
    ((∃ d, Needs g t d i ∧ T (nameOf A g d) = 0) ∧
      ∃ q' as', partStep A g i q T = .ok (q', T) ∧ Rep q' as' ((l ++ [i]).map some) ∧ PInv A g t (l ++ [i]) T) := by
  have hi : Own g t i := v.own i (by simp)
  have h0 : T (nameOf A g i) = 0 := (v.queued i hi).2 (by simp)
  unfold partStep
  simp only [h0]
  cases hdep : GRget_inter_node_dependencies g i with
  | nil =>
    have hno : ∀ d, ¬ Needs g t d i := fun d h => by
      have := (mem_deps hi).2 h
      rw [hdep] at this
      cases this
    refine Or.inl ⟨_, rfl, v.assign hd (fun d h => absurd h (hno d)) ⟨⟨?_, ?_, ?_⟩, ?_⟩⟩
    · split <;> omega
    · cases synOf A g i <;> simp
    · rintro q ⟨d, h, _⟩; exact absurd h (hno d)
    · intro p' h1 h2 _
      cases hs : synOf A g i with
      | true => rw [hs] at h2; simp at h2 ⊢; omega
      | false => simp; omega
  | cons d0 ds =>
    have hmem : ∀ d, d ∈ d0 :: ds ↔ Needs g t d i := fun d => by rw [← hdep]; exact mem_deps hi
    rcases scanDeps_spec (A := A) (g := g) (T := T) (d0 :: ds) 0 with ⟨h1, h2, _, h4⟩ | ⟨h1, d, h2, h3⟩
    · cases hs : scanDeps A g T (d0 :: ds) 0 true with
      | mk m b =>
        rw [hs] at h1 h2 h4
        simp only at h1
        subst h1
        simp only at h2 h4
        have h5 := h2 d0 (by simp)
        have h6 : ∃ d ∈ d0 :: ds, T (nameOf A g d) = m := by
          rcases h4 with h4 | h4
          · exfalso; omega
          · exact h4
        obtain ⟨e, he, hm⟩ := h6
        have hen := (hmem e).1 he
        obtain ⟨_, ⟨⟨g2, g3, _⟩, _⟩⟩ := v.done e hen.1 (h2 e he).1
        rw [hm] at g2 g3
        refine Or.inl ⟨_, by (simp only [hs]; rfl), v.assign hd (fun d h => (h2 d ((hmem d).2 h)).1) ⟨⟨?_, ?_, ?_⟩, ?_⟩⟩
        · split <;> omega
        · cases hsy : synOf A g i with
          | true =>
            by_cases hp : m % 2 = 1
            · simp [hp]
            · simp [hp]; omega
          | false =>
            by_cases hp : m % 2 = 1
            · simp [hp]; omega
            · simp [hp]
        · rintro q ⟨d, h, rfl⟩
          have := (h2 d ((hmem d).2 h)).2
          split <;> omega
        · intro p' k1 k2 k3
          have := k3 m ⟨e, hen, hm.symm⟩
          cases hsy : synOf A g i with
          | true =>
            rw [hsy] at k2
            simp only [iff_true] at k2
            by_cases hp : m % 2 = 1
            · simp [hp]; omega
            · simp [hp]; omega
          | false =>
            rw [hsy] at k2
            simp only [Bool.false_eq_true, iff_false] at k2
            by_cases hp : m % 2 = 1
            · simp [hp]; omega
            · simp [hp]; omega
    · cases hs : scanDeps A g T (d0 :: ds) 0 true with
      | mk m b =>
        rw [hs] at h1
        simp only at h1
        subst h1
        obtain ⟨q', as', e1, r1⟩ := insert_rep r (some i)
        refine Or.inr ⟨⟨d, (hmem d).1 h2, h3⟩, q', as', by simp only [hs, e1, Res.bind_ok], by simpa using r1, ?_⟩
        have hmem2 : ∀ j, j ∈ l ++ [i] ↔ j ∈ i :: l := by intro j; simp [or_comm]
        refine ⟨fun j hj => v.own j ((hmem2 j).1 hj), ?_, fun j hj => by rw [hmem2]; exact v.queued j hj, v.done, v.other⟩
        have hn := List.nodup_cons.1 v.nodup
        rw [List.nodup_append]
        refine ⟨hn.2, by simp, ?_⟩
        intro a ha b hb
        simp only [List.mem_cons, List.not_mem_nil, or_false] at hb
        subst hb
        intro e
        exact hn.1 (e ▸ ha)

/-- The main loop ends: the queue shrinks before it has gone round. -/
theorem partLoop_spec {A : Attrs} {g : Graph} {t : Nat} (hd : Distinct A g t) (hc : ¬ Cyclic (Needs g t)) :
    ∀ (n k : Nat) (l : List Nat) (T : Table) (q : Queue Nat) (as : List Nat), l.length = n →
      Rep q as (l.map some) → PInv A g t l T →
      (∃ pre x post, l = pre ++ x :: post ∧ pre.length = k ∧ (∀ d, Needs g t d x → T (nameOf A g d) ≠ 0)) ∨ l = [] →
      ∃ N q' as' T', (∀ fuel, N ≤ fuel → partLoop A g fuel q T = .ok (q', T')) ∧ Rep q' as' [] ∧ PInv A g t [] T' := by
  intro n
  induction n using Nat.strongRecOn with
  | _ n ihn =>
    intro k
    induction k using Nat.strongRecOn with
    | _ k ihk =>
      intro l T q as hl r v hx
      cases l with
      | nil =>
        refine ⟨1, q, as, T, ?_, r, v⟩
        intro fuel hf
        obtain ⟨f, rfl⟩ : ∃ f, fuel = f + 1 := ⟨fuel - 1, by omega⟩
        simp only [partLoop, pop_empty r, Res.bind_ok]
      | cons i l =>
        obtain ⟨pre, x, post, hl', hk, hready⟩ := hx.resolve_right (by simp)
        obtain ⟨q1, as1, e1, r1⟩ := pop_rep (x := some i) (l := l.map some) r
        rcases partStep_spec v hd r1 with ⟨T', e2, v2⟩ | ⟨⟨d, hdn, hd0⟩, q2, as2, e2, r2, v2⟩
        · -- shorter
          have next : (∃ pre x post, l = pre ++ x :: post ∧ (∀ d, Needs g t d x → T' (nameOf A g d) ≠ 0)) ∨ l = [] := by
            by_cases hnil : l = []
            · exact Or.inr hnil
            · left
              obtain ⟨m, hm, hmin⟩ := exists_min hc l hnil
              obtain ⟨pre, post, hs⟩ := List.append_of_mem hm
              refine ⟨pre, m, post, hs, fun d hdm h0 => ?_⟩
              exact hmin d ((v2.queued d hdm.1).1 h0) (.edge hdm)
          have hlt : l.length < n := by rw [← hl]; simp
          have : ∃ N q' as' T'', (∀ fuel, N ≤ fuel → partLoop A g fuel q1 T' = .ok (q', T'')) ∧ Rep q' as' [] ∧
              PInv A g t [] T'' := by
            rcases next with next | next
            · obtain ⟨pre, x, post, h1, h2⟩ := next
              exact ihn l.length hlt pre.length l T' q1 as1 rfl r1 v2 (Or.inl ⟨pre, x, post, h1, rfl, h2⟩)
            · exact ihn l.length hlt 0 l T' q1 as1 rfl r1 v2 (Or.inr next)
          obtain ⟨N, q', as', T'', h1, h2, h3⟩ := this
          refine ⟨N + 1, q', as', T'', fun fuel hf => ?_, h2, h3⟩
          obtain ⟨f, rfl⟩ : ∃ f, fuel = f + 1 := ⟨fuel - 1, by omega⟩
          simp only [partLoop, e1, e2, Res.bind_ok]
          exact h1 f (by omega)
        · -- one place further
          cases pre with
          | nil =>
            simp only [List.nil_append, List.cons.injEq] at hl'
            rw [hl'.1] at hdn
            exact absurd hd0 (hready d hdn)
          | cons y pre =>
            simp only [List.cons_append, List.cons.injEq] at hl'
            have hk' : pre.length < k := by simp only [List.length_cons] at hk; omega
            obtain ⟨N, q', as', T'', h1, h2, h3⟩ := ihk pre.length hk' (l ++ [i]) T q2 as2
              (by simp only [List.length_append, List.length_cons, List.length_nil] at hl ⊢; omega) r2 v2
              (Or.inl ⟨pre, x, post ++ [i], by rw [hl'.2]; simp, rfl, hready⟩)
            refine ⟨N + 1, q', as', T'', fun fuel hf => ?_, h2, h3⟩
            obtain ⟨f, rfl⟩ : ∃ f, fuel = f + 1 := ⟨fuel - 1, by omega⟩
            simp only [partLoop, e1, e2, Res.bind_ok]
            exact h1 f (by omega)

theorem fillQueue_spec {g : Graph} {t : Nat} (is : List Nat) : ∀ (q : Queue Nat) (as l : List Nat), Rep q as (l.map some) →
    ∃ q' as', fillQueue g t is q = .ok q' ∧ Rep q' as' ((l ++ is.filter fun i => decide (owner g i = some t)).map some) := by
  induction is with
  | nil => intro q as l r; exact ⟨q, as, rfl, by simpa using r⟩
  | cons i is ih =>
    intro q as l r
    by_cases h : owner g i = some t
    · obtain ⟨q1, as1, e1, r1⟩ := insert_rep r (some i)
      obtain ⟨q2, as2, e2, r2⟩ := ih q1 as1 (l ++ [i]) (by simpa using r1)
      refine ⟨q2, as2, by simp only [fillQueue, h, decide_true, e1, e2, Res.bind_ok], ?_⟩
      simpa [h] using r2
    · obtain ⟨q2, as2, e2, r2⟩ := ih q as l r
      refine ⟨q2, as2, by simp only [fillQueue, h, decide_false, e2], ?_⟩
      simpa [h] using r2

theorem delete_empty {q : Queue Nat} {as} (r : Rep q as []) : QUdelete q = .ok () := by
  have : as = [] := List.eq_nil_of_length_eq_zero r.chain.length
  have ht : q.top = none := by rw [r.top, this]; rfl
  simp only [QUdelete, ht]

theorem partition_spec {A : Attrs} {g : Graph} {t : Nat} (hd : Distinct A g t) (hc : ¬ Cyclic (Needs g t)) :
    ∃ N T, (∀ fuel, N ≤ fuel → partition_nodes A fuel g t = .ok T) ∧ PInv A g t [] T := by
  obtain ⟨q, as, e, r⟩ := fillQueue_spec (g := g) (t := t) (List.range g.nodes.length) QUcreate [] [] create_rep
  rw [List.nil_append] at r
  have hmem : ∀ i, i ∈ (List.range g.nodes.length).filter (fun i => decide (owner g i = some t)) ↔ Own g t i := by
    intro i
    simp only [List.mem_filter, List.mem_range, decide_eq_true_eq, own_owner]
    exact ⟨fun h => h.2, fun h => ⟨own_lt h, h⟩⟩
  generalize hl : (List.range g.nodes.length).filter (fun i => decide (owner g i = some t)) = l at r hmem
  have v : PInv A g t l fun _ => 0 := by
    refine ⟨fun i hi => (hmem i).1 hi, ?_, fun i hi => by simp [(hmem i).2 hi], fun i _ h => absurd rfl h,
      fun s h => absurd rfl h⟩
    rw [← hl]
    exact List.nodup_range.sublist List.filter_sublist
  have start : ∃ N q' as' T', (∀ fuel, N ≤ fuel → partLoop A g fuel q (fun _ => 0) = .ok (q', T')) ∧ Rep q' as' [] ∧
      PInv A g t [] T' := by
    by_cases hn : l = []
    · exact partLoop_spec hd hc l.length 0 l _ q as rfl r v (Or.inr hn)
    · obtain ⟨m, hm, hmin⟩ := exists_min hc l hn
      obtain ⟨pre, post, hs⟩ := List.append_of_mem hm
      exact partLoop_spec hd hc l.length pre.length l _ q as rfl r v
        (Or.inl ⟨pre, m, post, hs, rfl, fun d hdm _ => hmin d ((hmem d).2 hdm.1) (.edge hdm)⟩)
  obtain ⟨N, q', as', T', h1, h2, h3⟩ := start
  exact ⟨N, T', fun fuel hf => by simp only [partition_nodes, e, h1 fuel hf, delete_empty h2, Res.bind_ok], h3⟩

/-! ## Cycles -/

theorem path_step {R : Nat → Nat → Prop} {i} (h : Path R i i) : ∃ k, R k i ∧ Path R k k := by
  have last : ∀ {a b}, Path R a b → ∃ k, R k b ∧ (k = a ∨ Path R a k) := by
    intro a b h
    induction h with
    | edge e => exact ⟨_, e, Or.inl rfl⟩
    | step e _ ih =>
      obtain ⟨k, h1, h2⟩ := ih
      refine ⟨k, h1, Or.inr ?_⟩
      rcases h2 with rfl | h2
      · exact .edge e
      · exact .step e h2
  obtain ⟨k, h1, h2⟩ := last h
  refine ⟨k, h1, ?_⟩
  rcases h2 with rfl | h2
  · exact h
  · exact .step h1 h2

/-- With a cycle among its attributes the main loop never ends. -/
theorem partLoop_cyclic {A : Attrs} {g : Graph} {t : Nat} (hd : Distinct A g t) (hc : Cyclic (Needs g t)) :
    ∀ (fuel : Nat) (l : List Nat) (T : Table) (q : Queue Nat) (as : List Nat), Rep q as (l.map some) → PInv A g t l T →
      (∀ i, Path (Needs g t) i i → i ∈ l) → partLoop A g fuel q T = .diverge := by
  intro fuel
  induction fuel with
  | zero => intros; rfl
  | succ f ih =>
    intro l T q as r v hS
    obtain ⟨i0, hi0⟩ := hc
    cases l with
    | nil => exact absurd (hS i0 hi0) (by simp)
    | cons i l =>
      obtain ⟨q1, as1, e1, r1⟩ := pop_rep (x := some i) (l := l.map some) r
      rcases partStep_spec v hd r1 with ⟨T', e2, v2⟩ | ⟨_, q2, as2, e2, r2, v2⟩
      · simp only [partLoop, e1, e2, Res.bind_ok]
        have hn := List.nodup_cons.1 v.nodup
        have hiS : ¬ Path (Needs g t) i i := by
          intro hp
          obtain ⟨k, hk, hkk⟩ := path_step hp
          have hki : k ∈ l := by
            rcases List.mem_cons.1 (hS k hkk) with rfl | h
            · exact absurd rfl hk.2.2.1
            · exact h
          have hown := v.own i (by simp)
          have hne : T' (nameOf A g i) ≠ 0 := fun e => hn.1 ((v2.queued i hown).1 e)
          exact (v2.done i hown hne).1 k hk ((v2.queued k hk.1).2 hki)
        refine ih l T' q1 as1 r1 v2 fun j hj => ?_
        rcases List.mem_cons.1 (hS j hj) with rfl | h
        · exact absurd hj hiS
        · exact h
      · simp only [partLoop, e1, e2, Res.bind_ok]
        refine ih (l ++ [i]) T q2 as2 r2 v2 fun j hj => ?_
        have := hS j hj
        simp only [List.mem_cons, List.mem_append, List.not_mem_nil, or_false] at this ⊢
        exact this.symm

theorem partition_cyclic {A : Attrs} {g : Graph} {t : Nat} (hd : Distinct A g t) (hc : Cyclic (Needs g t)) (fuel : Nat) :
    partition_nodes A fuel g t = .diverge := by
  obtain ⟨q, as, e, r⟩ := fillQueue_spec (g := g) (t := t) (List.range g.nodes.length) QUcreate [] [] create_rep
  rw [List.nil_append] at r
  have hmem : ∀ i, i ∈ (List.range g.nodes.length).filter (fun i => decide (owner g i = some t)) ↔ Own g t i := by
    intro i
    simp only [List.mem_filter, List.mem_range, decide_eq_true_eq, own_owner]
    exact ⟨fun h => h.2, fun h => ⟨own_lt h, h⟩⟩
  have v : PInv A g t ((List.range g.nodes.length).filter (fun i => decide (owner g i = some t))) fun _ => 0 := by
    refine ⟨fun i hi => (hmem i).1 hi, ?_, fun i hi => by simp only [(hmem i).2 hi], fun i _ h => absurd rfl h,
      fun s h => absurd rfl h⟩
    exact List.nodup_range.sublist List.filter_sublist
  have := partLoop_cyclic hd hc fuel _ _ q as r v fun i hi => by
    obtain ⟨k, hk, _⟩ := path_step hi
    exact (hmem i).2 hk.2.1
  simp only [partition_nodes, e, this, Res.bind_ok, Res.bind_diverge]

/-! ## Visits -/

/-- The visit of a graph node. -/
def visitOf (A : Attrs) (g : Graph) (T : Table) (i : Nat) : Nat := T (nameOf A g i) / 2 - 1

/-- What visit `k` holds after the graph nodes `os`. -/
def expected (A : Attrs) (g : Graph) (T : Table) (os : List Nat) (k : Nat) : Visit :=
  ⟨os.filter fun i => !synOf A g i && visitOf A g T i == k, os.filter fun i => synOf A g i && visitOf A g T i == k⟩

theorem collectStep_spec {A : Attrs} {g : Graph} {T : Table} {i : Nat} {vs : List Visit} {errors : Nat} {os : List Nat}
    (h1 : T (nameOf A g i) ≠ 1)
    (hv : ∀ k : Nat, (vs[k]?).getD ⟨[], []⟩ = expected A g T os k)
    (hl : ∀ k, k < vs.length ↔ ∃ j ∈ os, k ≤ visitOf A g T j) :
    ∃ vs', collectStep A g T i vs errors = .ok (vs', if T (nameOf A g i) = 0 then errors + 1 else errors) ∧
      (∀ k : Nat, (vs'[k]?).getD ⟨[], []⟩ = expected A g T (os ++ [i]) k) ∧
      (∀ k, k < vs'.length ↔ ∃ j ∈ os ++ [i], k ≤ visitOf A g T j) := by
  have main : ∀ n, visitOf A g T i = n → 
      (∀ k : Nat, (((growVisits vs n).modify n fun v => v.put (synOf A g i) i)[k]?).getD ⟨[], []⟩ =
        expected A g T (os ++ [i]) k) ∧
      (∀ k, k < ((growVisits vs n).modify n fun v => v.put (synOf A g i) i).length ↔
        ∃ j ∈ os ++ [i], k ≤ visitOf A g T j) := by
    intro n hn
    have hg : ∀ k : Nat, ((growVisits vs n)[k]?).getD ⟨[], []⟩ = expected A g T os k := by
      intro k
      rw [← hv k]
      unfold growVisits
      rw [List.getElem?_append]
      split
      · rfl
      · next hk =>
        rw [List.getElem?_eq_none (l := vs) (by omega), List.getElem?_replicate]
        split <;> rfl
    have hgl : (growVisits vs n).length = max vs.length (n + 1) := by
      simp only [growVisits, List.length_append, List.length_replicate]
      omega
    constructor
    · intro k
      rw [List.getElem?_modify]
      by_cases hk : n = k
      · subst hk
        have hlt : n < (growVisits vs n).length := by omega
        have := hg n
        rw [List.getElem?_eq_getElem hlt] at this ⊢
        simp only [Option.getD_some] at this
        simp only [if_true, Option.map_eq_map, Option.map_some, Option.getD_some, this, expected, List.filter_append]
        cases hs : synOf A g i <;> simp [Visit.put, hs, hn]
      · simp only [if_neg hk, Option.map_eq_map, Option.map_id']
        rw [hg k]
        simp [expected, hn, hk]
    · intro k
      rw [List.length_modify, hgl]
      have := hl k
      simp only [List.mem_append, List.mem_cons, List.not_mem_nil, or_false]
      constructor
      · intro h
        by_cases hk : k < vs.length
        · obtain ⟨j, h3, h4⟩ := this.1 hk
          exact ⟨j, Or.inl h3, h4⟩
        · exact ⟨i, Or.inr rfl, by omega⟩
      · rintro ⟨j, h3 | rfl, h4⟩
        · have h5 := this.2 ⟨j, h3, h4⟩
          clear this hl
          omega
        · clear this hl
          omega
  unfold collectStep
  have hvi : visitOf A g T i = T (nameOf A g i) / 2 - 1 := rfl
  generalize hT : T (nameOf A g i) = p at hvi h1 ⊢
  match p, hvi, h1 with
  | 0, hvi, _ => exact ⟨_, rfl, main 0 hvi⟩
  | 1, _, h1 => exact absurd rfl h1
  | p + 2, hvi, _ => exact ⟨_, rfl, main _ hvi⟩

theorem collectLoop_spec {A : Attrs} {g : Graph} {t : Nat} {T : Table} (is : List Nat) : ∀ (vs : List Visit) (errors : Nat)
    (os : List Nat), (∀ i ∈ is, Own g t i → T (nameOf A g i) ≠ 1) →
    (∀ k : Nat, (vs[k]?).getD ⟨[], []⟩ = expected A g T os k) →
    (∀ k, k < vs.length ↔ ∃ j ∈ os, k ≤ visitOf A g T j) →
    ∃ vs', collectLoop A g t T is vs errors = .ok (vs', errors +
        ((is.filter fun i => decide (owner g i = some t)).filter fun i => T (nameOf A g i) == 0).length) ∧
      (∀ k : Nat, (vs'[k]?).getD ⟨[], []⟩ = expected A g T (os ++ is.filter fun i => decide (owner g i = some t)) k) ∧
      (∀ k, k < vs'.length ↔ ∃ j ∈ os ++ is.filter fun i => decide (owner g i = some t), k ≤ visitOf A g T j) := by
  induction is with
  | nil => intro vs errors os _ hv hl; exact ⟨vs, rfl, by simpa using hv, by simpa using hl⟩
  | cons i is ih =>
    intro vs errors os h1 hv hl
    by_cases ho : owner g i = some t
    · obtain ⟨vs1, e1, hv1, hl1⟩ := collectStep_spec (errors := errors) (h1 i (by simp) (own_owner.1 ho)) hv hl
      obtain ⟨vs2, e2, hv2, hl2⟩ := ih vs1 (if T (nameOf A g i) = 0 then errors + 1 else errors) (os ++ [i]) (fun j hj => h1 j (List.mem_cons_of_mem _ hj)) hv1 hl1
      refine ⟨vs2, ?_, by simpa [ho] using hv2, by simpa [ho] using hl2⟩
      simp only [collectLoop, ho, decide_true, e1, Res.bind_ok, e2]
      by_cases hz : T (nameOf A g i) = 0
      · simp [ho, hz]; omega
      · simp [ho, hz]
    · obtain ⟨vs2, e2, hv2, hl2⟩ := ih vs errors os (fun j hj => h1 j (List.mem_cons_of_mem _ hj)) hv hl
      refine ⟨vs2, ?_, by simpa [ho] using hv2, by simpa [ho] using hl2⟩
      simp only [collectLoop, ho, decide_false, e2]
      simp [ho]

end Verif.Partition
