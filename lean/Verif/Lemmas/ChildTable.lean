import Verif.Spec.ChildTable
import Verif.Lemmas.Graph

/-!
# The nodeset child tables: one reference, one expression, one nodeset
-/

namespace Verif.ChildTable
open Verif.Spec.ChildTable Verif.Spec.Graph

theorem upd_same {α : Type} (f : Nat → α) (i : Nat) (x : α) : upd f i x i = x := by simp [upd]

theorem upd_ne {α : Type} (f : Nat → α) {i j : Nat} (x : α) (h : j ≠ i) : upd f i x j = f j := by simp [upd, h]

/-- The entries already added are those of the table of the current nodeset. -/
structure CtxOk (c : Ctx) (s : NS) : Prop where
  mem : ∀ k, k ∈ c.added ↔ k ∈ s.table c.curr
  nodup : (s.table c.curr).Nodup
  last : c.last = false → s.table c.curr = []

structure Inv (sets : List SExpr) (s : NS) : Prop where
  null : ∀ i, s.built i = .null → s.table i = [] ∧ s.illegal i = false
  bound : ∀ i, s.built i ≠ .null → i < sets.length
  ill : ∀ i e, s.built i = .finished → sets[i]? = some e → (s.illegal i = true ↔ HasInterOrDiff e)
  closed : s.errors = 0 → ∀ i, s.built i = .finished → ∀ j, Refers sets i j → s.built j = .finished
  table : s.errors = 0 → ∀ i, s.built i = .finished →
    (s.table i).Nodup ∧ (∀ k, k ∈ s.table i ↔ Path (Refers sets) i k) ∧ ¬ Path (Refers sets) i i
  cyclic : s.errors ≠ 0 → Cyclic (Refers sets)

/-- What a traversal leaves alone. -/
structure Keep (c : Ctx) (s : NS) (c' : Ctx) (s' : NS) : Prop where
  curr : c'.curr = c.curr
  built : ∀ i, s.built i ≠ .null → s'.built i = s.built i
  fresh : ∀ i, s.built i = .null → s'.built i = .null ∨ s'.built i = .finished
  table : ∀ i, s.built i ≠ .null → i ≠ c.curr → s'.table i = s.table i
  illegal : ∀ i, s.built i ≠ .null → i ≠ c.curr → s'.illegal i = s.illegal i
  err : s.errors ≤ s'.errors

theorem Keep.refl (c : Ctx) (s : NS) : Keep c s c s :=
  ⟨rfl, fun _ _ => rfl, fun _ h => .inl h, fun _ _ _ => rfl, fun _ _ _ => rfl, Nat.le_refl _⟩

theorem Keep.trans {c s c1 s1 c2 s2} (h : Keep c s c1 s1) (h' : Keep c1 s1 c2 s2) : Keep c s c2 s2 := by
  refine ⟨h'.curr.trans h.curr, fun i hi => ?_, fun i hi => ?_, fun i hi hc => ?_, fun i hi hc => ?_,
    Nat.le_trans h.err h'.err⟩
  · rw [h'.built i (by rw [h.built i hi]; exact hi), h.built i hi]
  · rcases h.fresh i hi with h1 | h1
    · exact h'.fresh i h1
    · exact .inr (by rw [h'.built i (by rw [h1]; exact Mark.noConfusion), h1])
  · rw [h'.table i (by rw [h.built i hi]; exact hi) (by rw [h.curr]; exact hc), h.table i hi hc]
  · rw [h'.illegal i (by rw [h.built i hi]; exact hi) (by rw [h.curr]; exact hc), h.illegal i hi hc]

theorem Keep.finished {c s c' s'} (h : Keep c s c' s') {i : Nat} (hi : s.built i = .finished) : s'.built i = .finished := by
  rw [h.built i (by rw [hi]; exact Mark.noConfusion), hi]

/-- The nodesets that are being worked on lead to the current one. -/
def Chain (sets : List SExpr) (c : Ctx) (s : NS) : Prop :=
  s.built c.curr = .working ∧ ∀ w, s.built w = .working → w = c.curr ∨ Path (Refers sets) w c.curr

theorem Chain.keep {sets c s c' s'} (h : Chain sets c s) (k : Keep c s c' s') : Chain sets c' s' := by
  refine ⟨by rw [k.curr, k.built _ (by rw [h.1]; exact Mark.noConfusion), h.1], fun w hw => ?_⟩
  rw [k.curr]
  apply h.2
  cases hb : s.built w with
  | null => rcases k.fresh w hb with h1 | h1 <;> rw [h1] at hw <;> cases hw
  | working => rfl
  | finished => rw [k.finished hb] at hw; cases hw

/-- The state changes in the table of the current nodeset only. -/
theorem entry_spec {sets c s} (v : Inv sets s) (hc : Chain sets c s) (ok : CtxOk c s) (r : Nat) :
    ∃ c' s', add_inheritance_entry c r s = (c', s') ∧ Keep c s c' s' ∧ Inv sets s' ∧ CtxOk c' s' ∧
      s'.errors = s.errors ∧ s'.built = s.built ∧ s'.illegal = s.illegal ∧ (∀ i, i ≠ c.curr → s'.table i = s.table i) ∧
      ∀ k, k ∈ s'.table c.curr ↔ k ∈ s.table c.curr ∨ k = r := by
  cases hm : decide (r ∈ c.added) with
  | true =>
    rw [add_inheritance_entry, hm]
    have hr := (ok.mem r).1 (of_decide_eq_true hm)
    exact ⟨c, s, rfl, Keep.refl c s, v, ok, rfl, rfl, rfl, fun _ _ => rfl,
      fun k => ⟨.inl, fun h => h.elim id (fun h => h ▸ hr)⟩⟩
  | false =>
    have hr : r ∉ s.table c.curr := fun h => of_decide_eq_false hm ((ok.mem r).2 h)
    have key : add_inheritance_entry c r s = ({ c with added := r :: c.added, last := true },
        { s with table := upd s.table c.curr (s.table c.curr ++ [r]) }) := by
      rw [add_inheritance_entry, hm]
      cases hl : c.last with
      | false => simp [ok.last hl]
      | true => rfl
    refine ⟨_, _, key, ?_⟩
    have hw := hc.1
    refine ⟨⟨rfl, fun _ _ => rfl, fun _ h => .inl h, fun i _ hi => upd_ne _ _ hi, fun _ _ _ => rfl, Nat.le_refl _⟩, ?_,
      ⟨fun k => ?_, ?_, fun h => by cases h⟩, rfl, rfl, rfl, fun i hi => upd_ne _ _ hi, fun k => ?_⟩
    · refine ⟨fun i hi => ?_, v.bound, v.ill, v.closed, fun he i hi => ?_, v.cyclic⟩
      · have : i ≠ c.curr := fun h => by rw [h] at hi; rw [show s.built c.curr = .working from hw] at hi; cases hi
        simp only [upd_ne _ _ this]
        exact v.null i hi
      · have : i ≠ c.curr := fun h => by rw [h] at hi; rw [show s.built c.curr = .working from hw] at hi; cases hi
        simp only [upd_ne _ _ this]
        exact v.table he i hi
    · simp only [upd_same, List.mem_cons, List.mem_append, List.not_mem_nil, or_false]
      rw [ok.mem k]
      exact Or.comm
    · simp only [upd_same]
      rw [List.nodup_append]
      refine ⟨ok.nodup, by simp, fun a ha b hb he => ?_⟩
      simp only [List.mem_singleton] at hb
      exact hr (hb ▸ he ▸ ha)
    · simp only [upd_same, List.mem_append, List.mem_singleton]

theorem list_spec {sets} (rs : List Nat) : ∀ {c s}, Inv sets s → Chain sets c s → CtxOk c s →
    ∃ c' s', add_inheritance_entry_list c rs s = (c', s') ∧ Keep c s c' s' ∧ Inv sets s' ∧ CtxOk c' s' ∧
      s'.errors = s.errors ∧ s'.built = s.built ∧ s'.illegal = s.illegal ∧ (∀ i, i ≠ c.curr → s'.table i = s.table i) ∧
      ∀ k, k ∈ s'.table c.curr ↔ k ∈ s.table c.curr ∨ k ∈ rs := by
  induction rs with
  | nil => exact fun v hc ok => ⟨_, _, rfl, Keep.refl _ _, v, ok, rfl, rfl, rfl, fun _ _ => rfl, by simp⟩
  | cons r rest ih =>
    intro c s v hc ok
    obtain ⟨c1, s1, e1, k1, v1, ok1, r1, b1, i1, t1, m1⟩ := entry_spec v hc ok r
    obtain ⟨c2, s2, e2, k2, v2, ok2, r2, b2, i2, t2, m2⟩ := ih v1 (hc.keep k1) ok1
    refine ⟨c2, s2, ?_, k1.trans k2, v2, ok2, r2.trans r1, b2.trans b1, i2.trans i1, fun i hi => ?_, fun k => ?_⟩
    · rw [add_inheritance_entry_list, e1]
      exact e2
    · rw [t2 i (by rw [k1.curr]; exact hi), t1 i hi]
    · rw [k1.curr] at m2
      rw [m2, m1, List.mem_cons, or_assoc]

/-- The nodesets nothing has been done for. -/
def nulls (sets : List SExpr) (s : NS) : Nat := ((List.range sets.length).filter fun i => s.built i = .null).length

theorem nulls_keep {sets c s c' s'} (k : Keep c s c' s') : nulls sets s' ≤ nulls sets s := by
  apply Verif.Graph.length_filter_le'
  intro i _ hi
  simp only [decide_eq_true_eq] at hi ⊢
  cases hb : s.built i with
  | null => rfl
  | working => rw [k.built i (by rw [hb]; exact Mark.noConfusion), hb] at hi; cases hi
  | finished => rw [k.finished hb] at hi; cases hi

theorem nulls_work {sets s} {i : Nat} (hi : i < sets.length) (hn : s.built i = .null) (m : Mark) (hm : m ≠ .null) :
    nulls sets { s with built := upd s.built i m } < nulls sets s := by
  apply Verif.Graph.length_filter_lt' (a := i)
  · intro j _ hj
    simp only [decide_eq_true_eq] at hj ⊢
    by_cases e : j = i
    · rw [e]; exact hn
    · simp only [upd_ne _ _ e] at hj; exact hj
  · exact List.mem_range.2 hi
  · simp [hn]
  · simp [upd_same, hm]

/-- What one nodeset reference has to do. -/
def CallOk (sets : List SExpr) (m : Nat) (call : Nat → Ctx → NS → Res (Ctx × NS)) : Prop :=
  ∀ j c s, Inv sets s → Chain sets c s → CtxOk c s → Refers sets c.curr j → j < sets.length → nulls sets s ≤ m →
    ∃ c' s', call j c s = .ok (c', s') ∧ Keep c s c' s' ∧ Inv sets s' ∧ CtxOk c' s' ∧
      s'.illegal c.curr = s.illegal c.curr ∧
      (s'.errors = 0 → s'.built j = .finished ∧
        ∀ k, k ∈ s'.table c.curr ↔ k ∈ s.table c.curr ∨ Path (Refers sets) j k)

theorem expr_spec {sets m call} (hcall : CallOk sets m call) (e : SExpr) : ∀ c s, Inv sets s → Chain sets c s → CtxOk c s →
    (∀ j, Mentions e j → Refers sets c.curr j) → Resolved sets.length e → nulls sets s ≤ m →
    ∃ c' s', nctExpr call e c s = .ok (c', s') ∧ Keep c s c' s' ∧ Inv sets s' ∧ CtxOk c' s' ∧
      (s'.illegal c.curr = true ↔ s.illegal c.curr = true ∨ HasInterOrDiff e) ∧
      (s'.errors = 0 → (∀ j, Mentions e j → s'.built j = .finished) ∧
        ∀ k, k ∈ s'.table c.curr ↔ k ∈ s.table c.curr ∨ ∃ j, Mentions e j ∧ (k = j ∨ Path (Refers sets) j k)) := by
  induction e with
  | lit =>
    intro c s v hc ok _ _ _
    exact ⟨c, s, rfl, Keep.refl _ _, v, ok, by simp [HasInterOrDiff], fun _ => ⟨fun _ h => h.elim, by simp [Mentions]⟩⟩
  | ref r =>
    intro c s v hc ok hm hr hn
    obtain ⟨j, rfl, hj⟩ := hr
    obtain ⟨c1, s1, e1, k1, v1, ok1, i1, d1⟩ := hcall j c s v hc ok (hm j rfl) hj hn
    obtain ⟨c2, s2, e2, k2, v2, ok2, r2, b2, i2, t2, m2⟩ := entry_spec v1 (hc.keep k1) ok1 j
    refine ⟨c2, s2, ?_, k1.trans k2, v2, ok2, ?_, fun he => ?_⟩
    · rw [nctExpr, e1]
      simp only [Res.bind_ok]
      rw [e2]
    · rw [i2, i1]; simp [HasInterOrDiff]
    · obtain ⟨hf, ht⟩ := d1 (by rw [← r2]; exact he)
      refine ⟨fun j' hj' => ?_, fun k => ?_⟩
      · cases hj'
        rw [b2]; exact hf
      · rw [k1.curr] at m2
        rw [m2, ht]
        constructor
        · rintro ((h | h) | h)
          · exact .inl h
          · exact .inr ⟨j, rfl, .inr h⟩
          · exact .inr ⟨j, rfl, .inl h⟩
        · rintro (h | ⟨j', hj', h⟩)
          · exact .inl (.inl h)
          · cases hj'
            exact h.elim .inr (fun h => .inl (.inr h))
  | op b l r ihl ihr =>
    intro c s v hc ok hm hres hn
    have main : ∀ s0 : NS, (s0.illegal c.curr = true ↔ s.illegal c.curr = true ∨ b = true) → Keep c s c s0 → Inv sets s0 →
        CtxOk c s0 → s0.table = s.table → ∃ c' s', (do
          let (c, s) ← nctExpr call l c s0
          nctExpr call r c s) = Res.ok (c', s') ∧ Keep c s c' s' ∧ Inv sets s' ∧ CtxOk c' s' ∧
          (s'.illegal c.curr = true ↔ s.illegal c.curr = true ∨ HasInterOrDiff (.op b l r)) ∧
          (s'.errors = 0 → (∀ j, Mentions (.op b l r) j → s'.built j = .finished) ∧
            ∀ k, k ∈ s'.table c.curr ↔ k ∈ s.table c.curr ∨
              ∃ j, Mentions (.op b l r) j ∧ (k = j ∨ Path (Refers sets) j k)) := by
      intro s0 hi0 k0 v0 ok0 ht0
      obtain ⟨c1, s1, e1, k1, v1, ok1, i1, d1⟩ := ihl c s0 v0 (hc.keep k0) ok0 (fun j hj => hm j (.inl hj)) hres.1
        (Nat.le_trans (nulls_keep k0) hn)
      obtain ⟨c2, s2, e2, k2, v2, ok2, i2, d2⟩ := ihr c1 s1 v1 ((hc.keep k0).keep k1) ok1
        (by rw [k1.curr]; exact fun j hj => hm j (.inr hj)) hres.2
        (Nat.le_trans (nulls_keep (k0.trans k1)) hn)
      refine ⟨c2, s2, ?_, (k0.trans k1).trans k2, v2, ok2, ?_, fun he => ?_⟩
      · rw [e1]
        exact e2
      · rw [k1.curr] at i2
        rw [i2, i1, hi0, HasInterOrDiff, or_assoc, or_assoc]
      · have he1 : s1.errors = 0 := by have := k2.err; omega
        obtain ⟨f1, t1⟩ := d1 he1
        obtain ⟨f2, t2⟩ := d2 he
        refine ⟨fun j hj => hj.elim (fun h => k2.finished (f1 j h)) (f2 j), fun k => ?_⟩
        rw [k1.curr] at t2
        rw [t2, t1, ht0, or_assoc]
        constructor
        · rintro (h | ⟨j, hj, h⟩ | ⟨j, hj, h⟩)
          · exact .inl h
          · exact .inr ⟨j, .inl hj, h⟩
          · exact .inr ⟨j, .inr hj, h⟩
        · rintro (h | ⟨j, hj | hj, h⟩)
          · exact .inl h
          · exact .inr (.inl ⟨j, hj, h⟩)
          · exact .inr (.inr ⟨j, hj, h⟩)
    rw [nctExpr.eq_def]
    cases b with
    | false => exact main s (by simp) (Keep.refl _ _) v ok rfl
    | true =>
      refine main { s with illegal := upd s.illegal c.curr true } (by simp [upd_same])
        ⟨rfl, fun _ _ => rfl, fun _ h => .inl h, fun _ _ _ => rfl, fun i _ hi => upd_ne _ _ hi, Nat.le_refl _⟩ ?_
        ⟨ok.mem, ok.nodup, ok.last⟩ rfl
      have hw := hc.1
      refine ⟨fun i hi => ?_, v.bound, fun i e hi he => ?_, v.closed, v.table, v.cyclic⟩
      · have : i ≠ c.curr := fun h => by rw [h] at hi; rw [show s.built c.curr = .working from hw] at hi; cases hi
        simp only [upd_ne _ _ this]
        exact v.null i hi
      · have : i ≠ c.curr := fun h => by rw [h] at hi; rw [show s.built c.curr = .working from hw] at hi; cases hi
        simp only [upd_ne _ _ this]
        exact v.ill i e hi he

theorem Refers.of {sets : List SExpr} {i : Nat} {e : SExpr} (h : sets[i]? = some e) (j : Nat) :
    Refers sets i j ↔ Mentions e j :=
  ⟨fun ⟨e', he', hm⟩ => by rw [h] at he'; cases he'; exact hm, fun hm => ⟨e, h, hm⟩⟩

/-- Starting on a nodeset. -/
theorem start_spec {sets : List SExpr} {i : Nat} {s} (v : Inv sets s) (hi : i < sets.length) (hn : s.built i = .null) :
    Inv sets { s with built := upd s.built i .working } ∧
      CtxOk ⟨i, [], false⟩ { s with built := upd s.built i .working } := by
  obtain ⟨ht, _⟩ := v.null i hn
  have hne : ∀ {j : Nat} {m : Mark}, upd s.built i .working j = m → m ≠ .working → j ≠ i ∧ s.built j = m := by
    intro j m h hm
    by_cases e : j = i
    · rw [e, upd_same] at h; exact absurd h.symm hm
    · rw [upd_ne _ _ e] at h; exact ⟨e, h⟩
  refine ⟨⟨fun j hj => v.null j (hne hj Mark.noConfusion).2, fun j hj => ?_, fun j e hj he => v.ill j e (hne hj Mark.noConfusion).2 he,
    fun he j hj k hk => ?_, fun he j hj => v.table he j (hne hj Mark.noConfusion).2, v.cyclic⟩,
    ⟨by simp [ht], by simp [ht], fun _ => ht⟩⟩
  · by_cases e : j = i
    · rw [e]; exact hi
    · simp only [upd_ne _ _ e] at hj
      exact v.bound j hj
  · have := v.closed he j (hne hj Mark.noConfusion).2 k hk
    by_cases e : k = i
    · rw [e, hn] at this; cases this
    · simp only [upd_ne _ _ e]; exact this

/-- All that can be reached from a finished nodeset is finished. -/
theorem Inv.reach {sets s} (v : Inv sets s) (he : s.errors = 0) {i k} (h : Path (Refers sets) i k) :
    s.built i = .finished → s.built k = .finished := by
  induction h with
  | edge h => exact fun hi => v.closed he _ hi _ h
  | step h _ ih => exact fun hi => ih (v.closed he _ hi _ h)

/-- Finishing a nodeset. -/
theorem finish_spec {sets : List SExpr} {i : Nat} {e : SExpr} {s} (v : Inv sets s) (hi : sets[i]? = some e)
    (hw : s.built i = .working) (hill : s.illegal i = true ↔ HasInterOrDiff e) (hnd : (s.table i).Nodup)
    (hd : s.errors = 0 → (∀ j, Mentions e j → s.built j = .finished) ∧
      ∀ k, k ∈ s.table i ↔ ∃ j, Mentions e j ∧ (k = j ∨ Path (Refers sets) j k)) :
    Inv sets { s with built := upd s.built i .finished } := by
  have hlt : i < sets.length := by
    rcases Nat.lt_or_ge i sets.length with h | h
    · exact h
    · rw [List.getElem?_eq_none h] at hi; cases hi
  refine ⟨fun j hj => ?_, fun j hj => ?_, fun j e' hj he' => ?_, fun he j hj k hk => ?_, fun he j hj => ?_, v.cyclic⟩
  · by_cases h : j = i
    · simp only [h, upd_same] at hj; cases hj
    · simp only [upd_ne _ _ h] at hj; exact v.null j hj
  · by_cases h : j = i
    · rw [h]; exact hlt
    · simp only [upd_ne _ _ h] at hj; exact v.bound j hj
  · by_cases h : j = i
    · rw [h] at he' ⊢
      rw [hi] at he'; cases he'
      exact hill
    · simp only [upd_ne _ _ h] at hj; exact v.ill j e' hj he'
  · by_cases h : k = i
    · simp only [h, upd_same]
    · simp only [upd_ne _ _ h]
      by_cases h' : j = i
      · rw [h'] at hk
        exact (hd he).1 k ((Refers.of hi k).1 hk)
      · simp only [upd_ne _ _ h'] at hj
        exact v.closed he j hj k hk
  · by_cases h : j = i
    · rw [h]
      have hp : ∀ k, Path (Refers sets) i k ↔ ∃ j, Mentions e j ∧ (k = j ∨ Path (Refers sets) j k) := by
        intro k
        constructor
        · intro h
          cases h with
          | edge h => exact ⟨k, (Refers.of hi k).1 h, .inl rfl⟩
          | step h h' => exact ⟨_, (Refers.of hi _).1 h, .inr h'⟩
        · rintro ⟨j, hj, rfl | h⟩
          · exact .edge ((Refers.of hi _).2 hj)
          · exact .step ((Refers.of hi _).2 hj) h
      refine ⟨hnd, fun k => ?_, fun hc => ?_⟩
      · rw [hp]; exact (hd he).2 k
      · obtain ⟨j, hj, hij⟩ := (hp i).1 hc
        have hf := (hd he).1 j hj
        rcases hij with rfl | hij
        · rw [hw] at hf; cases hf
        · have := v.reach he hij hf
          rw [hw] at this; cases this
    · simp only [upd_ne _ _ h] at hj
      exact v.table he j hj

theorem getElem_lt {α : Type} {l : List α} {i : Nat} (h : i < l.length) : ∃ x, l[i]? = some x :=
  ⟨l[i], List.getElem?_eq_getElem h⟩

/-- The whole expression of a nodeset that nothing has been done for. -/
theorem body_spec {sets : List SExpr} (hres : ∀ e ∈ sets, Resolved sets.length e) {m call} (hcall : CallOk sets m call)
    {i : Nat} {e : SExpr} {s} (v : Inv sets s) (hi : sets[i]? = some e) (hn : s.built i = .null)
    (hw : ∀ w, s.built w = .working → Path (Refers sets) w i) (hm : nulls sets s ≤ m + 1) :
    ∃ c' s', nctExpr call e ⟨i, [], false⟩ { s with built := upd s.built i .working } = .ok (c', s') ∧
      Keep ⟨i, [], false⟩ { s with built := upd s.built i .working } c' s' ∧ Inv sets s' ∧ s'.built i = .working ∧
      Inv sets { s' with built := upd s'.built i .finished } := by
  have hlt : i < sets.length := by
    rcases Nat.lt_or_ge i sets.length with h | h
    · exact h
    · rw [List.getElem?_eq_none h] at hi; cases hi
  obtain ⟨v0, ok0⟩ := start_spec v hlt hn
  have hch : Chain sets ⟨i, [], false⟩ { s with built := upd s.built i .working } := by
    refine ⟨upd_same _ _ _, fun w h => ?_⟩
    by_cases h' : w = i
    · exact .inl h'
    · simp only [upd_ne _ _ h'] at h
      exact .inr (hw w h)
  obtain ⟨c', s', e1, k1, v1, ok1, i1, d1⟩ := expr_spec hcall e _ _ v0 hch ok0
    (fun j hj => (Refers.of hi j).2 hj) (hres e (List.mem_of_getElem? hi))
    (by have := nulls_work hlt hn .working Mark.noConfusion; omega)
  have hb := (hch.keep k1).1
  rw [k1.curr] at hb
  refine ⟨c', s', e1, k1, v1, hb, finish_spec v1 hi hb ?_ ?_ (fun he => ⟨(d1 he).1, fun k => ?_⟩)⟩
  · rw [i1]
    simp [(v.null i hn).2]
  · have := ok1.nodup
    rw [k1.curr] at this
    exact this
  · rw [(d1 he).2 k]
    simp [(v.null i hn).1]

theorem call_spec {sets : List SExpr} (hres : ∀ e ∈ sets, Resolved sets.length e) (fuel : Nat) :
    CallOk sets fuel (nctSet sets (fuel + 1)) := by
  have step : ∀ fuel, (∀ m, m + 1 = fuel → CallOk sets m (nctSet sets fuel)) → CallOk sets fuel (nctSet sets (fuel + 1)) := by
    intro fuel ih j c s v hc ok hr hj hn
    rw [nctSet]
    cases hb : s.built j with
    | working =>
      have hcy : Cyclic (Refers sets) := by
        rcases hc.2 j hb with h | h
        · exact ⟨j, .edge (h ▸ hr)⟩
        · exact ⟨j, Verif.Graph.Path.trans h (.edge hr)⟩
      refine ⟨_, _, rfl, ⟨rfl, fun _ _ => rfl, fun _ h => .inl h, fun _ _ _ => rfl, fun _ _ _ => rfl, Nat.le_succ _⟩,
        ⟨v.null, v.bound, v.ill, fun h => by simp at h, fun h => by simp at h, fun _ => hcy⟩, ⟨ok.mem, ok.nodup, ok.last⟩, rfl,
        fun h => by simp at h⟩
    | finished =>
      obtain ⟨c1, s1, e1, k1, v1, ok1, r1, b1, i1, t1, m1⟩ := list_spec (s.table j) v hc ok
      have hself : upd s1.built j Mark.finished = s1.built := by
        funext i
        by_cases h : i = j
        · rw [h, upd_same, b1, hb]
        · rw [upd_ne _ _ h]
      refine ⟨c1, s1, ?_, k1, v1, ok1, by rw [i1], fun he => ⟨by rw [b1, hb], fun k => ?_⟩⟩
      · simp only [e1, hself]
      · rw [m1, (v.table (by rw [← r1]; exact he) j hb).2.1]
    | null =>
      obtain ⟨e, he⟩ := getElem_lt hj
      have hpos : 1 ≤ fuel := by
        have := nulls_work hj hb .working Mark.noConfusion
        omega
      obtain ⟨m, rfl⟩ : ∃ m, fuel = m + 1 := ⟨fuel - 1, by omega⟩
      obtain ⟨c1, s1, e1, k1, v1, w1, f1⟩ := body_spec hres (ih m rfl) v he hb
        (fun w hw => (hc.2 w hw).elim (fun h => h ▸ .edge hr) (fun h => Verif.Graph.Path.trans h (.edge hr))) hn
      have hcj : c.curr ≠ j := fun h => by rw [← h, hc.1] at hb; cases hb
      have hnn : ∀ {i : Nat}, s.built i ≠ .null → i ≠ j := fun h h' => by rw [h'] at h; exact h hb
      have hcn : s.built c.curr ≠ .null := by rw [hc.1]; exact Mark.noConfusion
      -- from the caller's point of view
      have k2 : Keep c s c { s1 with built := upd s1.built j .finished } := by
        refine ⟨rfl, fun i hi => ?_, fun i hi => ?_, fun i hi _ => ?_, fun i hi _ => ?_, k1.err⟩
        · have h := hnn hi
          simp only [upd_ne _ _ h]
          rw [k1.built i (by simp only [upd_ne _ _ h]; exact hi)]
          exact upd_ne _ _ h
        · by_cases h : i = j
          · exact .inr (by simp only [h, upd_same])
          · simp only [upd_ne _ _ h]
            exact k1.fresh i (by simp only [upd_ne _ _ h]; exact hi)
        · have h := hnn hi
          exact k1.table i (by simp only [upd_ne _ _ h]; exact hi) h
        · have h := hnn hi
          exact k1.illegal i (by simp only [upd_ne _ _ h]; exact hi) h
      have htc : s1.table c.curr = s.table c.curr := k1.table _ (by simp only [upd_ne _ _ hcj]; exact hcn) hcj
      have ok2 : CtxOk c { s1 with built := upd s1.built j .finished } :=
        ⟨by simp only [htc]; exact ok.mem, by simp only [htc]; exact ok.nodup, by simp only [htc]; exact ok.last⟩
      obtain ⟨c3, s3, e3, k3, v3, ok3, r3, b3, i3, t3, m3⟩ := list_spec (s1.table j) f1 (hc.keep k2) ok2
      -- the list is added before the mark is set
      have hcomm : ∀ (rs : List Nat) (c : Ctx) (s : NS),
          add_inheritance_entry_list c rs { s with built := upd s.built j .finished } =
            ((add_inheritance_entry_list c rs s).1,
              { (add_inheritance_entry_list c rs s).2 with
                built := upd (add_inheritance_entry_list c rs s).2.built j .finished }) := by
        intro rs
        induction rs with
        | nil => exact fun _ _ => rfl
        | cons r rest ih =>
          intro c s
          rw [add_inheritance_entry_list, add_inheritance_entry_list]
          have : add_inheritance_entry c r { s with built := upd s.built j .finished } =
              ((add_inheritance_entry c r s).1, { (add_inheritance_entry c r s).2 with
                built := upd (add_inheritance_entry c r s).2.built j .finished }) := by
            rw [add_inheritance_entry, add_inheritance_entry]
            cases decide (r ∈ c.added) <;> rfl
          rw [this]
          exact ih _ _
      have hfin : (c3, s3) = ((add_inheritance_entry_list c (s1.table j) s1).1,
          { (add_inheritance_entry_list c (s1.table j) s1).2 with
            built := upd (add_inheritance_entry_list c (s1.table j) s1).2.built j .finished }) := by
        rw [← hcomm, e3]
      refine ⟨c3, s3, ?_, k2.trans k3, v3, ok3, ?_, fun he' => ?_⟩
      · simp only [he, e1, Res.bind_ok]
        rw [hfin]
      · rw [i3]
        exact k1.illegal _ (by simp only [upd_ne _ _ hcj]; exact hcn) hcj
      · have hf : s3.built j = .finished := by rw [b3]; exact upd_same _ _ _
        refine ⟨hf, fun k => ?_⟩
        rw [m3]
        simp only [htc]
        have := (f1.table (by rw [← r3]; exact he') j (upd_same _ _ _)).2.1 k
        simp only at this
        rw [this]
  induction fuel with
  | zero => exact step 0 (fun m h => by omega)
  | succ fuel ih => exact step (fuel + 1) (fun m h => by cases h; exact ih)

theorem roots_spec {sets : List SExpr} (hres : ∀ e ∈ sets, Resolved sets.length e) {fuel : Nat} (hf : sets.length ≤ fuel)
    (rest : List SExpr) : ∀ i s, sets.drop i = rest → Inv sets s → (∀ w, s.built w ≠ .working) →
    (∀ j, j < i → s.built j = .finished) →
    ∃ s', nctRoots sets fuel rest i s = .ok s' ∧ Inv sets s' ∧ ∀ j, j < sets.length → s'.built j = .finished := by
  induction rest with
  | nil =>
    intro i s hd v _ hj
    exact ⟨s, rfl, v, fun j h => hj j (by have := List.drop_eq_nil_iff.1 hd; omega)⟩
  | cons e rest ih =>
    intro i s hd v hw hj
    have hi : sets[i]? = some e := by
      have := congrArg (·[0]?) hd
      simpa using this
    have hlt : i < sets.length := by
      rcases Nat.lt_or_ge i sets.length with h | h
      · exact h
      · rw [List.getElem?_eq_none h] at hi; cases hi
    have hd' : sets.drop (i + 1) = rest := by
      rw [← List.tail_drop, hd]; rfl
    rw [nctRoots]
    cases hb : s.built i with
    | working => exact absurd hb (hw i)
    | finished =>
      have hself : upd s.built i Mark.finished = s.built := by
        funext j
        by_cases h : j = i
        · rw [h, upd_same, hb]
        · rw [upd_ne _ _ h]
      simp only [hself]
      refine ih (i + 1) s hd' v hw (fun j h => ?_)
      rcases Nat.lt_or_ge j i with h' | h'
      · exact hj j h'
      · rw [show j = i by omega]; exact hb
    | null =>
      obtain ⟨m, rfl⟩ : ∃ m, fuel = m + 1 := ⟨fuel - 1, by omega⟩
      have hns : nulls sets s ≤ sets.length := by
        have := List.length_filter_le (fun i => decide (s.built i = .null)) (List.range sets.length)
        rw [List.length_range] at this
        exact this
      obtain ⟨c1, s1, e1, k1, v1, w1, f1⟩ := body_spec hres (call_spec hres m) v hi hb (fun w h => absurd h (hw w))
        (by omega)
      simp only [e1, Res.bind_ok]
      refine ih (i + 1) _ hd' f1 (fun w h => ?_) (fun j h => ?_)
      · by_cases h' : w = i
        · simp only [h', upd_same] at h; cases h
        · simp only [upd_ne _ _ h'] at h
          cases hbw : s.built w with
          | working => exact hw w hbw
          | null =>
            rcases k1.fresh w (by simp only [upd_ne _ _ h']; exact hbw) with h1 | h1 <;> rw [h1] at h <;> cases h
          | finished =>
            rw [k1.built w (by simp only [upd_ne _ _ h', hbw]; exact Mark.noConfusion)] at h
            simp only [upd_ne _ _ h', hbw] at h
            cases h
      · by_cases h' : j = i
        · simp only [h', upd_same]
        · simp only [upd_ne _ _ h']
          have := hj j (by omega)
          rw [k1.built j (by simp only [upd_ne _ _ h', this]; exact Mark.noConfusion)]
          simp only [upd_ne _ _ h', this]

theorem NCTast_spec {sets : List SExpr} (hres : ∀ e ∈ sets, Resolved sets.length e) {fuel : Nat} (hf : sets.length ≤ fuel) :
    ∃ s', NCTast sets fuel = .ok s' ∧ Inv sets s' ∧ ∀ j, j < sets.length → s'.built j = .finished := by
  apply roots_spec hres hf sets 0 _ rfl
  · exact ⟨fun _ _ => ⟨rfl, rfl⟩, fun _ h => absurd rfl h, fun _ _ h => (by cases h), fun _ _ h => (by cases h),
      fun _ _ h => (by cases h), fun h => absurd rfl h⟩
  · intro w h; cases h
  · intro j h; omega

end Verif.ChildTable
