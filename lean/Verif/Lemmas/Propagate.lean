import Verif.Spec.Propagate

/-!
# Attribute propagation: one step, and the list of all steps
-/

namespace Verif.Propagate
open Verif.Spec.Propagate

theorem compare_true {a b : Attr} : compare_attribute_types a b = true ↔ b.type = a.type ∧ (HasRef a.type → b.ref = a.ref) := by
  rw [compare_attribute_types]
  cases ht : decide (a.type = b.type) with
  | false =>
    have := of_decide_eq_false ht
    simp only [Bool.false_eq_true, false_iff]
    exact fun h => this h.1.symm
  | true =>
    have := of_decide_eq_true ht
    cases h : a.type <;> simp [HasRef, ← this, h, eq_comm]

theorem classic_spec (p c : Attr) (hname : c.name = p.name) :
    (check_classic_exception p c).1 = (!(p.inh || p.syn)) ∧
      (((check_classic_exception p c).1 = true ∧ (check_classic_exception p c).2 = 0) ↔ Redeclares c p) := by
  rw [check_classic_exception]
  cases hi : p.inh with
  | true => exact ⟨rfl, ⟨fun h => by simp at h, fun h => by have := h.inh; rw [hi] at this; cases this⟩⟩
  | false =>
    cases hs : p.syn with
    | true => exact ⟨rfl, ⟨fun h => by simp at h, fun h => by have := h.syn; rw [hs] at this; cases this⟩⟩
    | false =>
      cases hc : c.ctor with
      | false => exact ⟨rfl, ⟨fun h => by simp at h, fun h => by have := h.ctor; rw [hc] at this; cases this⟩⟩
      | true =>
        cases hb : c.inh || c.syn || !compare_attribute_types p c with
        | true =>
          refine ⟨by simp, ⟨fun h => by simp at h, fun h => ?_⟩⟩
          have h1 := h.same.inh; have h2 := h.same.syn
          rw [compare_true.2 ⟨h.same.type, h.same.ref⟩, h1, h2, hi, hs] at hb
          cases hb
        | false =>
          simp only [Bool.or_eq_false_iff, Bool.not_eq_false'] at hb
          obtain ⟨⟨h1, h2⟩, h3⟩ := hb
          obtain ⟨h4, h5⟩ := compare_true.1 h3
          refine ⟨by simp, ⟨fun _ => ⟨hi, hs, hc, ⟨hname, h4, by rw [h1, hi], by rw [h2, hs], h5⟩⟩,
            fun _ => by simp⟩⟩

theorem existing_spec (isNode : Bool) (new : Attr) (l : List Attr) : ∀ ex n,
    n ≤ (check_existing_attributes isNode new l ex n).2 ∧
      ((check_existing_attributes isNode new l ex n).2 = n ↔
        ∀ b ∈ l, b.name = new.name → isNode = true ∧ Redeclares b new) ∧
      ((check_existing_attributes isNode new l ex n).2 = n →
        ((check_existing_attributes isNode new l ex n).1 = true ↔ ex = true ∨ ∃ b, b ∈ l ∧ b.name = new.name)) := by
  induction l with
  | nil => intro ex n; simp [check_existing_attributes]
  | cons a rest ih =>
    intro ex n
    rw [check_existing_attributes.eq_def]
    simp only
    cases hn : decide (a.name = new.name) with
    | false =>
      have hne := of_decide_eq_false hn
      obtain ⟨h1, h2, h3⟩ := ih ex n
      refine ⟨h1, ?_, fun h => ?_⟩
      · rw [h2]
        simp only [List.mem_cons, forall_eq_or_imp]
        exact ⟨fun h => ⟨fun h' => absurd h' hne, h⟩, fun h => h.2⟩
      · rw [h3 h]
        simp only [List.mem_cons, exists_eq_or_imp, hne, false_or]
    | true =>
      have he := of_decide_eq_true hn
      have bad : ∀ ex k, n < k → n ≤ (check_existing_attributes isNode new rest ex k).2 ∧
          (check_existing_attributes isNode new rest ex k).2 ≠ n := fun ex k hk => by
        have := (ih ex k).1
        omega
      cases isNode with
      | false =>
        obtain ⟨b1, b2⟩ := bad ex (n + 1) (by omega)
        refine ⟨b1, ⟨fun h => absurd h b2, fun h => ?_⟩, fun h => absurd h b2⟩
        exact absurd (h a List.mem_cons_self he).1 (by simp)
      | true =>
        obtain ⟨_, c2⟩ := classic_spec new a he
        cases hc : check_classic_exception new a with
        | mk r k =>
          rw [hc] at c2
          simp only at c2
          have notgood : (r = true ∧ k = 0 → False) →
              ¬ ∀ b ∈ a :: rest, b.name = new.name → true = true ∧ Redeclares b new :=
            fun h h' => h (c2.2 (h' a List.mem_cons_self he).2)
          cases r with
          | false =>
            obtain ⟨b1, b2⟩ := bad ex (n + k + 1) (by omega)
            exact ⟨b1, ⟨fun h => absurd h b2, fun h => absurd h (notgood (by simp))⟩, fun h => absurd h b2⟩
          | true =>
            rcases Nat.eq_zero_or_pos k with hk | hk
            · subst hk
              have hr := c2.1 ⟨rfl, rfl⟩
              obtain ⟨h1, h2, h3⟩ := ih true n
              simp only [Nat.add_zero]
              refine ⟨h1, ?_, fun h => ?_⟩
              · rw [h2]
                simp only [List.mem_cons, forall_eq_or_imp]
                exact ⟨fun h => ⟨fun _ => ⟨trivial, hr⟩, h⟩, fun h => h.2⟩
              · rw [h3 h]
                simp [he]
            · obtain ⟨b1, b2⟩ := bad true (n + k) (by omega)
              exact ⟨b1, ⟨fun h => absurd h b2, fun h => absurd h (notgood (by omega))⟩, fun h => absurd h b2⟩

theorem child_spec (a : Attr) (l : List Nat) : check_existing_child a l = 0 ↔ a.name ∉ l := by
  induction l with
  | nil => simp [check_existing_child]
  | cons k rest ih =>
    rw [check_existing_child]
    cases hk : decide (k = a.name) with
    | true =>
      have := of_decide_eq_true hk
      simp [this]
    | false =>
      have := of_decide_eq_false hk
      simp only [List.mem_cons, not_or]
      rw [ih]
      exact ⟨fun h => ⟨fun h' => this h'.symm, h⟩, fun h => h.2⟩

/-- The copy that is put into the list. -/
def copy (a : Attr) : Attr := { a with propagated := true }

theorem isNode_iff {t : Target} : t.isNode = true ↔ ∃ m, t = .node m := by
  cases t <;> simp [Target.isNode]

/-- There is nothing wrong with handing `a` on to `t`. -/
structure OkStep (env : Env) (t : Target) (a : Attr) (l : List Attr) : Prop where
  own : ∀ b, b ∈ l → b.name = a.name → (∃ m, t = .node m) ∧ Redeclares b a
  kid : ∀ m, t = .node m → a.name ∈ env.kids m → ∃ b, b ∈ l ∧ b.name = a.name

theorem step_spec (env : Env) (t : Target) (a : Attr) (s : PState) :
    (∀ u, u ≠ t → (propagate_attribute env t a s).attrs u = s.attrs u) ∧
    ((propagate_attribute env t a s).attrs t = s.attrs t ∨ (propagate_attribute env t a s).attrs t = copy a :: s.attrs t) ∧
    s.errors ≤ (propagate_attribute env t a s).errors ∧
    ((propagate_attribute env t a s).errors = s.errors ↔ OkStep env t a (s.attrs t)) ∧
    ((propagate_attribute env t a s).errors = s.errors →
      ((∃ b, b ∈ s.attrs t ∧ b.name = a.name) ∧ (propagate_attribute env t a s).attrs t = s.attrs t) ∨
      ((∀ b, b ∈ s.attrs t → b.name ≠ a.name) ∧ (propagate_attribute env t a s).attrs t = copy a :: s.attrs t)) := by
  obtain ⟨h1, h2, h3⟩ := existing_spec t.isNode a (s.attrs t) false 0
  rw [propagate_attribute]
  cases hc : check_existing_attributes t.isNode a (s.attrs t) false 0 with
  | mk ex n =>
    simp only [hc, Bool.false_eq_true, false_or] at h1 h2 h3
    cases ex with
    | true =>
      refine ⟨fun _ _ => rfl, .inl rfl, Nat.le_add_right _ _, ⟨fun h => ?_, fun h => ?_⟩, fun h => ?_⟩
      · simp only at h
        have hn : n = 0 := by omega
        exact ⟨fun b hb hne => ⟨isNode_iff.1 (h2.1 hn b hb hne).1, (h2.1 hn b hb hne).2⟩,
          fun _ _ _ => (h3 hn).1 rfl⟩
      · have : n = 0 := h2.2 fun b hb hne => ⟨isNode_iff.2 (h.own b hb hne).1, (h.own b hb hne).2⟩
        simp [this]
      · simp only at h
        exact .inl ⟨(h3 (by omega)).1 rfl, rfl⟩
    | false =>
      refine ⟨fun u hu => by simp [hu], .inr (by simp [copy]), by simp only; omega, ⟨fun h => ?_, fun h => ?_⟩, fun h => ?_⟩
      · simp only at h
        have hn : n = 0 := by omega
        refine ⟨fun b hb hne => ⟨isNode_iff.1 (h2.1 hn b hb hne).1, (h2.1 hn b hb hne).2⟩, fun m hm hk => ?_⟩
        subst hm
        have : check_existing_child a (env.kids m) = 0 := by
          simp only [childErrors] at h
          omega
        exact absurd hk ((child_spec a _).1 this)
      · have hn : n = 0 := h2.2 fun b hb hne => ⟨isNode_iff.2 (h.own b hb hne).1, (h.own b hb hne).2⟩
        have hno := mt (h3 hn).2 (by simp)
        cases t with
        | set j => simp [hn, childErrors]
        | node m =>
          have : check_existing_child a (env.kids m) = 0 := (child_spec a _).2 fun hk => hno (h.kid m rfl hk)
          simp [hn, childErrors, this]
      · simp only at h
        have hno := mt (h3 (by omega)).2 (by simp)
        exact .inr ⟨fun b hb hne => hno ⟨b, hb, hne⟩, by simp [copy]⟩

/-- A step: to whom, from which nodeset, which attribute. -/
abbrev Ev := Target × Nat × Attr

/-- A step as a function. -/
def doEv (env : Env) (s : PState) (e : Ev) : PState := propagate_attribute env e.1 e.2.2 s

/-- The state after the steps `es`. -/
structure Inv (env : Env) (init : Target → List Attr) (es : List Ev) (s : PState) : Prop where
  sub : ∀ t b, b ∈ init t → b ∈ s.attrs t
  src : ∀ t b, b ∈ s.attrs t → b ∈ init t ∨ ∃ i a, (t, i, a) ∈ es ∧ b = copy a
  got : s.errors = 0 → ∀ t i a, (t, i, a) ∈ es → ∃ b, b ∈ s.attrs t ∧ SameSignature a b
  gotSet : s.errors = 0 → ∀ j i a, (Target.set j, i, a) ∈ es → copy a ∈ s.attrs (.set j)
  nodup : s.errors = 0 → ∀ t, Distinct (s.attrs t)
  kids : s.errors = 0 → ∀ m b, b ∈ s.attrs (.node m) → b ∈ init (.node m) ∨ b.name ∉ env.kids m
  own : ∀ i, (s.attrs (.set i)).filter (fun a => !a.propagated) = init (.set i)

/-- The steps are without conflict. -/
structure LegalEv (env : Env) (init : Target → List Attr) (es : List Ev) : Prop where
  own : ∀ t i a b, (t, i, a) ∈ es → b ∈ init t → b.name = a.name → (∃ m, t = .node m) ∧ Redeclares b a
  two : ∀ t i i' a a', (t, i, a) ∈ es → (t, i', a') ∈ es → a'.name = a.name →
    (i', a') = (i, a) ∨ ∃ b, b ∈ init t ∧ b.name = a.name
  kid : ∀ m i a, (Target.node m, i, a) ∈ es → a.name ∈ env.kids m → ∃ b, b ∈ init (.node m) ∧ b.name = a.name

theorem distinct_eq {l : List Attr} (h : Distinct l) {a b : Attr} (ha : a ∈ l) (hb : b ∈ l) (hn : a.name = b.name) : a = b := by
  induction l with
  | nil => cases ha
  | cons x rest ih =>
    rw [Distinct, List.map_cons, List.nodup_cons] at h
    rcases List.mem_cons.1 ha with ha1 | ha1 <;> rcases List.mem_cons.1 hb with hb1 | hb1
    · rw [ha1, hb1]
    · exact absurd (List.mem_map.2 ⟨b, hb1, by rw [← hn, ha1]⟩) h.1
    · exact absurd (List.mem_map.2 ⟨a, ha1, by rw [hn, hb1]⟩) h.1
    · exact ih h.2 ha1 hb1

theorem Inv.step {env init es s} (v : Inv env init es s) (e : Ev) : Inv env init (es ++ [e]) (doEv env s e) := by
  obtain ⟨t, i, a⟩ := e
  obtain ⟨h1, h2, h3, h4, h5⟩ := step_spec env t a s
  have hz : (doEv env s (t, i, a)).errors = 0 → s.errors = 0 ∧ (propagate_attribute env t a s).errors = s.errors := by
    intro h
    simp only [doEv] at h
    omega
  have hmono : ∀ u b, b ∈ s.attrs u → b ∈ (propagate_attribute env t a s).attrs u := by
    intro u b hb
    by_cases hu : u = t
    · subst hu
      rcases h2 with h2 | h2
      · rw [h2]; exact hb
      · rw [h2]; exact List.mem_cons_of_mem _ hb
    · rw [h1 u hu]; exact hb
  refine ⟨fun u b hb => hmono u b (v.sub u b hb), fun u b hb => ?_, fun he u k c hm => ?_, fun he j k c hm => ?_,
    fun he u => ?_, fun he m b hb => ?_, fun j => ?_⟩
  · have old : b ∈ s.attrs u → b ∈ init u ∨ ∃ k c, (u, k, c) ∈ es ++ [(t, i, a)] ∧ b = copy c := fun h =>
      (v.src u b h).imp id fun ⟨k, c, h, e⟩ => ⟨k, c, List.mem_append_left _ h, e⟩
    simp only [doEv] at hb
    by_cases hu : u = t
    · subst hu
      rcases h2 with h2 | h2
      · rw [h2] at hb; exact old hb
      · rw [h2] at hb
        rcases List.mem_cons.1 hb with hb | hb
        · exact .inr ⟨i, a, by simp, hb⟩
        · exact old hb
    · rw [h1 u hu] at hb; exact old hb
  · obtain ⟨he0, hs⟩ := hz he
    rcases List.mem_append.1 hm with hm | hm
    · obtain ⟨b, hb, h⟩ := v.got he0 u k c hm
      exact ⟨b, hmono u b hb, h⟩
    · rw [List.mem_singleton] at hm
      cases hm
      rcases h5 hs with ⟨⟨b, hb, hne⟩, _⟩ | ⟨_, hl⟩
      · exact ⟨b, hmono _ b hb, ((h4.1 hs).own b hb hne).2.same⟩
      · exact ⟨copy a, by simp only [doEv]; rw [hl]; exact List.mem_cons_self, ⟨rfl, rfl, rfl, rfl, fun _ => rfl⟩⟩
  · obtain ⟨he0, hs⟩ := hz he
    rcases List.mem_append.1 hm with hm | hm
    · exact hmono _ _ (v.gotSet he0 j k c hm)
    · rw [List.mem_singleton] at hm
      cases hm
      rcases h5 hs with ⟨⟨b, hb, hne⟩, _⟩ | ⟨_, hl⟩
      · obtain ⟨m, hm⟩ := ((h4.1 hs).own b hb hne).1
        cases hm
      · simp only [doEv]; rw [hl]; exact List.mem_cons_self
  · obtain ⟨he0, hs⟩ := hz he
    simp only [doEv]
    by_cases hu : u = t
    · subst hu
      rcases h5 hs with ⟨_, hl⟩ | ⟨hno, hl⟩
      · rw [hl]; exact v.nodup he0 u
      · rw [hl, Distinct, List.map_cons, List.nodup_cons]
        refine ⟨fun hm => ?_, v.nodup he0 u⟩
        obtain ⟨b, hb, hn⟩ := List.mem_map.1 hm
        exact hno b hb hn
    · rw [h1 u hu]; exact v.nodup he0 u
  · obtain ⟨he0, hs⟩ := hz he
    simp only [doEv] at hb
    by_cases hu : Target.node m = t
    · subst hu
      rcases h5 hs with ⟨_, hl⟩ | ⟨hno, hl⟩
      · rw [hl] at hb; exact v.kids he0 m b hb
      · rw [hl] at hb
        rcases List.mem_cons.1 hb with hb | hb
        · subst hb
          refine .inr fun hk => ?_
          obtain ⟨b, hb, hn⟩ := (h4.1 hs).kid m rfl hk
          exact hno b hb hn
        · exact v.kids he0 m b hb
    · rw [h1 _ hu] at hb; exact v.kids he0 m b hb
  · simp only [doEv]
    by_cases hu : Target.set j = t
    · subst hu
      rcases h2 with h2 | h2
      · rw [h2]; exact v.own j
      · rw [h2, List.filter_cons_of_neg (by simp [copy])]; exact v.own j
    · rw [h1 _ hu]; exact v.own j

/-- Steps without conflict yield no error. -/
theorem Inv.accept {env init es s} (v : Inv env init es s) (he : s.errors = 0) (e : Ev)
    (hl : LegalEv env init (es ++ [e])) (hn : e ∉ es) : (doEv env s e).errors = 0 := by
  obtain ⟨t, i, a⟩ := e
  obtain ⟨_, _, _, h4, _⟩ := step_spec env t a s
  have hlast : (t, i, a) ∈ es ++ [(t, i, a)] := by simp
  rw [doEv, h4.2 ?_, he]
  refine ⟨fun b hb hne => ?_, fun m hm hk => ?_⟩
  · rcases v.src t b hb with hi | ⟨i', a', hm, rfl⟩
    · exact hl.own t i a b hlast hi hne
    · rcases hl.two t i i' a a' hlast (List.mem_append_left _ hm) hne with h | ⟨b0, hb0, hn0⟩
      · cases h; exact absurd hm hn
      · have := distinct_eq (v.nodup he t) hb (v.sub t b0 hb0) (hne.trans hn0.symm)
        rw [this]
        exact hl.own t i a b0 hlast hb0 hn0
  · subst hm
    obtain ⟨b, hb, hb'⟩ := hl.kid m i a hlast hk
    exact ⟨b, v.sub _ b hb, hb'⟩

/-- A step without error has no conflict with the steps before, if nodesets do not use the constructor keyword. -/
theorem Inv.reject {env init es s} (v : Inv env init es s) (e : Ev) (he : (doEv env s e).errors = 0)
    (hc : ∀ e' ∈ es ++ [e], e'.2.2.ctor = false) (hl : s.errors = 0 → LegalEv env init es) :
    LegalEv env init (es ++ [e]) := by
  obtain ⟨t, i, a⟩ := e
  obtain ⟨_, _, h3, h4, h5⟩ := step_spec env t a s
  simp only [doEv] at he
  have he0 : s.errors = 0 := by omega
  have ok := h4.1 (by omega)
  have hl := hl he0
  -- an attribute of the list with this name is a declared one
  have key : ∀ b, b ∈ s.attrs t → b.name = a.name → b ∈ init t := by
    intro b hb hn
    rcases v.src t b hb with h | ⟨i', a', hm, rfl⟩
    · exact h
    · have h1 := (ok.own _ hb hn).2.ctor
      have h2 := hc _ (List.mem_append_left [(t, i, a)] hm)
      simp only [copy] at h1
      simp only at h2
      rw [h2] at h1; cases h1
  have kid : ∀ m, t = .node m → a.name ∈ env.kids m → ∃ b, b ∈ init t ∧ b.name = a.name := fun m hm hk => by
    obtain ⟨b, hb, hn⟩ := ok.kid m hm hk
    exact ⟨b, key b hb hn, hn⟩
  have two : ∀ i' a', (t, i', a') ∈ es → a'.name = a.name → ∃ b, b ∈ init t ∧ b.name = a.name := by
    intro i' a' hm hn
    obtain ⟨b, hb, hs⟩ := v.got he0 t i' a' hm
    exact ⟨b, key b hb (hs.name.trans hn), hs.name.trans hn⟩
  refine ⟨fun u k c b hm hb hn => ?_, fun u k k' c c' hm hm' hn => ?_, fun m k c hm hk => ?_⟩
  · rcases List.mem_append.1 hm with hm | hm
    · exact hl.own u k c b hm hb hn
    · rw [List.mem_singleton] at hm; cases hm
      exact ok.own b (v.sub _ b hb) hn
  · rcases List.mem_append.1 hm with hm | hm <;> rcases List.mem_append.1 hm' with hm' | hm'
    · exact hl.two u k k' c c' hm hm' hn
    · rw [List.mem_singleton] at hm'; cases hm'
      obtain ⟨b, hb, hb'⟩ := two k c hm hn.symm
      exact .inr ⟨b, hb, hb'.trans hn⟩
    · rw [List.mem_singleton] at hm; cases hm
      exact .inr (two k' c' hm' hn)
    · rw [List.mem_singleton] at hm hm'; cases hm; cases hm'
      exact .inl rfl
  · rcases List.mem_append.1 hm with hm | hm
    · exact hl.kid m k c hm hk
    · rw [List.mem_singleton] at hm; cases hm
      exact kid m rfl hk

theorem LegalEv.sub {env init es e} (h : LegalEv env init (es ++ [e])) : LegalEv env init es :=
  ⟨fun t i a b hm => h.own t i a b (List.mem_append_left _ hm),
    fun t i i' a a' hm hm' => h.two t i i' a a' (List.mem_append_left _ hm) (List.mem_append_left _ hm'),
    fun m i a hm => h.kid m i a (List.mem_append_left _ hm)⟩

/-- All steps one after the other. -/
theorem run_spec {env init} (es : List Ev) : ∀ es0 s, Inv env init es0 s →
    (LegalEv env init es0 → s.errors = 0) →
    ((∀ e ∈ es0, e.2.2.ctor = false) → s.errors = 0 → LegalEv env init es0) → (es0 ++ es).Nodup →
    Inv env init (es0 ++ es) (es.foldl (doEv env) s) ∧
    (LegalEv env init (es0 ++ es) → (es.foldl (doEv env) s).errors = 0) ∧
    ((∀ e ∈ es0 ++ es, e.2.2.ctor = false) → (es.foldl (doEv env) s).errors = 0 → LegalEv env init (es0 ++ es)) := by
  induction es with
  | nil => intro es0 s v h1 h2 _; simp only [List.append_nil, List.foldl_nil]; exact ⟨v, h1, h2⟩
  | cons e es ih =>
    intro es0 s v h1 h2 hn
    have hcat : es0 ++ e :: es = (es0 ++ [e]) ++ es := by simp
    rw [hcat] at hn ⊢
    rw [List.foldl_cons]
    refine ih (es0 ++ [e]) _ (v.step e) (fun hl => ?_) (fun hc he => ?_) hn
    · refine v.accept (h1 hl.sub) e hl fun hm => ?_
      have := (List.nodup_append.1 (List.nodup_append.1 hn).1).2.2 e hm e (by simp)
      exact this rfl
    · exact v.reject e he hc (h2 fun e' h => hc e' (List.mem_append_left _ h))

/-- The members that are nodes. -/
def nodesOf : List Entry → List Target
  | [] => []
  | .node m :: rest => .node m :: nodesOf rest
  | _ :: rest => nodesOf rest

/-- To whom a nodeset hands its attributes on. -/
def targets (env : Env) (i : Nat) : List Target := (env.table i).map .set ++ nodesOf (env.members i)

/-- The steps for one nodeset and one target. -/
def evs1 (init : Target → List Attr) (i : Nat) (t : Target) : List Ev := (init (.set i)).map fun a => (t, i, a)

/-- All steps for some nodesets. -/
def evs (env : Env) (init : Target → List Attr) (is : List Nat) : List Ev :=
  is.flatMap fun i => (targets env i).flatMap fun t => evs1 init i t

theorem attributes_fold (env : Env) (t : Target) (l : List Attr) : ∀ s,
    propagate_attributes env t l s = (l.filter fun a => !a.propagated).foldl (fun s a => propagate_attribute env t a s) s := by
  induction l with
  | nil => exact fun _ => rfl
  | cons a rest ih =>
    intro s
    rw [propagate_attributes]
    cases h : a.propagated with
    | true => rw [List.filter_cons_of_neg (by simp [h])]; exact ih s
    | false => rw [List.filter_cons_of_pos (by simp [h])]; exact ih _

theorem evs1_fold (env : Env) (init : Target → List Attr) (i : Nat) (t : Target) (s : PState) :
    (evs1 init i t).foldl (doEv env) s = (init (.set i)).foldl (fun s a => propagate_attribute env t a s) s := by
  rw [evs1, List.foldl_map]
  rfl

theorem attrs_own {env init} (es : List Ev) : ∀ {es0 s}, Inv env init es0 s →
    Inv env init (es0 ++ es) (es.foldl (doEv env) s) := by
  induction es with
  | nil => intro es0 s v; simpa using v
  | cons e es ih =>
    intro es0 s v
    have := ih (v.step e)
    simpa using this

theorem target_fold {env init} {es0 : List Ev} {s : PState} (v : Inv env init es0 s) (i : Nat) (t : Target) :
    propagate_attributes env t (s.attrs (.set i)) s = (evs1 init i t).foldl (doEv env) s := by
  rw [attributes_fold, v.own i, evs1_fold]

theorem table_fold {env init} (i : Nat) (l : List Nat) : ∀ {es0 s}, Inv env init es0 s →
    PRAnodeset_child_entry env i l s = ((l.map Target.set).flatMap (evs1 init i)).foldl (doEv env) s := by
  induction l with
  | nil => exact fun _ => rfl
  | cons j rest ih =>
    intro es0 s v
    rw [PRAnodeset_child_entry, target_fold v, List.map_cons, List.flatMap_cons, List.foldl_append]
    exact ih (attrs_own _ v)

theorem members_fold {env init} (i : Nat) (l : List Entry) : ∀ {es0 s}, Inv env init es0 s →
    (∀ x ∈ l, ∃ m, x = Entry.node m) →
    PRAsetliteral env i l s = .ok (((nodesOf l).flatMap (evs1 init i)).foldl (doEv env) s) := by
  induction l with
  | nil => exact fun _ _ => rfl
  | cons x rest ih =>
    intro es0 s v hx
    obtain ⟨m, rfl⟩ := hx x List.mem_cons_self
    rw [PRAsetliteral, target_fold v, nodesOf, List.flatMap_cons, List.foldl_append]
    exact ih (attrs_own _ v) (fun y hy => hx y (List.mem_cons_of_mem _ hy))

theorem sets_fold {env init} (is : List Nat) : ∀ {es0 s}, Inv env init es0 s →
    (∀ i ∈ is, ∀ x ∈ env.members i, ∃ m, x = Entry.node m) →
    PRAinodeset env is s = .ok ((evs env init is).foldl (doEv env) s) := by
  induction is with
  | nil => exact fun _ _ => rfl
  | cons i rest ih =>
    intro es0 s v hm
    have e1 := table_fold i (env.table i) v
    have v1 := attrs_own ((((env.table i).map Target.set).flatMap (evs1 init i))) v
    have e2 := members_fold i (env.members i) v1 (hm i List.mem_cons_self)
    have v2 := attrs_own ((nodesOf (env.members i)).flatMap (evs1 init i)) v1
    rw [PRAinodeset, e1, e2, Res.bind_ok, ih v2 (fun j hj => hm j (List.mem_cons_of_mem _ hj)), evs, evs,
      List.flatMap_cons, targets, List.flatMap_append, List.foldl_append, List.foldl_append]

theorem mem_nodesOf {l : List Entry} {t : Target} : t ∈ nodesOf l ↔ ∃ m, t = .node m ∧ Entry.node m ∈ l := by
  induction l with
  | nil => simp [nodesOf]
  | cons x rest ih =>
    cases x with
    | null => simp [nodesOf, ih]
    | other => simp [nodesOf, ih]
    | node k =>
      rw [nodesOf, List.mem_cons, ih]
      constructor
      · rintro (h | ⟨m, h, h'⟩)
        · exact ⟨k, h, List.mem_cons_self⟩
        · exact ⟨m, h, List.mem_cons_of_mem _ h'⟩
      · rintro ⟨m, h, h'⟩
        rcases List.mem_cons.1 h' with h' | h'
        · cases h'; exact .inl h
        · exact .inr ⟨m, h, h'⟩

theorem mem_targets {env : Env} {i : Nat} {t : Target} : t ∈ targets env i ↔ Above env i t := by
  rw [targets, List.mem_append, mem_nodesOf, List.mem_map]
  cases t with
  | node m =>
    simp only [Above]
    constructor
    · rintro (⟨_, _, h⟩ | ⟨k, h, h'⟩)
      · cases h
      · cases h; exact h'
    · exact fun h => .inr ⟨m, rfl, h⟩
  | set j =>
    simp only [Above]
    constructor
    · rintro (⟨k, h', h⟩ | ⟨k, h, h'⟩)
      · cases h; exact h'
      · cases h
    · exact fun h => .inl ⟨j, h, rfl⟩

theorem mem_evs {env : Env} {init} {t i a} : (t, i, a) ∈ evs env init (List.range env.sets) ↔ Receives env init t i a := by
  simp only [evs, List.mem_flatMap, List.mem_range, evs1, List.mem_map, Prod.mk.injEq, Receives]
  constructor
  · rintro ⟨j, hj, u, hu, b, hb, rfl, rfl, rfl⟩
    exact ⟨hj, hb, mem_targets.1 hu⟩
  · rintro ⟨h1, h2, h3⟩
    exact ⟨i, h1, t, mem_targets.2 h3, a, h2, rfl, rfl, rfl⟩

theorem nodup_nodesOf {l : List Entry} (h : l.Nodup) : (nodesOf l).Nodup := by
  induction l with
  | nil => exact List.nodup_nil
  | cons x rest ih =>
    rw [List.nodup_cons] at h
    cases x with
    | null => exact ih h.2
    | other => exact ih h.2
    | node k =>
      rw [nodesOf, List.nodup_cons]
      refine ⟨fun hm => ?_, ih h.2⟩
      obtain ⟨m, hm, hm'⟩ := mem_nodesOf.1 hm
      cases hm
      exact h.1 hm'

theorem nodup_targets {env : Env} {i : Nat} (h1 : (env.table i).Nodup) (h2 : (env.members i).Nodup) :
    (targets env i).Nodup := by
  rw [targets, List.nodup_append]
  refine ⟨?_, nodup_nodesOf h2, fun a ha b hb he => ?_⟩
  · exact List.pairwise_map.2 (h1.imp fun h he => h (by cases he; rfl))
  · obtain ⟨j, _, rfl⟩ := List.mem_map.1 ha
    obtain ⟨m, rfl, _⟩ := mem_nodesOf.1 hb
    cases he

theorem nodup_of_names {l : List Attr} (h : Distinct l) : l.Nodup := by
  have := List.pairwise_map.1 h
  exact this.imp fun h he => h (by rw [he])

theorem nodup_evs {env : Env} {init} (st : Start env init) : (evs env init (List.range env.sets)).Nodup := by
  rw [evs, List.Nodup, List.pairwise_flatMap]
  refine ⟨fun i hi => ?_, List.nodup_range.imp fun {i j} hij x hx y hy he => ?_⟩
  · have hi := List.mem_range.1 hi
    rw [List.pairwise_flatMap]
    refine ⟨fun t _ => ?_, (nodup_targets (st.table i hi) (st.members i hi)).imp fun {t u} htu x hx y hy he => ?_⟩
    · rw [evs1, List.pairwise_map]
      exact (nodup_of_names (st.distinct _)).imp fun h he => h (by cases he; rfl)
    · obtain ⟨a, _, rfl⟩ := List.mem_map.1 hx
      obtain ⟨b, _, rfl⟩ := List.mem_map.1 hy
      cases he
      exact htu rfl
  · obtain ⟨t, _, hx⟩ := List.mem_flatMap.1 hx
    obtain ⟨u, _, hy⟩ := List.mem_flatMap.1 hy
    obtain ⟨a, _, rfl⟩ := List.mem_map.1 hx
    obtain ⟨b, _, rfl⟩ := List.mem_map.1 hy
    cases he
    exact hij rfl

theorem Inv.start {env init} (st : Start env init) : Inv env init [] { attrs := init, errors := 0 } := by
  refine ⟨fun _ _ h => h, fun _ _ h => .inl h, fun _ _ _ _ h => (by cases h), fun _ _ _ _ h => (by cases h),
    fun _ => st.distinct, fun _ _ _ h => .inl h, fun i => ?_⟩
  rw [List.filter_eq_self]
  intro a ha
  simp [st.unmarked i a ha]

theorem legal_iff {env : Env} {init} (st : Start env init) :
    LegalEv env init (evs env init (List.range env.sets)) ↔ Legal env init := by
  constructor
  · intro h
    refine ⟨fun t i a b hr => h.own t i a b (mem_evs.2 hr), fun t i i' a a' hr hr' hn => ?_,
      fun m i a hr => h.kid m i a (mem_evs.2 hr)⟩
    exact (h.two t i i' a a' (mem_evs.2 hr) (mem_evs.2 hr') hn).imp (fun h => by cases h; rfl) id
  · intro h
    refine ⟨fun t i a b hm => h.own t i a b (mem_evs.1 hm), fun t i i' a a' hm hm' hn => ?_,
      fun m i a hm => h.kid m i a (mem_evs.1 hm)⟩
    have hr := mem_evs.1 hm; have hr' := mem_evs.1 hm'
    refine (h.two t i i' a a' hr hr' hn).imp (fun h => ?_) id
    subst h
    rw [distinct_eq (st.distinct (.set i')) hr'.2.1 hr.2.1 hn]

theorem PRAast_spec {env : Env} {init} (st : Start env init) :
    ∃ s, PRAast env init = .ok s ∧ Inv env init (evs env init (List.range env.sets)) s ∧
      (Legal env init → s.errors = 0) ∧
      ((∀ i, i < env.sets → ∀ a, a ∈ init (.set i) → a.ctor = false) → s.errors = 0 → Legal env init) := by
  have v0 := Inv.start st
  have hl0 : LegalEv env init [] := ⟨fun _ _ _ _ h => (by cases h), fun _ _ _ _ _ h => (by cases h), fun _ _ _ h => (by cases h)⟩
  obtain ⟨v, h1, h2⟩ := run_spec (evs env init (List.range env.sets)) [] _ v0 (fun _ => rfl) (fun _ _ => hl0)
    (by simpa using nodup_evs st)
  rw [List.nil_append] at v h1 h2
  refine ⟨_, sets_fold (List.range env.sets) v0 (fun i hi x hx => st.nodes i x (List.mem_range.1 hi) hx), v,
    fun hl => h1 ((legal_iff st).2 hl), fun hc he => (legal_iff st).1 (h2 (fun e hm => ?_) he)⟩
  obtain ⟨t, i, a⟩ := e
  have := mem_evs.1 hm
  exact hc i this.1 a this.2.1

/-- What is added to a list of attributes, and what of it has a name that is declared already. -/
structure Added (env : Env) (init : Target → List Attr) (es : List Ev) (s : PState) : Prop where
  front : ∀ t, ∃ new, s.attrs t = new ++ init t ∧ ∀ b ∈ new, ∃ i a, (t, i, a) ∈ es ∧ b = copy a
  again : s.errors = 0 → ∀ t i a b, (t, i, a) ∈ es → b ∈ init t → b.name = a.name → (∃ m, t = .node m) ∧ Redeclares b a

theorem Added.step {env init es s} (v : Added env init es s) (e : Ev) : Added env init (es ++ [e]) (doEv env s e) := by
  obtain ⟨t, i, a⟩ := e
  obtain ⟨h1, h2, _, h4, _⟩ := step_spec env t a s
  have old : ∀ u, ∃ new, s.attrs u = new ++ init u ∧ ∀ b ∈ new, ∃ k c, (u, k, c) ∈ es ++ [(t, i, a)] ∧ b = copy c := by
    intro u
    obtain ⟨new, g1, g2⟩ := v.front u
    refine ⟨new, g1, fun b hb => ?_⟩
    obtain ⟨k, c, g3, g4⟩ := g2 b hb
    exact ⟨k, c, List.mem_append_left _ g3, g4⟩
  refine ⟨fun u => ?_, fun he u k c b hm hb hn => ?_⟩
  · simp only [doEv]
    by_cases hu : u = t
    · subst hu
      rcases h2 with h2 | h2
      · rw [h2]; exact old u
      · obtain ⟨new, g1, g2⟩ := old u
        refine ⟨copy a :: new, by rw [h2, g1]; rfl, fun b hb => ?_⟩
        rcases List.mem_cons.1 hb with rfl | hb
        · exact ⟨i, a, by simp, rfl⟩
        · exact g2 b hb
    · rw [h1 u hu]; exact old u
  · have hz : s.errors = 0 ∧ (propagate_attribute env t a s).errors = s.errors := by
      simp only [doEv] at he
      omega
    rcases List.mem_append.1 hm with hm | hm
    · exact v.again hz.1 u k c b hm hb hn
    · rw [List.mem_singleton] at hm
      cases hm
      obtain ⟨new, g1, _⟩ := v.front t
      exact (h4.1 hz.2).own b (by rw [g1]; exact List.mem_append_right _ hb) hn

theorem Added.run {env init} (es : List Ev) : ∀ {es0 s}, Added env init es0 s → Added env init (es0 ++ es) (es.foldl (doEv env) s) := by
  induction es with
  | nil => intro es0 s v; simpa using v
  | cons e es ih =>
    intro es0 s v
    rw [List.foldl_cons, show es0 ++ e :: es = (es0 ++ [e]) ++ es by simp]
    exact ih (v.step e)

theorem PRAast_added {env : Env} {init} (st : Start env init) :
    ∃ s, PRAast env init = .ok s ∧ Added env init (evs env init (List.range env.sets)) s :=
  ⟨_, sets_fold (List.range env.sets) (Inv.start st) (fun i hi x hx => st.nodes i x (List.mem_range.1 hi) hx), (by
    have v0 : Added env init [] { attrs := init, errors := 0 } :=
      ⟨fun _ => ⟨[], rfl, fun _ h => (by cases h)⟩, fun _ _ _ _ _ h => (by cases h)⟩
    simpa using v0.run (evs env init (List.range env.sets)))⟩

end Verif.Propagate
