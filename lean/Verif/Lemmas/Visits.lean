import Verif.Spec.Visits

/-!
# Lemmas about the generation of visit sequences
-/

namespace Verif.Lemmas.Visits
open Verif.Graph Verif.Visits Verif.Spec.Visits

theorem findNode_some {n : Nat × Nat} : ∀ {l : List (Nat × Nat)} {i : Nat}, findNode n l = some i → l[i]? = some n
  | [], i, h => by simp [findNode] at h
  | m :: l, i, h => by
    rw [findNode] at h
    split at h
    · rename_i hm; cases h; simp [hm]
    · cases hf : findNode n l with
      | none => simp [hf] at h
      | some j =>
        simp only [hf, Option.map_some, Option.some.injEq] at h
        subst h
        simpa using findNode_some hf

theorem at_unique {e : Env} (hn : e.g.nodes.Nodup) {o a p q : Nat} (h1 : At e o a p) (h2 : At e o a q) : p = q := by
  obtain ⟨hp, h1⟩ := List.getElem?_eq_some_iff.1 h1
  obtain ⟨hq, h2⟩ := List.getElem?_eq_some_iff.1 h2
  exact (List.getElem_inj (h₀ := hp) (h₁ := hq) hn).1 (h1.trans h2.symm)

/-- What may be in the queue: no attribute that a visit of a child produces, and visits of children. -/
def Fine (e : Env) : Item → Prop
  | .node i => ∀ o a, At e o a i → o = e.self ∨ e.syn a = false
  | .visit c _ => c ∈ e.children

/-- Dependencies are put into the queue. -/
structure Grow (e : Env) (s s' : St) : Prop where
  scheduled : s'.scheduled = s.scheduled
  keep : ∀ x, x ∈ s.queue → x ∈ s'.queue
  fine : ∀ x, x ∈ s'.queue → x ∈ s.queue ∨ Fine e x

theorem Grow.refl {e : Env} (s : St) : Grow e s s := ⟨rfl, fun _ h => h, fun _ h => Or.inl h⟩

theorem Grow.trans {e : Env} {s t u : St} (h1 : Grow e s t) (h2 : Grow e t u) : Grow e s u :=
  ⟨h2.scheduled.trans h1.scheduled, fun x h => h2.keep x (h1.keep x h), fun x h =>
    (h2.fine x h).elim (fun h => h1.fine x h) Or.inr⟩

theorem want_grow {e : Env} (s : St) {x : Item} (hx : Fine e x) : Grow e s (s.want x) := by
  unfold St.want
  split
  · exact Grow.refl s
  · refine ⟨rfl, fun y h => List.mem_append_left _ h, fun y h => ?_⟩
    rcases List.mem_append.1 h with h | h
    · exact Or.inl h
    · rw [List.mem_singleton] at h; subst h; exact Or.inr hx

theorem sched_grow {e : Env} (hcl : Owned e) {dep : Nat} {s s' : St}
    (h : sched_equation_dependency e dep s = .ok s') : Grow e s s' := by
  unfold sched_equation_dependency at h
  split at h
  · cases h
  rename_i o a hd
  split at h
  · rename_i hb
    simp only [Bool.and_eq_true, decide_eq_true_eq] at hb
    split at h
    · cases h
    split at h
    · cases h
    split at h
    · cases h; exact Grow.refl _
    · cases h
      refine ⟨rfl, fun y h => List.mem_append_left _ h, fun y h => ?_⟩
      rcases List.mem_append.1 h with h | h
      · exact Or.inl h
      · rw [List.mem_singleton] at h; subst h; exact Or.inr (hcl o a dep hd hb.1)
  · rename_i hb
    cases h
    refine want_grow s fun o' a' h' => ?_
    have h' : e.g.nodes[dep]? = some (o', a') := h'
    rw [hd] at h'
    cases h'
    by_cases ho : o = e.self
    · exact Or.inl ho
    · right
      simpa [ho] using hb

theorem schedPrev_spec {e : Env} {child : Nat} (hc : child ∈ e.children) : ∀ {l : List Nat} {s s' : St} {has has' : Bool},
    schedPrev child l s has = (has', s') →
    Grow e s s' ∧ (has' = false → has = false ∧ ∀ i, i ∈ l → s.scheduled (.visit child i) = true)
  | [], s, s', has, has', h => by
    simp only [schedPrev, Prod.mk.injEq] at h
    obtain ⟨h1, h2⟩ := h
    subst h1 h2
    exact ⟨Grow.refl _, fun h => ⟨h, by simp⟩⟩
  | i :: l, s, s', has, has', h => by
    rw [schedPrev] at h
    split at h
    · rename_i hs
      obtain ⟨h1, h2⟩ := schedPrev_spec (e := e) hc h
      refine ⟨h1, fun hf => ⟨(h2 hf).1, fun j hj => ?_⟩⟩
      rcases List.mem_cons.1 hj with hj | hj
      · subst hj; exact hs
      · exact (h2 hf).2 j hj
    · obtain ⟨h1, h2⟩ := schedPrev_spec (e := e) hc h
      refine ⟨(want_grow s (x := .visit child i) hc).trans h1, fun hf => ?_⟩
      exact absurd (h2 hf).1 (by simp)

theorem schedInputs_spec {e : Env} (hcl : Owned e) {child : Nat} : ∀ {l : List Nat} {s s' : St} {has has' : Bool},
    schedInputs e child l s has = .ok (has', s') →
    Grow e s s' ∧
      (has' = false → has = false ∧ ∀ a, a ∈ l → ∃ p, At e child a p ∧ s.scheduled (.node p) = true)
  | [], s, s', has, has', h => by
    simp only [schedInputs, Res.ok.injEq, Prod.mk.injEq] at h
    obtain ⟨h1, h2⟩ := h
    subst h1 h2
    exact ⟨Grow.refl _, fun h => ⟨h, by simp⟩⟩
  | a :: l, s, s', has, has', h => by
    rw [schedInputs] at h
    split at h
    · cases h
    rename_i p hp
    split at h
    · rename_i hs
      obtain ⟨h1, h2⟩ := schedInputs_spec hcl h
      refine ⟨h1, fun hf => ⟨(h2 hf).1, fun j hj => ?_⟩⟩
      rcases List.mem_cons.1 hj with hj | hj
      · subst hj; exact ⟨p, findNode_some hp, hs⟩
      · exact (h2 hf).2 j hj
    · obtain ⟨s1, h3, h⟩ := Res.bind_eq_ok.1 h
      obtain ⟨h1, h2⟩ := schedInputs_spec hcl h
      refine ⟨(sched_grow hcl h3).trans h1, fun hf => ?_⟩
      exact absurd (h2 hf).1 (by simp)

theorem schedDeps_spec {e : Env} (hcl : Owned e) : ∀ {l : List Nat} {s s' : St} {has has' : Bool},
    schedDeps e l s has = .ok (has', s') →
    Grow e s s' ∧ (has' = false → has = false ∧ ∀ d, d ∈ l → s.scheduled (.node d) = true)
  | [], s, s', has, has', h => by
    simp only [schedDeps, Res.ok.injEq, Prod.mk.injEq] at h
    obtain ⟨h1, h2⟩ := h
    subst h1 h2
    exact ⟨Grow.refl _, fun h => ⟨h, by simp⟩⟩
  | d :: l, s, s', has, has', h => by
    rw [schedDeps] at h
    split at h
    · rename_i hs
      obtain ⟨h1, h2⟩ := schedDeps_spec hcl h
      refine ⟨h1, fun hf => ⟨(h2 hf).1, fun j hj => ?_⟩⟩
      rcases List.mem_cons.1 hj with hj | hj
      · subst hj; exact hs
      · exact (h2 hf).2 j hj
    · obtain ⟨s1, h3, h⟩ := Res.bind_eq_ok.1 h
      obtain ⟨h1, h2⟩ := schedDeps_spec hcl h
      refine ⟨(sched_grow hcl h3).trans h1, fun hf => ?_⟩
      exact absurd (h2 hf).1 (by simp)

theorem mem_find_dependencies {g : Graph} {d i : Nat} (h : DependsOn g d i) : d ∈ find_dependencies g i := by
  obtain ⟨h1, h2, h3⟩ := h
  simp only [find_dependencies, List.mem_reverse, List.mem_filter, List.mem_range, Bool.and_eq_true,
    decide_eq_true_eq]
  refine ⟨h1, h2, ?_⟩
  rcases h3 with h3 | h3 <;> simp [GRlookup_edge, h3]

/-- The table as a set. -/
def K (t : Item → Bool) : Known := fun x => t x = true

theorem K_addTo (t : Item → Bool) (x : Item) : K (addTo t x) = fun y => K t y ∨ y = x := by
  funext y
  simp only [K, addTo, Bool.or_eq_true, decide_eq_true_eq]
  exact propext ⟨Or.symm, Or.symm⟩

theorem markOutputs_spec {e : Env} (hn : e.g.nodes.Nodup) {child : Nat} : ∀ {l : List Nat} {t t' : Item → Bool},
    markOutputs e child l t = .ok t' →
    K t' = fun x => K t x ∨ ∃ a p, a ∈ l ∧ At e child a p ∧ x = .node p
  | [], t, t', h => by
    simp only [markOutputs, Res.ok.injEq] at h
    subst h
    funext x
    simp
  | a :: l, t, t', h => by
    rw [markOutputs] at h
    split at h
    · cases h
    rename_i p hp
    have hp := findNode_some hp
    rw [markOutputs_spec hn h, K_addTo]
    funext x
    apply propext
    constructor
    · rintro ((h | h) | ⟨b, q, hb, hq, hx⟩)
      · exact Or.inl h
      · exact Or.inr ⟨a, p, List.mem_cons_self, hp, h⟩
      · exact Or.inr ⟨b, q, List.mem_cons_of_mem _ hb, hq, hx⟩
    · rintro (h | ⟨b, q, hb, hq, hx⟩)
      · exact Or.inl (Or.inl h)
      · rcases List.mem_cons.1 hb with hb | hb
        · subst hb
          have : q = p := at_unique hn hq hp
          subst this
          exact Or.inl (Or.inr hx)
        · exact Or.inr ⟨b, q, hb, hq, hx⟩

theorem nodesetAlts_spec {e : Env} {k : Nat} : ∀ {ms : List Nat} {alts : List (Nat × Option Nat)},
    nodesetAlts e k ms = .ok alts →
    alts.map (·.1) = ms ∧
      ∀ m o, (m, o) ∈ alts → ∃ vs, e.visits m = some vs ∧ (o = some k ↔ k < vs.length) ∧ (o = none ↔ vs.length ≤ k)
  | [], alts, h => by
    simp only [nodesetAlts, Res.ok.injEq] at h
    subst h
    simp
  | m :: ms, alts, h => by
    rw [nodesetAlts] at h
    split at h
    · cases h
    rename_i vs hv
    obtain ⟨al, h1, h⟩ := Res.bind_eq_ok.1 h
    cases h
    obtain ⟨h2, h3⟩ := nodesetAlts_spec h1
    refine ⟨by simp [h2], fun m' o h => ?_⟩
    rcases List.mem_cons.1 h with h | h
    · cases h
      refine ⟨vs, hv, ?_⟩
      by_cases hk : k < vs.length
      · simp [hk]
      · simp [hk]; omega
    · exact h3 m' o h

/-- The element that is appended is a step. -/
theorem step_spec {e : Env} (hn : e.g.nodes.Nodup) (hcl : Owned e) (hne : ∀ t, e.members t = some [] → e.visits t = none)
    {item : Item} {s s' : St} {t : Item → Bool} {seq seq' : List Ev} (hfine : Fine e item)
    (hun : s.scheduled item = false)
    (hdep : schedItem e item s = .ok (false, s'))
    (hm : mark_scheduled e item s.scheduled = .ok t) (ha : add_visit_sequence e item seq = .ok seq') :
    ∃ ev, seq' = seq ++ [ev] ∧ Step e (K s.scheduled) ev (K t) ∧ t item = true := by
  obtain ⟨new, h1, ha⟩ := Res.bind_eq_ok.1 ha
  cases item with
  | node i =>
    rw [schedItem, sched_equation_dependencies] at hdep
    have hd := ((schedDeps_spec hcl hdep).2 rfl).2
    rw [mark_scheduled] at hm
    cases hm
    rw [newElement] at h1
    split at h1
    · cases h1
    rename_i o a hi
    have hf := hfine o a hi
    split at h1
    · rename_i hb
      simp only [Bool.and_eq_true, decide_eq_true_eq] at hb
      rcases hf with hf | hf
      · exact absurd hf hb.1
      · rw [hf] at hb; exact absurd hb.2 (by simp)
    · cases h1
      simp only at ha
      split at ha
      · cases ha
      cases ha
      refine ⟨_, rfl, ?_, by simp [addTo]⟩
      rw [K_addTo]
      exact Step.eval hi hf (fun d h => hd d (mem_find_dependencies h)) (by simp [K, hun])
  | visit c k =>
    rw [schedItem, sched_visit_dependencies] at hdep
    rw [mark_scheduled] at hm
    split at hdep
    · cases hdep
    rename_i v hv
    rw [hv] at hm
    simp only at hm
    obtain ⟨t1, hm1, hm⟩ := Res.bind_eq_ok.1 hm
    cases hm
    generalize hp : schedPrev c (List.range k) s false = r at hdep
    obtain ⟨has, s1⟩ := r
    obtain ⟨g1, g2⟩ := schedPrev_spec (e := e) hfine hp
    simp only at hdep
    obtain ⟨_, g3⟩ := schedInputs_spec hcl hdep
    obtain ⟨g4, g5⟩ := g3 rfl
    subst g4
    have g6 := (g2 rfl).2
    have hvo : VisitOf e c k v := by
      cases hvs : e.visits (e.typeOf c) with
      | none => simp [hvs] at hv
      | some vs => exact ⟨vs, hvs, by simpa [hvs] using hv⟩
    have key : ∀ alts, Alternatives e c k alts → alts ≠ [] →
        Step e (K s.scheduled) (.visit c k alts) (K (addTo t1 (.visit c k))) := by
      intro alts hal hnil
      have : K (addTo t1 (.visit c k)) =
          fun x => K s.scheduled x ∨ x = .visit c k ∨ ∃ a p, a ∈ v.outputs ∧ At e c a p ∧ x = .node p := by
        rw [K_addTo, markOutputs_spec hn hm1]
        funext x
        apply propext
        constructor
        · rintro ((h | h) | h)
          · exact Or.inl h
          · exact Or.inr (Or.inr h)
          · exact Or.inr (Or.inl h)
        · rintro (h | h | h)
          · exact Or.inl (Or.inl h)
          · exact Or.inr h
          · exact Or.inl (Or.inr h)
      rw [this]
      refine Step.visit hfine hvo hal hnil (fun j hj => g6 j (List.mem_range.2 hj)) (fun a ha => ?_) (by simp [K, hun])
      obtain ⟨p, h1, h2⟩ := g5 a ha
      rw [g1.scheduled] at h2
      exact ⟨p, h1, h2⟩
    rw [newElement] at h1
    cases hms : e.members (e.typeOf c) with
    | none =>
      simp only [hms] at h1
      cases h1
      simp only at ha
      split at ha
      · cases ha
      cases ha
      exact ⟨_, rfl, key _ (by simp [Alternatives, hms]) (by simp), by simp [addTo]⟩
    | some ms =>
      simp only [hms] at h1
      obtain ⟨alts, h2, h1⟩ := Res.bind_eq_ok.1 h1
      have h3 := nodesetAlts_spec h2
      cases alts with
      | nil =>
        have : ms = [] := by simpa using h3.1.symm
        subst this
        obtain ⟨vs, hvs, _⟩ := hvo
        rw [hne _ hms] at hvs
        cases hvs
      | cons x alts =>
        cases h1
        simp only at ha
        split at ha
        · cases ha
        cases ha
        exact ⟨_, rfl, key _ (by simpa only [Alternatives, hms] using h3) (by simp), by simp [addTo]⟩

theorem step_mono {e : Env} {S T : Known} {ev : Ev} (h : Step e S ev T) : ∀ x, S x → T x := by
  cases h <;> exact fun x hx => Or.inl hx

theorem runs_mono {e : Env} {S T : Known} {evs : List Ev} (h : Runs e S evs T) : ∀ x, S x → T x := by
  induction h with
  | nil => exact fun _ h => h
  | cons h1 _ ih => exact fun x hx => ih x (step_mono h1 x hx)

theorem mem_dropWhile {p : Item → Bool} {x : Item} : ∀ {l : List Item}, x ∈ l → p x = true ∨ x ∈ l.dropWhile p
  | [], h => by simp at h
  | y :: l, h => by
    rw [List.dropWhile_cons]
    split
    · rename_i hy
      rcases List.mem_cons.1 h with h | h
      · subst h; exact Or.inl hy
      · exact mem_dropWhile h
    · exact Or.inr h

theorem dropWhile_head {p : Item → Bool} {x : Item} {r : List Item} : ∀ {l : List Item},
    l.dropWhile p = x :: r → p x = false
  | [], h => by simp at h
  | y :: l, h => by
    rw [List.dropWhile_cons] at h
    split at h
    · exact dropWhile_head h
    · rename_i hy; cases h; simpa using hy

theorem loop_spec {e : Env} (hn : e.g.nodes.Nodup) (hcl : Owned e) (hne : ∀ t, e.members t = some [] → e.visits t = none) :
    ∀ (left : Nat) {s s' : St} {seq seq' : List Ev}, (∀ x, x ∈ s.queue → Fine e x) →
    visitLoop e left s seq = .ok (s', seq') →
    ∃ new, seq' = seq ++ new ∧ Runs e (K s.scheduled) new (K s'.scheduled) ∧
      ∀ x, x ∈ s.queue → s'.scheduled x = true := by
  intro left
  induction left with
  | zero =>
    intro s s' seq seq' hq h
    rw [visitLoop] at h
    split at h
    · rename_i hd
      cases h
      refine ⟨[], by simp, Runs.nil, fun x hx => ?_⟩
      rcases mem_dropWhile (p := s.scheduled) hx with h | h
      · exact h
      · rw [hd] at h; cases h
    · cases h
  | succ left ih =>
    intro s s' seq seq' hq h
    rw [visitLoop] at h
    split at h
    · rename_i hd
      cases h
      refine ⟨[], by simp, Runs.nil, fun x hx => ?_⟩
      rcases mem_dropWhile (p := s.scheduled) hx with h | h
      · exact h
      · rw [hd] at h; cases h
    rename_i item rest hd
    have hun : s.scheduled item = false := dropWhile_head hd
    have hsub : ∀ x, x ∈ item :: rest → x ∈ s.queue := fun x hx => by
      rw [← hd] at hx
      exact (List.dropWhile_sublist _).subset hx
    simp only at h
    obtain ⟨⟨has, s1⟩, h1, h⟩ := Res.bind_eq_ok.1 h
    have hg : Grow e { s with queue := rest } s1 := by
      cases item with
      | node i => exact (schedDeps_spec hcl h1).1
      | visit c k =>
        simp only [schedItem, sched_visit_dependencies] at h1
        split at h1
        · cases h1
        generalize hp : schedPrev c (List.range k) { s with queue := rest } false = r at h1
        obtain ⟨has', s2⟩ := r
        exact (schedPrev_spec (e := e) (hq _ (hsub _ List.mem_cons_self)) hp).1.trans (schedInputs_spec hcl h1).1
    have hfine : ∀ x, x ∈ s1.queue → Fine e x := fun x hx =>
      (hg.fine x hx).elim (fun hx => hq x (hsub x (List.mem_cons_of_mem _ hx))) id
    have hsch : s1.scheduled = s.scheduled := hg.scheduled
    simp only at h
    cases has with
    | true =>
      simp only at h
      obtain ⟨new, h2, h3, h4⟩ := ih (s := { s1 with queue := s1.queue ++ [item] }) (by
        intro x hx
        rcases List.mem_append.1 hx with hx | hx
        · exact hfine x hx
        · rw [List.mem_singleton] at hx; subst hx; exact hq x (hsub x List.mem_cons_self)) h
      simp only [hsch] at h3
      refine ⟨new, h2, h3, fun x hx => ?_⟩
      rcases mem_dropWhile (p := s.scheduled) hx with hx | hx
      · exact runs_mono h3 x hx
      · rw [hd] at hx
        rcases List.mem_cons.1 hx with hx | hx
        · exact h4 x (by simp [hx])
        · exact h4 x (List.mem_append_left _ (hg.keep x hx))
    | false =>
      simp only at h
      obtain ⟨t, hm, h⟩ := Res.bind_eq_ok.1 h
      obtain ⟨seq1, ha, h⟩ := Res.bind_eq_ok.1 h
      rw [hsch] at hm
      obtain ⟨ev, h2, h3, h4⟩ := step_spec hn hcl hne (s := { s with queue := rest })
        (hq item (hsub item List.mem_cons_self)) hun h1 hm ha
      obtain ⟨new, h5, h6, h7⟩ := ih (s := { s1 with scheduled := t }) hfine h
      refine ⟨ev :: new, by rw [h5, h2]; simp, Runs.cons h3 h6, fun x hx => ?_⟩
      rcases mem_dropWhile (p := s.scheduled) hx with hx | hx
      · exact runs_mono h6 x (step_mono h3 x hx)
      · rw [hd] at hx
        rcases List.mem_cons.1 hx with hx | hx
        · subst hx; exact runs_mono h6 x h4
        · exact h7 x (hg.keep x hx)

theorem ownNodes_spec {e : Env} : ∀ {l is : List Nat}, ownNodes e l = .ok is →
    (∀ a, a ∈ l → ∃ p, At e e.self a p ∧ p ∈ is) ∧ (∀ p, p ∈ is → ∃ a, a ∈ l ∧ At e e.self a p)
  | [], is, h => by
    simp only [ownNodes, Res.ok.injEq] at h
    subst h
    simp
  | a :: l, is, h => by
    rw [ownNodes] at h
    split at h
    · cases h
    rename_i p hp
    have hp := findNode_some hp
    obtain ⟨js, h1, h⟩ := Res.bind_eq_ok.1 h
    cases h
    obtain ⟨h2, h3⟩ := ownNodes_spec h1
    constructor
    · intro b hb
      rcases List.mem_cons.1 hb with hb | hb
      · subst hb; exact ⟨p, hp, List.mem_cons_self⟩
      · obtain ⟨q, h4, h5⟩ := h2 b hb
        exact ⟨q, h4, List.mem_cons_of_mem _ h5⟩
    · intro q hq
      rcases List.mem_cons.1 hq with hq | hq
      · subst hq; exact ⟨a, List.mem_cons_self, hp⟩
      · obtain ⟨b, h4, h5⟩ := h3 q hq
        exact ⟨b, List.mem_cons_of_mem _ h4, h5⟩

theorem childVisits_spec {e : Env} : ∀ {l : List Nat} {items : List Item}, (∀ c, c ∈ l → c ∈ e.children) →
    childVisits e l = .ok items →
    (∀ x, x ∈ items → Fine e x) ∧
    ∀ c, c ∈ l → ∃ vs, e.visits (e.typeOf c) = some vs ∧ ∀ k, k < vs.length → Item.visit c k ∈ items
  | [], items, _, h => by
    simp only [childVisits, Res.ok.injEq] at h
    subst h
    simp
  | c :: l, items, hl, h => by
    rw [childVisits] at h
    split at h
    · cases h
    rename_i vs hv
    obtain ⟨js, h1, h⟩ := Res.bind_eq_ok.1 h
    cases h
    obtain ⟨h2, h3⟩ := childVisits_spec (fun d hd => hl d (List.mem_cons_of_mem _ hd)) h1
    constructor
    · intro x hx
      rcases List.mem_append.1 hx with hx | hx
      · obtain ⟨k, _, hk⟩ := List.mem_map.1 hx
        subst hk; exact hl c List.mem_cons_self
      · exact h2 x hx
    · intro d hd
      rcases List.mem_cons.1 hd with hd | hd
      · subst hd
        exact ⟨vs, hv, fun k hk => List.mem_append_left _ (List.mem_map.2 ⟨k, List.mem_range.2 hk, rfl⟩)⟩
      · obtain ⟨ws, h4, h5⟩ := h3 d hd
        exact ⟨ws, h4, fun k hk => List.mem_append_right _ (h5 k hk)⟩

theorem visit_spec {e : Env} (hn : e.g.nodes.Nodup) (hcl : Owned e) (hne : ∀ t, e.members t = some [] → e.visits t = none)
    {max : Nat} {v : AVisit} {last : Bool} {t t' : Item → Bool} {seq : List Ev}
    (h : generate_visit e max v last t = .ok (t', seq)) :
    Runs e (withInputs e v (K t)) seq (K t') ∧ (∀ a, a ∈ v.outputs → ∃ p, At e e.self a p ∧ K t' (.node p)) ∧
    (last = true → ∀ c, c ∈ e.children →
      ∃ vs, e.visits (e.typeOf c) = some vs ∧ ∀ k, k < vs.length → K t' (.visit c k)) := by
  obtain ⟨outputs, h1, h⟩ := Res.bind_eq_ok.1 h
  obtain ⟨items, h2, h⟩ := Res.bind_eq_ok.1 h
  obtain ⟨inputs, h3, h⟩ := Res.bind_eq_ok.1 h
  obtain ⟨⟨s', seq'⟩, h4, h⟩ := Res.bind_eq_ok.1 h
  cases h
  have hitems : ∀ x, x ∈ items → Fine e x := by
    cases last with
    | true => exact (childVisits_spec (fun _ h => h) h2).1
    | false => cases h2; simp
  obtain ⟨o1, o2⟩ := ownNodes_spec h1
  obtain ⟨i1, i2⟩ := ownNodes_spec h3
  obtain ⟨new, h5, h6, h7⟩ := loop_spec hn hcl hne max (by
    intro x hx
    simp only [queueAll, List.nil_append] at hx
    rcases List.mem_append.1 hx with hx | hx
    · obtain ⟨p, hp, hx⟩ := List.mem_map.1 hx
      subst hx
      obtain ⟨a, _, ha⟩ := o2 p hp
      intro o b hb
      have ha : e.g.nodes[p]? = _ := ha
      rw [show e.g.nodes[p]? = _ from hb] at ha
      cases ha
      exact Or.inl rfl
    · exact hitems x hx) h4
  simp only [List.nil_append] at h5
  subst h5
  have hK : K (fun y => decide (y ∈ inputs.map Item.node) || t y) = withInputs e v (K t) := by
    funext x
    apply propext
    simp only [K, withInputs, Bool.or_eq_true, decide_eq_true_eq]
    constructor
    · rintro (h | h)
      · obtain ⟨p, hp, hx⟩ := List.mem_map.1 h
        obtain ⟨a, ha, hat⟩ := i2 p hp
        exact Or.inr ⟨a, p, ha, hat, hx.symm⟩
      · exact Or.inl h
    · rintro (h | ⟨a, p, ha, hat, hx⟩)
      · exact Or.inr h
      · obtain ⟨q, hq, hm⟩ := i1 a ha
        have : p = q := at_unique hn hat hq
        subst this
        exact Or.inl (List.mem_map.2 ⟨p, hm, hx.symm⟩)
  refine ⟨by rw [← hK]; exact h6, fun a ha => ?_, fun hl c hc => ?_⟩
  · obtain ⟨p, hp, hm⟩ := o1 a ha
    exact ⟨p, hp, h7 _ (by simp [queueAll, hm])⟩
  · subst hl
    obtain ⟨vs, hv, hk⟩ := (childVisits_spec (fun _ h => h) h2).2 c hc
    exact ⟨vs, hv, fun k hk' => h7 _ (by simp [queueAll, hk k hk'])⟩

theorem from_spec {e : Env} (hn : e.g.nodes.Nodup) (hcl : Owned e) (hne : ∀ t, e.members t = some [] → e.visits t = none)
    {max : Nat} : ∀ {vs : List AVisit} {t : Item → Bool} {seqs : List (List Ev)},
    generateFrom e max vs t = .ok seqs →
    ∃ U, Plays e (K t) vs seqs U ∧ (vs ≠ [] → ∀ c, c ∈ e.children →
      ∃ ws, e.visits (e.typeOf c) = some ws ∧ ∀ k, k < ws.length → U (.visit c k))
  | [], t, seqs, h => by
    simp only [generateFrom, Res.ok.injEq] at h
    subst h
    exact ⟨_, Plays.nil, fun h => absurd rfl h⟩
  | v :: vs, t, seqs, h => by
    rw [generateFrom] at h
    obtain ⟨⟨t1, seq⟩, h1, h⟩ := Res.bind_eq_ok.1 h
    obtain ⟨seqs', h2, h⟩ := Res.bind_eq_ok.1 h
    cases h
    obtain ⟨g1, g2, g3⟩ := visit_spec hn hcl hne h1
    obtain ⟨U, g4, g5⟩ := from_spec hn hcl hne h2
    refine ⟨U, Plays.cons g1 g2 g4, fun _ => ?_⟩
    cases vs with
    | nil => cases g4; exact g3 rfl
    | cons w ws => exact g5 (by simp)

end Verif.Lemmas.Visits
