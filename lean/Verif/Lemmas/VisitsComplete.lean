import Verif.Lemmas.Visits

/-!
# Lemmas: visit sequences are found
-/

namespace Verif.Lemmas.Visits
open Verif.Graph Verif.Visits Verif.Spec.Visits

theorem findNode_isSome {n : Nat × Nat} : ∀ {l : List (Nat × Nat)} {i : Nat}, l[i]? = some n → ∃ j, findNode n l = some j
  | [], i, h => by simp at h
  | m :: l, i, h => by
    rw [findNode]
    split
    · exact ⟨0, rfl⟩
    · rename_i hm
      cases i with
      | zero => simp only [List.getElem?_cons_zero, Option.some.injEq] at h; exact absurd h hm
      | succ i =>
        obtain ⟨j, hj⟩ := findNode_isSome (l := l) (i := i) (by simpa using h)
        exact ⟨j + 1, by simp [hj]⟩

theorem lookup_at {e : Env} (hn : e.g.nodes.Nodup) {o a p : Nat} (h : At e o a p) : GRlookup_node e.g o a = some p := by
  obtain ⟨q, hq⟩ := findNode_isSome h
  have : q = p := at_unique hn (findNode_some hq) h
  rw [GRlookup_node, hq, this]

theorem find_visit_some {a : Nat} : ∀ {vs : List AVisit}, (∃ v, v ∈ vs ∧ a ∈ v.outputs) →
    ∃ k v, find_visit a vs = some k ∧ vs[k]? = some v ∧ a ∈ v.outputs
  | [], h => by simp at h
  | v :: vs, h => by
    rw [find_visit]
    by_cases hv : a ∈ v.outputs
    · exact ⟨0, v, by simp [hv], rfl, hv⟩
    · obtain ⟨w, hw, ha⟩ := h
      rcases List.mem_cons.1 hw with hw | hw
      · subst hw; exact absurd ha hv
      · obtain ⟨k, u, h1, h2, h3⟩ := find_visit_some (vs := vs) ⟨w, hw, ha⟩
        exact ⟨k + 1, u, by simp [hv, h1], by simpa using h2, h3⟩

/-- Items that exist. -/
def InU (e : Env) : Item → Prop
  | .node i => i < e.g.nodes.length
  | .visit c k => c ∈ e.children ∧ ∃ v, VisitOf e c k v

/-- A scheduled visit has its outputs scheduled. -/
def Outs (e : Env) (t : Item → Bool) : Prop :=
  ∀ c k v, t (.visit c k) = true → VisitOf e c k v → ∀ a, a ∈ v.outputs → ∀ p, At e c a p → t (.node p) = true

/-- What is marked as queued is in the queue, scheduled, or the item `x` in hand. -/
def Marked (s : St) (x : Item) : Prop := ∀ y, s.queued y = true → y ∈ s.queue ∨ s.scheduled y = true ∨ y = x

/-- Items are appended to the queue. -/
structure Ext (e : Env) (x : Item) (s s' : St) : Prop where
  scheduled : s'.scheduled = s.scheduled
  queue : ∃ ext, s'.queue = s.queue ++ ext ∧ ∀ y, y ∈ ext → InU e y
  marked : Marked s x → Marked s' x

theorem Ext.refl {e : Env} {x : Item} (s : St) : Ext e x s s := ⟨rfl, ⟨[], by simp, by simp⟩, id⟩

theorem Ext.trans {e : Env} {x : Item} {s t u : St} (h1 : Ext e x s t) (h2 : Ext e x t u) : Ext e x s u := by
  refine ⟨h2.scheduled.trans h1.scheduled, ?_, fun h => h2.marked (h1.marked h)⟩
  obtain ⟨a, a1, a2⟩ := h1.queue
  obtain ⟨b, b1, b2⟩ := h2.queue
  refine ⟨a ++ b, by rw [b1, a1]; simp, fun y hy => ?_⟩
  rcases List.mem_append.1 hy with hy | hy
  · exact a2 y hy
  · exact b2 y hy

theorem Ext.keep {e : Env} {x y : Item} {s s' : St} (h : Ext e x s s') (hy : y ∈ s.queue) : y ∈ s'.queue := by
  obtain ⟨a, a1, _⟩ := h.queue
  rw [a1]; exact List.mem_append_left _ hy

theorem want_ext {e : Env} {x y : Item} (s : St) (hy : InU e y) : Ext e x s (s.want y) := by
  unfold St.want
  split
  · exact Ext.refl s
  · refine ⟨rfl, ⟨[y], rfl, by simpa using hy⟩, fun h z hz => ?_⟩
    simp only [addTo, Bool.or_eq_true, decide_eq_true_eq] at hz
    rcases hz with hz | hz
    · subst hz; simp
    · rcases h z hz with h | h
      · exact Or.inl (List.mem_append_left _ h)
      · exact Or.inr h

/-- `y` will be considered. -/
def Waits (s : St) (x y : Item) : Prop := (y ∈ s.queue ∨ y = x) ∧ s.scheduled y = false

theorem Waits.ext {e : Env} {x y : Item} {s s' : St} (h : Waits s x y) (he : Ext e x s s') : Waits s' x y :=
  ⟨h.1.imp (fun h => he.keep h) id, by rw [he.scheduled]; exact h.2⟩

theorem want_waits {x y : Item} {s : St} (hm : Marked s x) (hy : s.scheduled y = false) : Waits (s.want y) x y := by
  unfold St.want
  split
  · rename_i hq
    refine ⟨?_, hy⟩
    rcases hm y hq with h | h | h
    · exact Or.inl h
    · rw [hy] at h; cases h
    · exact Or.inr h
  · exact ⟨Or.inl (by simp), hy⟩

theorem sched_total {e : Env} (hc : Complete e) {x : Item} {s : St} (hm : Marked s x) (ho : Outs e s.scheduled)
    {o a d : Nat} (hd : At e o a d) (hs : s.scheduled (.node d) = false) :
    ∃ s', sched_equation_dependency e d s = .ok s' ∧ Ext e x s s' ∧ ∃ y, Provides e d y ∧ Waits s' x y := by
  have hd' : e.g.nodes[d]? = some (o, a) := hd
  unfold sched_equation_dependency
  rw [hd']
  simp only
  split
  · rename_i hb
    simp only [Bool.and_eq_true, decide_eq_true_eq] at hb
    obtain ⟨k0, v0, ⟨vs, h1, h2⟩, h3⟩ := hc.syn o a d hd hb.1 hb.2
    obtain ⟨k, v, h4, h5, h6⟩ := find_visit_some (vs := vs) ⟨v0, List.mem_of_getElem? h2, h3⟩
    rw [h1]
    simp only [h4]
    have hvo : VisitOf e o k v := ⟨vs, h1, h5⟩
    have hun : s.scheduled (.visit o k) = false := by
      cases hv : s.scheduled (.visit o k) with
      | false => rfl
      | true =>
        have := ho o k v hv hvo a h6 d hd
        rw [hs] at this; cases this
    have hp : Provides e d (.visit o k) := .visit hd hb.1 hb.2 hvo h6
    split
    · rename_i hq
      refine ⟨s, rfl, Ext.refl s, _, hp, ?_, hun⟩
      rcases hm _ hq with h | h | h
      · exact Or.inl h
      · rw [hun] at h; cases h
      · exact Or.inr h
    · refine ⟨_, rfl, ⟨rfl, ⟨[.visit o k], rfl, ?_⟩, ?_⟩, _, hp, Or.inl (by simp), hun⟩
      · intro y hy
        rw [List.mem_singleton] at hy
        subst hy
        exact ⟨hc.node o a d hd hb.1, v, hvo⟩
      · intro h y hy
        rcases h y hy with h | h
        · exact Or.inl (List.mem_append_left _ h)
        · exact Or.inr h
  · rename_i hb
    have hf : o = e.self ∨ e.syn a = false := by
      by_cases ho : o = e.self
      · exact Or.inl ho
      · right; simpa [ho] using hb
    refine ⟨_, rfl, want_ext s ?_, _, Provides.eval hd hf, want_waits hm hs⟩
    exact (List.getElem?_eq_some_iff.1 hd').1

theorem schedPrev_total {e : Env} {x : Item} {child : Nat} : ∀ {l : List Nat} {s : St} {has : Bool},
    Marked s x → (∀ i, i ∈ l → InU e (.visit child i)) → (has = true → ∃ y, Requires e x y ∧ Waits s x y) →
    (∀ i, i ∈ l → Requires e x (.visit child i)) →
    Ext e x s (schedPrev child l s has).2 ∧
      ((schedPrev child l s has).1 = true → ∃ y, Requires e x y ∧ Waits (schedPrev child l s has).2 x y)
  | [], s, has, hm, _, hh, _ => ⟨Ext.refl s, hh⟩
  | i :: l, s, has, hm, hu, hh, hr => by
    rw [schedPrev]
    split
    · exact schedPrev_total hm (fun i h => hu i (List.mem_cons_of_mem _ h)) hh
        (fun i h => hr i (List.mem_cons_of_mem _ h))
    · rename_i hs
      have hx := want_ext (e := e) (x := x) s (hu i List.mem_cons_self)
      obtain ⟨h1, h2⟩ := schedPrev_total (l := l) (has := true) (hx.marked hm)
        (fun i h => hu i (List.mem_cons_of_mem _ h))
        (fun _ => ⟨_, hr i List.mem_cons_self, want_waits hm hs⟩)
        (fun i h => hr i (List.mem_cons_of_mem _ h))
      exact ⟨hx.trans h1, h2⟩

theorem schedInputs_total {e : Env} (hc : Complete e) {x : Item} {child : Nat} : ∀ {l : List Nat} {s : St} {has : Bool},
    Marked s x → Outs e s.scheduled → (has = true → ∃ y, Requires e x y ∧ Waits s x y) →
    (∀ a, a ∈ l → ∃ p, At e child a p ∧ ∀ y, Provides e p y → Requires e x y) →
    ∃ r, schedInputs e child l s has = .ok r ∧ Ext e x s r.2 ∧ (r.1 = true → ∃ y, Requires e x y ∧ Waits r.2 x y)
  | [], s, has, hm, _, hh, _ => ⟨_, rfl, Ext.refl s, hh⟩
  | a :: l, s, has, hm, ho, hh, hr => by
    obtain ⟨p, hp, hr1⟩ := hr a List.mem_cons_self
    rw [schedInputs, lookup_at hc.nodup hp]
    simp only
    split
    · exact schedInputs_total hc hm ho hh (fun a h => hr a (List.mem_cons_of_mem _ h))
    · rename_i hs
      obtain ⟨s1, h1, h2, y, h3, h4⟩ := sched_total hc hm ho hp hs
      rw [h1, Res.bind_ok]
      obtain ⟨r, h5, h6, h7⟩ := schedInputs_total hc (l := l) (has := true) (h2.marked hm)
        (by rw [h2.scheduled]; exact ho) (fun _ => ⟨y, hr1 y h3, h4⟩) (fun a h => hr a (List.mem_cons_of_mem _ h))
      exact ⟨r, h5, h2.trans h6, h7⟩

theorem schedDeps_total {e : Env} (hc : Complete e) {x : Item} : ∀ {l : List Nat} {s : St} {has : Bool},
    Marked s x → Outs e s.scheduled → (has = true → ∃ y, Requires e x y ∧ Waits s x y) →
    (∀ d, d ∈ l → d < e.g.nodes.length ∧ ∀ y, Provides e d y → Requires e x y) →
    ∃ r, schedDeps e l s has = .ok r ∧ Ext e x s r.2 ∧ (r.1 = true → ∃ y, Requires e x y ∧ Waits r.2 x y)
  | [], s, has, hm, _, hh, _ => ⟨_, rfl, Ext.refl s, hh⟩
  | d :: l, s, has, hm, ho, hh, hr => by
    obtain ⟨hp, hr1⟩ := hr d List.mem_cons_self
    rw [schedDeps]
    split
    · exact schedDeps_total hc hm ho hh (fun a h => hr a (List.mem_cons_of_mem _ h))
    · rename_i hs
      have hat : At e (e.g.nodes[d]).1 (e.g.nodes[d]).2 d := by
        unfold At
        rw [List.getElem?_eq_getElem hp]
      obtain ⟨s1, h1, h2, y, h3, h4⟩ := sched_total hc hm ho hat hs
      rw [h1, Res.bind_ok]
      obtain ⟨r, h5, h6, h7⟩ := schedDeps_total hc (l := l) (has := true) (h2.marked hm)
        (by rw [h2.scheduled]; exact ho) (fun _ => ⟨y, hr1 y h3, h4⟩) (fun a h => hr a (List.mem_cons_of_mem _ h))
      exact ⟨r, h5, h2.trans h6, h7⟩

theorem dep_of_mem {g : Graph} {d i : Nat} (h : d ∈ find_dependencies g i) : DependsOn g d i := by
  simp only [find_dependencies, List.mem_reverse, List.mem_filter, List.mem_range, Bool.and_eq_true,
    decide_eq_true_eq] at h
  obtain ⟨h1, h2, h3⟩ := h
  refine ⟨h1, h2, ?_⟩
  unfold GRlookup_edge at h3
  split at h3
  · cases h3
  · cases h3
  · cases h3
  · rename_i t h4 h5 h6
    cases t with
    | normal => exact Or.inl h6
    | induced => exact Or.inr h6
    | intravisit => exact absurd rfl h4
    | intravisitInduced => exact absurd rfl h5

theorem visitOf_bind {e : Env} {c k : Nat} {v : AVisit} (h : VisitOf e c k v) :
    (e.visits (e.typeOf c)).bind (·[k]?) = some v := by
  obtain ⟨vs, h1, h2⟩ := h
  simp [h1, h2]

theorem visitOf_prev {e : Env} {c k j : Nat} {v : AVisit} (h : VisitOf e c k v) (hj : j < k) : ∃ w, VisitOf e c j w := by
  obtain ⟨vs, h1, h2⟩ := h
  have hk := (List.getElem?_eq_some_iff.1 h2).1
  exact ⟨vs[j], vs, h1, List.getElem?_eq_getElem (by omega)⟩

theorem visitOf_attr {e : Env} (hc : Complete e) {c k : Nat} {v : AVisit} (hm : c ∈ e.children) (h : VisitOf e c k v)
    {a : Nat} (ha : a ∈ v.inputs ∨ a ∈ v.outputs) : ∃ p, At e c a p := by
  obtain ⟨vs, h1, h2⟩ := h
  obtain ⟨ws, h3, h4⟩ := hc.child c hm
  rw [h1] at h3
  cases h3
  exact h4 v (List.mem_of_getElem? h2) a ha

theorem schedItem_total {e : Env} (hc : Complete e) {x : Item} {s : St} (hx : InU e x) (hm : Marked s x)
    (ho : Outs e s.scheduled) :
    ∃ r, schedItem e x s = .ok r ∧ Ext e x s r.2 ∧ (r.1 = true → ∃ y, Requires e x y ∧ Waits r.2 x y) := by
  cases x with
  | node i =>
    exact schedDeps_total hc hm ho (fun h => by cases h) fun d hd =>
      ⟨(dep_of_mem hd).1, fun y hy => .dep (dep_of_mem hd) hy⟩
  | visit c k =>
    obtain ⟨h1, v, h2⟩ := hx
    rw [schedItem, sched_visit_dependencies, visitOf_bind h2]
    simp only
    have hp := schedPrev_total (e := e) (x := .visit c k) (child := c) (l := List.range k) (s := s) (has := false) hm
      (fun i hi => ⟨h1, visitOf_prev h2 (List.mem_range.1 hi)⟩) (fun h => by cases h)
      (fun i hi => .prev (List.mem_range.1 hi))
    generalize schedPrev c (List.range k) s false = r at hp
    obtain ⟨has, s1⟩ := r
    obtain ⟨h3, h4⟩ := hp
    obtain ⟨r, h5, h6, h7⟩ := schedInputs_total hc (x := .visit c k) (child := c) (l := v.inputs) (h3.marked hm)
      (by rw [h3.scheduled]; exact ho) h4 (fun a ha => by
        obtain ⟨p, hp⟩ := visitOf_attr hc h1 h2 (Or.inl ha)
        exact ⟨p, hp, fun y hy => .input h2 ha hp hy⟩)
    exact ⟨r, h5, h3.trans h6, h7⟩

theorem markOutputs_total {e : Env} {child : Nat} : ∀ {l : List Nat} {t : Item → Bool},
    (∀ a, a ∈ l → ∃ p, GRlookup_node e.g child a = some p) → ∃ t', markOutputs e child l t = .ok t'
  | [], t, _ => ⟨t, rfl⟩
  | a :: l, t, h => by
    obtain ⟨p, hp⟩ := h a List.mem_cons_self
    rw [markOutputs, hp]
    exact markOutputs_total fun b hb => h b (List.mem_cons_of_mem _ hb)

theorem mark_total {e : Env} (hc : Complete e) {x : Item} {t : Item → Bool} (hx : InU e x) (ho : Outs e t) :
    ∃ t', mark_scheduled e x t = .ok t' ∧ Outs e t' ∧ t' x = true ∧ ∀ y, t y = true → t' y = true := by
  cases x with
  | node i =>
    refine ⟨_, rfl, ?_, by simp [addTo], fun y hy => by simp [addTo, hy]⟩
    intro c k v h1 h2 a ha p hp
    have h1 : t (.visit c k) = true := by simpa [addTo] using h1
    simp [addTo, ho c k v h1 h2 a ha p hp]
  | visit c k =>
    obtain ⟨h1, v, h2⟩ := hx
    rw [mark_scheduled, visitOf_bind h2]
    simp only
    obtain ⟨t1, h3⟩ := markOutputs_total (e := e) (child := c) (l := v.outputs) (t := t) fun a ha => by
      obtain ⟨p, hp⟩ := visitOf_attr hc h1 h2 (Or.inr ha)
      exact ⟨p, lookup_at hc.nodup hp⟩
    have h4 := markOutputs_spec hc.nodup h3
    have h5 : ∀ y, t1 y = true ↔ (t y = true ∨ ∃ a p, a ∈ v.outputs ∧ At e c a p ∧ y = .node p) := fun y => by
      have := congrFun h4 y
      simp only [K] at this
      rw [this]
    rw [h3, Res.bind_ok]
    refine ⟨_, rfl, ?_, by simp [addTo], fun y hy => ?_⟩
    · intro c' k' v' g1 g2 a ha p hp
      simp only [addTo, Bool.or_eq_true, decide_eq_true_eq] at g1 ⊢
      right
      rcases g1 with g1 | g1
      · cases g1
        obtain ⟨vs, a1, a2⟩ := h2
        obtain ⟨ws, b1, b2⟩ := g2
        rw [a1] at b1
        cases b1
        rw [a2] at b2
        cases b2
        exact (h5 _).2 (Or.inr ⟨a, p, ha, hp, rfl⟩)
      · rcases (h5 _).1 g1 with g1 | ⟨_, _, _, _, g1⟩
        · exact (h5 _).2 (Or.inl (ho c' k' v' g1 g2 a ha p hp))
        · cases g1
    · simp only [addTo, Bool.or_eq_true, decide_eq_true_eq]
      exact Or.inr ((h5 _).2 (Or.inl hy))

theorem alts_total {e : Env} {k : Nat} : ∀ {ms : List Nat}, (∀ m, m ∈ ms → ∃ ws, e.visits m = some ws) →
    ∃ alts, nodesetAlts e k ms = .ok alts ∧ ∀ m rest ws, ms = m :: rest → e.visits m = some ws → k < ws.length →
      ∃ tail, alts = (m, some k) :: tail
  | [], _ => ⟨[], rfl, fun _ _ _ h => by cases h⟩
  | m :: ms, h => by
    obtain ⟨ws, hw⟩ := h m List.mem_cons_self
    obtain ⟨alts, h1, _⟩ := alts_total (k := k) fun m' hm => h m' (List.mem_cons_of_mem _ hm)
    rw [nodesetAlts, hw]
    simp only
    rw [h1, Res.bind_ok]
    refine ⟨_, rfl, fun m' rest ws' he hv hk => ?_⟩
    cases he
    rw [hw] at hv
    cases hv
    exact ⟨alts, by simp [hk]⟩

/-- The sequence ends in no dummy. -/
def NoDummy (seq : List Ev) : Prop := seq.getLast?.map Ev.isDummy ≠ some true

theorem add_total {e : Env} (hc : Complete e) {x : Item} (hx : InU e x) {seq : List Ev} (hs : NoDummy seq) :
    ∃ seq', add_visit_sequence e x seq = .ok seq' ∧ NoDummy seq' := by
  have app : ∀ ev, ev.isDummy = false →
      ∃ seq', (match seq.getLast?.map Ev.isDummy with
        | some true => Res.abort "assert NODE_TYPE(*visit_tail) == NT_VISIT_SEQUENCE_EVAL"
        | _ => .ok (seq ++ [ev])) = .ok seq' ∧ NoDummy seq' := by
    intro ev hev
    refine ⟨seq ++ [ev], ?_, by simp [NoDummy, hev]⟩
    split
    · rename_i h; exact absurd h hs
    · rfl
  cases x with
  | node i =>
    have hi : i < e.g.nodes.length := hx
    rw [add_visit_sequence, newElement, List.getElem?_eq_getElem hi]
    simp only
    split
    · exact ⟨seq, rfl, hs⟩
    · exact app _ rfl
  | visit c k =>
    obtain ⟨h1, v, vs, h2, h3⟩ := hx
    have hk := (List.getElem?_eq_some_iff.1 h3).1
    rw [add_visit_sequence, newElement]
    cases hms : e.members (e.typeOf c) with
    | none => exact app _ rfl
    | some ms =>
      simp only
      obtain ⟨alts, h4, h5⟩ := alts_total (e := e) (k := k) (hc.member c h1 ms hms)
      rw [h4, Res.bind_ok]
      cases ms with
      | nil =>
        cases h4
        exact ⟨seq, rfl, hs⟩
      | cons m ms =>
        obtain ⟨ws, hw⟩ := hc.member c h1 _ hms m List.mem_cons_self
        obtain ⟨tail, h6⟩ := h5 m ms ws rfl hw (by have := hc.first c h1 m ms hms vs ws h2 hw; omega)
        subst h6
        exact app _ rfl

/-- All items. -/
def universe' (e : Env) : List Item :=
  (List.range e.g.nodes.length).map Item.node ++
    e.children.flatMap fun c => (List.range ((e.visits (e.typeOf c)).getD []).length).map (Item.visit c)

theorem mem_universe {e : Env} {x : Item} (h : InU e x) : x ∈ universe' e := by
  unfold universe'
  cases x with
  | node i => exact List.mem_append_left _ (List.mem_map.2 ⟨i, List.mem_range.2 h, rfl⟩)
  | visit c k =>
    obtain ⟨h1, v, vs, h2, h3⟩ := h
    refine List.mem_append_right _ (List.mem_flatMap.2 ⟨c, h1, List.mem_map.2 ⟨k, List.mem_range.2 ?_, rfl⟩⟩)
    rw [h2]
    exact (List.getElem?_eq_some_iff.1 h3).1

/-- Number of items that are not scheduled. -/
def left (e : Env) (t : Item → Bool) : Nat := ((universe' e).filter fun x => !t x).length

theorem filter_lt {t t' : Item → Bool} (hm : ∀ y, t y = true → t' y = true) {x : Item} (hx : t x = false)
    (hx' : t' x = true) : ∀ {l : List Item},
    (l.filter fun y => !t' y).length ≤ (l.filter fun y => !t y).length ∧
      (x ∈ l → (l.filter fun y => !t' y).length < (l.filter fun y => !t y).length)
  | [] => by simp
  | y :: l => by
    obtain ⟨h1, h2⟩ := filter_lt hm hx hx' (l := l)
    cases hy : t y with
    | true =>
      simp only [List.filter_cons, hy, hm y hy, Bool.not_true, Bool.false_eq_true, if_false]
      refine ⟨h1, fun h => ?_⟩
      rcases List.mem_cons.1 h with h | h
      · subst h; rw [hx] at hy; cases hy
      · exact h2 h
    | false =>
      cases hy' : t' y with
      | true =>
        simp only [List.filter_cons, hy, hy', Bool.not_true, Bool.false_eq_true, if_false, Bool.not_false, if_true,
          List.length_cons]
        exact ⟨by omega, fun _ => by omega⟩
      | false =>
        simp only [List.filter_cons, hy, hy', Bool.not_false, if_true, List.length_cons]
        refine ⟨by omega, fun h => ?_⟩
        rcases List.mem_cons.1 h with h | h
        · subst h; rw [hx'] at hy'; cases hy'
        · have := h2 h; omega

/-- The loop ends. -/
def Ends (e : Env) (s : St) : Prop :=
  ∀ seq, NoDummy seq → ∃ (N : Nat) (s' : St) (seq' : List Ev), Outs e s'.scheduled ∧
    ∀ n, N ≤ n → visitLoop e n s seq = .ok (s', seq')

/-- Invariant of the loop. -/
structure Good (e : Env) (s : St) : Prop where
  inU : ∀ x, x ∈ s.queue → InU e x
  marked : ∀ y, s.queued y = true → y ∈ s.queue ∨ s.scheduled y = true
  outs : Outs e s.scheduled

theorem ends_empty {e : Env} {s : St} (hg : Good e s) (h : s.queue.dropWhile s.scheduled = []) : Ends e s := by
  intro seq _
  refine ⟨0, { s with queue := [] }, seq, hg.outs, fun n _ => ?_⟩
  cases n <;> (rw [visitLoop, h])

/-- One iteration. -/
theorem ends_step {e : Env} (hc : Complete e) {s : St} (hg : Good e s) {x : Item} {rest : List Item}
    (hd : s.queue.dropWhile s.scheduled = x :: rest)
    (hrec : ∀ s', Good e s' → left e s'.scheduled < left e s.scheduled → Ends e s')
    (hwait : ∀ s' ext, Good e s' → s'.scheduled = s.scheduled → s'.queue = rest ++ ext ++ [x] →
      (∃ y, Requires e x y ∧ s'.scheduled y = false ∧ y ∈ s'.queue) → Ends e s') : Ends e s := by
  intro seq hseq
  have hun : s.scheduled x = false := dropWhile_head hd
  have hsub : ∀ y, y ∈ x :: rest → y ∈ s.queue := fun y hy => by
    rw [← hd] at hy
    exact (List.dropWhile_sublist _).subset hy
  have hxu : InU e x := hg.inU x (hsub x List.mem_cons_self)
  have hm : Marked { s with queue := rest } x := by
    intro y hy
    rcases hg.marked y hy with h | h
    · rcases mem_dropWhile (p := s.scheduled) h with h | h
      · exact Or.inr (Or.inl h)
      · rw [hd] at h
        rcases List.mem_cons.1 h with h | h
        · exact Or.inr (Or.inr h)
        · exact Or.inl h
    · exact Or.inr (Or.inl h)
  obtain ⟨⟨has, s1⟩, h1, h2, h3⟩ := schedItem_total hc (s := { s with queue := rest }) hxu hm hg.outs
  have hsch : s1.scheduled = s.scheduled := h2.scheduled
  obtain ⟨ext, he1, he2⟩ := h2.queue
  have hinU1 : ∀ y, y ∈ s1.queue → InU e y := fun y hy => by
    rw [he1] at hy
    rcases List.mem_append.1 hy with hy | hy
    · exact hg.inU y (hsub y (List.mem_cons_of_mem _ hy))
    · exact he2 y hy
  have hm1 := h2.marked hm
  cases has with
  | true =>
    have hg2 : Good e { s1 with queue := s1.queue ++ [x] } := by
      refine ⟨fun y hy => ?_, fun y hy => ?_, by simp only [hsch]; exact hg.outs⟩
      · rcases List.mem_append.1 hy with hy | hy
        · exact hinU1 y hy
        · rw [List.mem_singleton] at hy; subst hy; exact hxu
      · rcases hm1 y hy with h | h | h
        · exact Or.inl (List.mem_append_left _ h)
        · exact Or.inr h
        · exact Or.inl (by simp [h])
    obtain ⟨y, hy1, hy2, hy3⟩ := h3 rfl
    obtain ⟨N, s', seq', h4, h5⟩ := hwait _ ext hg2 hsch (by rw [show s1.queue = rest ++ ext from he1]) ⟨y, hy1, hy3, by
      rcases hy2 with hy2 | hy2
      · exact List.mem_append_left _ hy2
      · simp [hy2]⟩ seq hseq
    refine ⟨N + 1, s', seq', h4, fun n hn => ?_⟩
    obtain ⟨n, rfl⟩ : ∃ m, n = m + 1 := ⟨n - 1, by omega⟩
    rw [visitLoop, hd]
    simp only
    rw [h1, Res.bind_ok]
    exact h5 n (by omega)
  | false =>
    obtain ⟨t, h4, h5, h6, h7⟩ := mark_total hc hxu hg.outs
    obtain ⟨seq1, h8, h9⟩ := add_total hc hxu hseq
    have hg2 : Good e { s1 with scheduled := t } := by
      refine ⟨hinU1, fun y hy => ?_, h5⟩
      rcases hm1 y hy with h | h | h
      · exact Or.inl h
      · rw [hsch] at h; exact Or.inr (h7 y h)
      · subst h; exact Or.inr h6
    obtain ⟨N, s', seq', h10, h11⟩ := hrec _ hg2 ((filter_lt h7 hun h6).2 (mem_universe hxu)) seq1 h9
    refine ⟨N + 1, s', seq', h10, fun n hn => ?_⟩
    obtain ⟨n, rfl⟩ : ∃ m, n = m + 1 := ⟨n - 1, by omega⟩
    rw [visitLoop, hd]
    simp only
    rw [h1, Res.bind_ok]
    simp only
    rw [hsch, h4, Res.bind_ok, h8, Res.bind_ok]
    exact h11 n (by omega)

theorem dropWhile_split {p : Item → Bool} {x : Item} (hx : p x = false) : ∀ {pre post : List Item},
    ∃ pre', (pre ++ x :: post).dropWhile p = pre' ++ x :: post ∧ pre'.length ≤ pre.length
  | [], post => ⟨[], by simp [hx], by simp⟩
  | y :: pre, post => by
    rw [List.cons_append, List.dropWhile_cons]
    split
    · obtain ⟨pre', h1, h2⟩ := dropWhile_split hx (pre := pre) (post := post)
      exact ⟨pre', h1, by simp; omega⟩
    · exact ⟨y :: pre, rfl, by simp⟩

theorem loop_ends {e : Env} (hc : Complete e) {r : Item → Nat} (hr : ∀ x y, Requires e x y → r y < r x) :
    ∀ (m : Nat) (s : St), Good e s → left e s.scheduled ≤ m → Ends e s := by
  intro m
  induction m using Nat.strongRecOn with
  | ind m ihm =>
    have rec' : ∀ (s : St), left e s.scheduled ≤ m →
        ∀ s', Good e s' → left e s'.scheduled < left e s.scheduled → Ends e s' :=
      fun s hs s' hg hl => ihm (left e s'.scheduled) (by omega) s' hg (Nat.le_refl _)
    have key : ∀ (k : Nat) (x : Item), r x = k → ∀ (n : Nat) (s : St) (pre post : List Item), pre.length = n →
        Good e s → left e s.scheduled ≤ m → s.scheduled x = false → s.queue = pre ++ x :: post → Ends e s := by
      intro k
      induction k using Nat.strongRecOn with
      | ind k ihk =>
        intro x hk n
        induction n using Nat.strongRecOn with
        | ind n ihn =>
          intro s pre post hn hg hl hx hq
          obtain ⟨pre', h1, h2⟩ := dropWhile_split hx (pre := pre) (post := post)
          rw [← hq] at h1
          cases pre' with
          | nil =>
            refine ends_step hc hg h1 (rec' s hl) fun s' ext hg' hs' hq' ⟨y, hy1, hy2, hy3⟩ => ?_
            obtain ⟨p, q, hpq⟩ := List.append_of_mem hy3
            exact ihk (r y) (by have := hr x y hy1; omega) y rfl _ s' p q rfl hg' (by rw [hs']; exact hl) hy2 hpq
          | cons z pre' =>
            refine ends_step hc hg h1 (rec' s hl) fun s' ext hg' hs' hq' _ => ?_
            refine ihn pre'.length (by simp at h2; omega) s' pre' (post ++ ext ++ [z]) rfl hg'
              (by rw [hs']; exact hl) (by rw [hs']; exact hx) (by rw [hq']; simp)
    intro s hg hl
    cases hd : s.queue.dropWhile s.scheduled with
    | nil => exact ends_empty hg hd
    | cons x rest =>
      have hmem : x ∈ s.queue := (List.dropWhile_sublist s.scheduled).subset (by rw [hd]; exact List.mem_cons_self)
      obtain ⟨p, q, hpq⟩ := List.append_of_mem hmem
      exact key (r x) x rfl _ s p q rfl hg hl (dropWhile_head hd) hpq

theorem ownNodes_total {e : Env} (hn : e.g.nodes.Nodup) : ∀ {l : List Nat}, (∀ a, a ∈ l → ∃ p, At e e.self a p) →
    ∃ is, ownNodes e l = .ok is
  | [], _ => ⟨[], rfl⟩
  | a :: l, h => by
    obtain ⟨p, hp⟩ := h a List.mem_cons_self
    obtain ⟨is, h1⟩ := ownNodes_total hn fun b hb => h b (List.mem_cons_of_mem _ hb)
    rw [ownNodes, lookup_at hn hp]
    simp only
    rw [h1, Res.bind_ok]
    exact ⟨_, rfl⟩

theorem childVisits_total {e : Env} (hc : Complete e) : ∀ {l : List Nat}, (∀ c, c ∈ l → c ∈ e.children) →
    ∃ items, childVisits e l = .ok items ∧ ∀ x, x ∈ items → InU e x
  | [], _ => ⟨[], rfl, by simp⟩
  | c :: l, h => by
    obtain ⟨vs, h1, _⟩ := hc.child c (h c List.mem_cons_self)
    obtain ⟨items, h2, h3⟩ := childVisits_total hc fun d hd => h d (List.mem_cons_of_mem _ hd)
    rw [childVisits, h1]
    simp only
    rw [h2, Res.bind_ok]
    refine ⟨_, rfl, fun x hx => ?_⟩
    rcases List.mem_append.1 hx with hx | hx
    · obtain ⟨k, hk, hx⟩ := List.mem_map.1 hx
      subst hx
      exact ⟨h c List.mem_cons_self, vs[k]'(List.mem_range.1 hk), vs, h1,
        List.getElem?_eq_getElem (List.mem_range.1 hk)⟩
    · exact h3 x hx

theorem visit_ends {e : Env} (hc : Complete e) (ho : Ordered e) {v : AVisit} {vs : List AVisit}
    (hvs : e.visits e.self = some vs) (hv : v ∈ vs) (last : Bool) (t : Item → Bool) (hout : Outs e t) :
    ∃ (N : Nat) (t' : Item → Bool) (seq : List Ev), Outs e t' ∧
      ∀ max, N ≤ max → generate_visit e max v last t = .ok (t', seq) := by
  obtain ⟨r, hr⟩ := ho
  obtain ⟨us, hu1, hu2⟩ := hc.self
  rw [hvs] at hu1
  cases hu1
  obtain ⟨outputs, h1⟩ := ownNodes_total hc.nodup fun a ha => hu2 v hv a (Or.inr ha)
  obtain ⟨inputs, h2⟩ := ownNodes_total hc.nodup fun a ha => hu2 v hv a (Or.inl ha)
  obtain ⟨items, h3, h4⟩ : ∃ items, lastItems e last = .ok items ∧ ∀ x, x ∈ items → InU e x := by
    cases last with
    | true => exact childVisits_total hc fun _ h => h
    | false => exact ⟨[], rfl, by simp⟩
  obtain ⟨N, s', seq, h5, h6⟩ := loop_ends hc hr _
    (queueAll items (queueAll (outputs.map Item.node) ⟨[], fun _ => false,
      fun y => decide (y ∈ inputs.map Item.node) || t y⟩)) (by
    refine ⟨fun x hx => ?_, fun y hy => ?_, ?_⟩
    · simp only [queueAll, List.nil_append] at hx
      rcases List.mem_append.1 hx with hx | hx
      · obtain ⟨p, hp, hx⟩ := List.mem_map.1 hx
        subst hx
        obtain ⟨a, _, ha⟩ := (ownNodes_spec h1).2 p hp
        exact (List.getElem?_eq_some_iff.1 ha).1
      · exact h4 x hx
    · simp only [queueAll, Bool.or_eq_true, decide_eq_true_eq, Bool.false_eq_true, or_false] at hy
      left
      simp only [queueAll, List.nil_append]
      rcases hy with hy | hy
      · exact List.mem_append_right _ hy
      · exact List.mem_append_left _ hy
    · intro c k w g1 g2 a ha p hp
      simp only [queueAll, Bool.or_eq_true, decide_eq_true_eq] at g1 ⊢
      rcases g1 with g1 | g1
      · obtain ⟨_, _, g1⟩ := List.mem_map.1 g1
        cases g1
      · exact Or.inr (hout c k w g1 g2 a ha p hp)) (Nat.le_refl _) [] (by simp [NoDummy])
  refine ⟨N, s'.scheduled, seq, h5, fun max hm => ?_⟩
  rw [generate_visit, h1, Res.bind_ok, h3, Res.bind_ok, h2, Res.bind_ok]
  simp only
  rw [h6 max hm, Res.bind_ok]

theorem from_ends {e : Env} (hc : Complete e) (ho : Ordered e) {vs : List AVisit} (hvs : e.visits e.self = some vs) :
    ∀ (ws : List AVisit) (t : Item → Bool), (∀ v, v ∈ ws → v ∈ vs) → Outs e t →
    ∃ (N : Nat) (seqs : List (List Ev)), ∀ max, N ≤ max → generateFrom e max ws t = .ok seqs
  | [], t, _, _ => ⟨0, [], fun _ _ => rfl⟩
  | v :: ws, t, h, hout => by
    obtain ⟨N, t', seq, h1, h2⟩ := visit_ends hc ho hvs (h v List.mem_cons_self) ws.isEmpty t hout
    obtain ⟨M, seqs, h3⟩ := from_ends hc ho hvs ws t' (fun w hw => h w (List.mem_cons_of_mem _ hw)) h1
    refine ⟨N + M, seq :: seqs, fun max hm => ?_⟩
    rw [generateFrom, h2 max (by omega), Res.bind_ok]
    simp only
    rw [h3 max (by omega), Res.bind_ok]

end Verif.Lemmas.Visits
