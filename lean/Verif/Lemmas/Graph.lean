import Verif.Spec.Graph

/-!
# Lemmas about dependency graphs
-/

namespace Verif.Graph
open Verif.Spec.Graph

theorem Path.trans {E : Nat → Nat → Prop} {i k j} (h : Path E i k) (h' : Path E k j) : Path E i j := by
  induction h with
  | edge e => exact .step e h'
  | step e _ ih => exact .step e (ih h')

theorem Path.mono {E E' : Nat → Nat → Prop} {i j} (hE : ∀ a b, E a b → Path E' a b) (h : Path E i j) : Path E' i j := by
  induction h with
  | edge e => exact hE _ _ e
  | step e _ ih => exact Path.trans (hE _ _ e) ih

theorem via_true {g : Graph} {i j : Nat} {ks : List Nat} (h : via g i j ks = true) :
    ∃ k ∈ ks, i ≠ k ∧ j ≠ k ∧ Edge g i k ∧ Edge g k j := by
  induction ks with
  | nil => simp [via] at h
  | cons k ks ih =>
    simp only [via, Bool.or_eq_true, Bool.and_eq_true, decide_eq_true_eq, Option.isSome_iff_exists] at h
    rcases h with ⟨⟨⟨h1, h2⟩, h3⟩, h4⟩ | h
    · exact ⟨k, by simp, h1, h2, h3, h4⟩
    · obtain ⟨k', h1, h2⟩ := ih h
      exact ⟨k', List.mem_cons_of_mem _ h1, h2⟩

theorem via_false {g : Graph} {i j : Nat} {ks : List Nat} (h : via g i j ks = false) :
    ∀ k ∈ ks, i ≠ k → j ≠ k → Edge g i k → ¬ Edge g k j := by
  induction ks with
  | nil => simp
  | cons k ks ih =>
    simp only [via, Bool.or_eq_false_iff] at h
    intro k' hk' h1 h2 h3 h4
    rcases List.mem_cons.1 hk' with rfl | hk'
    · have := h.1
      rw [← Bool.not_eq_true] at this
      apply this
      simp only [Bool.and_eq_true, decide_eq_true_eq, Option.isSome_iff_exists]
      exact ⟨⟨⟨h1, h2⟩, h3⟩, h4⟩
    · exact ih h.2 k' hk' h1 h2 h3 h4

/-- Edges connect nodes, and the list of edges is the table. -/
structure Wf (g : Graph) : Prop where
  bound : ∀ i j, Edge g i j → i < g.nodes.length ∧ j < g.nodes.length
  listed : ∀ i j t, g.edge i j = some t ↔ (i, j, t) ∈ g.edges
  once : g.edges.Pairwise fun a b => ¬ (a.1 = b.1 ∧ a.2.1 = b.2.1)

/-- No two different nodes depend on each other directly. -/
def Anti (g : Graph) : Prop := ∀ i j, i ≠ j → Edge g i j → ¬ Edge g j i

theorem edge_add {g g' : Graph} {n1 n2 : Nat} {t} (h : addEdge g n1 n2 t = .ok g') :
    g.edge n1 n2 = none ∧ g'.nodes = g.nodes ∧ g'.edges = g.edges ++ [(n1, n2, t)] ∧
    ∀ a b, g'.edge a b = if a = n1 ∧ b = n2 then some t else g.edge a b := by
  unfold addEdge at h
  split at h
  · cases h
  · next hn =>
    cases h
    exact ⟨hn, rfl, rfl, fun _ _ => rfl⟩

theorem add_ok {g : Graph} {n1 n2 : Nat} {t} (h : g.edge n1 n2 = none) : ∃ g', addEdge g n1 n2 t = .ok g' := by
  simp [addEdge, h]

theorem Edge.add {g g' : Graph} {n1 n2 : Nat} {t} (h : addEdge g n1 n2 t = .ok g') (a b : Nat) :
    Edge g' a b ↔ (a = n1 ∧ b = n2) ∨ Edge g a b := by
  obtain ⟨_, _, _, h4⟩ := edge_add h
  simp only [Edge, h4]
  split
  · next hc => simp [hc]
  · next hc => simp [hc]

theorem Wf.add {g g' : Graph} {n1 n2 : Nat} {t} (w : Wf g) (h : addEdge g n1 n2 t = .ok g') (h1 : n1 < g.nodes.length)
    (h2 : n2 < g.nodes.length) : Wf g' := by
  obtain ⟨e1, e2, e3, e4⟩ := edge_add h
  refine ⟨?_, ?_, ?_⟩
  · intro i j hij
    rw [e2]
    rcases (Edge.add h i j).1 hij with ⟨rfl, rfl⟩ | hij
    · exact ⟨h1, h2⟩
    · exact w.bound i j hij
  · intro i j t'
    rw [e4, e3, List.mem_append]
    split
    · next hc =>
      obtain ⟨rfl, rfl⟩ := hc
      constructor
      · intro hh
        cases hh
        exact Or.inr (by simp)
      · rintro (hh | hh)
        · rw [(w.listed _ _ _).2 hh] at e1
          cases e1
        · simp only [List.mem_cons, Prod.mk.injEq, true_and, List.not_mem_nil, or_false] at hh
          rw [hh]
    · next hc =>
      rw [w.listed]
      constructor
      · exact Or.inl
      · rintro (hh | hh)
        · exact hh
        · simp only [List.mem_cons, Prod.mk.injEq, List.not_mem_nil, or_false] at hh
          exact absurd ⟨hh.1, hh.2.1⟩ hc
  · rw [e3, List.pairwise_append]
    refine ⟨w.once, by simp, ?_⟩
    intro a ha b hb hab
    simp only [List.mem_cons, List.not_mem_nil, or_false] at hb
    subst hb
    obtain ⟨a1, a2, a3⟩ := a
    obtain ⟨rfl, rfl⟩ : a1 = n1 ∧ a2 = n2 := hab
    rw [(w.listed _ _ _).2 ha] at e1
    cases e1

/-! ## Closing -/

/-- The number of pairs without an edge. -/
def missing (g : Graph) : Nat :=
  ((List.range g.nodes.length).flatMap fun i =>
    (List.range g.nodes.length).filter fun j => (g.edge i j).isNone).length

/-- What the loops preserve, relative to the graph at the start. -/
structure CInv (g0 : Graph) (a0 : List (Nat × Nat)) (st : Close) : Prop where
  wf : Wf st.graph
  nodes : st.graph.nodes = g0.nodes
  edges : ∃ new, st.graph.edges = g0.edges ++ new ∧ (∀ x ∈ new, x.2.2 = .induced ∧ x.1 ≠ x.2.1) ∧
    st.added = ((new.map fun x => (x.1, x.2.1)).filter fun p => decide (owner g0 p.1 = owner g0 p.2)).reverse ++ a0
  keep : ∀ i j t, g0.edge i j = some t → st.graph.edge i j = some t
  sound : ∀ i j, Edge st.graph i j → Edge g0 i j ∨ (i ≠ j ∧ Path (Edge g0) i j)
  anti : Anti g0 → st.err = none → Anti st.graph
  cyc : ∀ e, st.err = some e → e.type = .induced ∧ e.n1 ≠ e.n2 ∧ Path (Edge g0) e.n1 e.n2 ∧ Path (Edge g0) e.n2 e.n1

theorem CInv.path {g0 a0 st} (v : CInv g0 a0 st) {i j} (h : Edge st.graph i j) : Path (Edge g0) i j := by
  rcases v.sound i j h with h | h
  · exact .edge h
  · exact h.2

theorem length_filter_le' {α : Type} (p q : α → Bool) (l : List α) (h : ∀ x ∈ l, q x = true → p x = true) :
    (l.filter q).length ≤ (l.filter p).length := by
  induction l with
  | nil => simp
  | cons x l ih =>
    have ih' := ih fun y hy => h y (List.mem_cons_of_mem _ hy)
    by_cases hq : q x = true
    · simp only [List.filter_cons, hq, h x (by simp) hq, if_true, List.length_cons]
      omega
    · by_cases hp : p x = true
      · simp only [List.filter_cons, hq, hp, if_true, List.length_cons]
        simp only [Bool.false_eq_true, if_false]
        omega
      · simp only [List.filter_cons, hq, hp]
        simpa using ih'

theorem length_filter_lt' {α : Type} (p q : α → Bool) (l : List α) (h : ∀ x ∈ l, q x = true → p x = true) {a : α}
    (ha : a ∈ l) (hp : p a = true) (hq : q a = false) : (l.filter q).length < (l.filter p).length := by
  induction l with
  | nil => simp at ha
  | cons x l ih =>
    have hle := length_filter_le' p q l fun y hy => h y (List.mem_cons_of_mem _ hy)
    rcases List.mem_cons.1 ha with rfl | ha
    · simp only [List.filter_cons, hp, hq, if_true, List.length_cons]
      simp only [Bool.false_eq_true, if_false]
      omega
    · have ih' := ih (fun y hy => h y (List.mem_cons_of_mem _ hy)) ha
      by_cases hq' : q x = true
      · simp only [List.filter_cons, hq', h x (by simp) hq', if_true, List.length_cons]
        omega
      · by_cases hp' : p x = true
        · simp only [List.filter_cons, hq', hp', if_true, List.length_cons]
          simp only [Bool.false_eq_true, if_false]
          omega
        · simp only [List.filter_cons, hq', hp']
          simpa using ih'

theorem length_flatMap_le {α β : Type} (f g : α → List β) (l : List α) (h : ∀ x ∈ l, (g x).length ≤ (f x).length) :
    (l.flatMap g).length ≤ (l.flatMap f).length := by
  induction l with
  | nil => simp
  | cons x l ih =>
    have := h x (by simp)
    have := ih fun y hy => h y (List.mem_cons_of_mem _ hy)
    simp only [List.flatMap_cons, List.length_append]
    omega

theorem length_flatMap_lt {α β : Type} (f g : α → List β) (l : List α) (h : ∀ x ∈ l, (g x).length ≤ (f x).length) {a : α}
    (ha : a ∈ l) (hlt : (g a).length < (f a).length) : (l.flatMap g).length < (l.flatMap f).length := by
  induction l with
  | nil => simp at ha
  | cons x l ih =>
    have h1 := h x (by simp)
    have h2 := length_flatMap_le f g l fun y hy => h y (List.mem_cons_of_mem _ hy)
    simp only [List.flatMap_cons, List.length_append]
    rcases List.mem_cons.1 ha with rfl | ha
    · omega
    · have := ih (fun y hy => h y (List.mem_cons_of_mem _ hy)) ha
      omega

theorem missing_add {g g' : Graph} {n1 n2 : Nat} {t} (h : addEdge g n1 n2 t = .ok g') (h1 : n1 < g.nodes.length)
    (h2 : n2 < g.nodes.length) : missing g' < missing g := by
  obtain ⟨e1, e2, _, e4⟩ := edge_add h
  have mono : ∀ i j, (g'.edge i j).isNone = true → (g.edge i j).isNone = true := by
    intro i j hh
    rw [e4] at hh
    split at hh
    · simp at hh
    · exact hh
  unfold missing
  rw [e2]
  refine length_flatMap_lt _ _ _ (fun i _ => length_filter_le' _ _ _ fun j _ => mono i j) (a := n1) (by simpa using h1) ?_
  exact length_filter_lt' _ _ _ (fun j _ => mono n1 j) (a := n2) (by simpa using h2) (by simp [e1]) (by simp [e4])

theorem owner_eq {g g' : Graph} (h : g'.nodes = g.nodes) (i : Nat) : owner g' i = owner g i := by
  simp [owner, h]

/-- One pair: the invariant; either nothing changed and there is nothing to add, or there are fewer missing edges. -/
theorem closePair_spec {g0 a0 st} (v : CInv g0 a0 st) (he : st.err = none) {i j : Nat} (hi : i < g0.nodes.length)
    (hj : j < g0.nodes.length) : ∃ st', closePair i j st = .ok st' ∧ CInv g0 a0 st' ∧
      ((st' = st ∧ (i ≠ j → ¬ Edge st.graph i j → ∀ k, i ≠ k → j ≠ k → Edge st.graph i k → ¬ Edge st.graph k j)) ∨
        (st'.changed = true ∧ missing st'.graph < missing st.graph)) := by
  unfold closePair
  split
  · next hc =>
    refine ⟨st, rfl, v, Or.inl ⟨rfl, ?_⟩⟩
    intro hne hn
    simp only [Bool.or_eq_true, decide_eq_true_eq, Option.isSome_iff_exists] at hc
    rcases hc with hc | hc
    · exact absurd hc hne
    · exact absurd hc hn
  · next hc =>
    simp only [Bool.or_eq_false_iff, decide_eq_false_iff_not, Option.isSome_eq_false_iff, Option.isNone_iff_eq_none] at hc
    split
    · next hv =>
      refine ⟨st, rfl, v, Or.inl ⟨rfl, ?_⟩⟩
      intro _ _ k h1 h2 h3 h4
      exact via_false hv k (by simpa using (v.wf.bound _ _ h3).2) h1 h2 h3 h4
    · next hv =>
      obtain ⟨k, hk, h1, h2, h3, h4⟩ := via_true hv
      obtain ⟨g', hg⟩ := add_ok (t := .induced) hc.2
      obtain ⟨e1, e2, e3, e4⟩ := edge_add hg
      have hi' : i < st.graph.nodes.length := by rw [v.nodes]; exact hi
      have hj' : j < st.graph.nodes.length := by rw [v.nodes]; exact hj
      have hp : Path (Edge g0) i j := Path.trans (v.path h3) (v.path h4)
      refine ⟨_, by simp only [hg, Res.bind_ok]; rfl, ?_, Or.inr ⟨rfl, missing_add hg hi' hj'⟩⟩
      have hn' : g'.nodes = g0.nodes := e2.trans v.nodes
      refine ⟨v.wf.add hg hi' hj', hn', ?_, ?_, ?_, ?_, ?_⟩
      · obtain ⟨new, n1, n2, n3⟩ := v.edges
        refine ⟨new ++ [(i, j, .induced)], by simp only [e3, n1, List.append_assoc], ?_, ?_⟩
        · intro x hx
          rcases List.mem_append.1 hx with hx | hx
          · exact n2 x hx
          · simp only [List.mem_cons, List.not_mem_nil, or_false] at hx
            subst hx
            exact ⟨rfl, hc.1⟩
        · simp only [owner_eq hn', List.map_append, List.map_cons, List.map_nil, List.filter_append, List.filter_cons,
            List.filter_nil, n3]
          split
          · next ho => simp [ho]
          · next ho => simp [ho]
      · intro a b t hab
        have h5 := v.keep a b t hab
        simp only [e4]
        split
        · next hh =>
          obtain ⟨rfl, rfl⟩ := hh
          rw [hc.2] at h5
          cases h5
        · exact h5
      · intro a b hab
        rcases (Edge.add hg a b).1 hab with ⟨rfl, rfl⟩ | hab
        · exact Or.inr ⟨hc.1, hp⟩
        · exact v.sound a b hab
      · intro ha hn a b hne hab hba
        have hno : ¬ Edge g' j i := by
          rintro ⟨t, ht⟩
          simp only [checkCycle, ht] at hn
          cases hn
        rcases (Edge.add hg a b).1 hab with ⟨rfl, rfl⟩ | h5
        · exact hno hba
        · rcases (Edge.add hg b a).1 hba with ⟨h6, h7⟩ | h6
          · rw [h6, h7] at hab
            exact hno hab
          · exact v.anti ha he a b hne h5 h6
      · intro e hee
        have hji : Edge g' j i ∧ e = ⟨.induced, i, j⟩ := by
          simp only [checkCycle] at hee
          split at hee
          · next t ht => exact ⟨⟨t, ht⟩, by cases hee; rfl⟩
          · cases hee
        obtain ⟨hji, rfl⟩ := hji
        refine ⟨rfl, hc.1, hp, ?_⟩
        rcases (Edge.add hg j i).1 hji with ⟨h5, h6⟩ | h5
        · exact absurd h6 hc.1
        · exact v.path h5

/-- Outcome of a loop: as for one pair, for all pairs of the loop. -/
def Out (g0 : Graph) (a0 : List (Nat × Nat)) (st st' : Close) (pairs : Nat → Nat → Prop) : Prop :=
  CInv g0 a0 st' ∧ ((st' = st ∧ ∀ i j, pairs i j → i ≠ j → ¬ Edge st.graph i j →
      ∀ k, i ≠ k → j ≠ k → Edge st.graph i k → ¬ Edge st.graph k j) ∨
    (st'.changed = true ∧ missing st'.graph < missing st.graph))

theorem closeRow_spec {g0 a0} {i : Nat} (hi : i < g0.nodes.length) (js : List Nat) : ∀ {st}, CInv g0 a0 st → st.err = none →
    (∀ j ∈ js, j < g0.nodes.length) → ∃ st', closeRow i js st = .ok st' ∧ Out g0 a0 st st' fun a b => a = i ∧ b ∈ js := by
  induction js with
  | nil => intro st v he hj; exact ⟨st, rfl, v, Or.inl ⟨rfl, by simp⟩⟩
  | cons j js ih =>
    intro st v he hj
    obtain ⟨st1, h1, v1, o1⟩ := closePair_spec v he hi (hj j (by simp))
    cases hee : st1.err with
    | some e =>
      refine ⟨st1, by simp only [closeRow, h1, Res.bind_ok, hee], v1, ?_⟩
      rcases o1 with ⟨rfl, _⟩ | o1
      · rw [he] at hee; cases hee
      · exact Or.inr o1
    | none =>
      obtain ⟨st2, h2, v2, o2⟩ := ih v1 hee fun k hk => hj k (List.mem_cons_of_mem _ hk)
      refine ⟨st2, by simp only [closeRow, h1, Res.bind_ok, hee, h2], v2, ?_⟩
      rcases o1 with ⟨rfl, c1⟩ | ⟨o1, m1⟩
      · rcases o2 with ⟨rfl, c2⟩ | o2
        · refine Or.inl ⟨rfl, ?_⟩
          rintro a b ⟨rfl, hb⟩
          rcases List.mem_cons.1 hb with rfl | hb
          · exact c1
          · exact c2 a b ⟨rfl, hb⟩
        · exact Or.inr o2
      · rcases o2 with ⟨rfl, c2⟩ | ⟨o2, m2⟩
        · exact Or.inr ⟨o1, m1⟩
        · exact Or.inr ⟨o2, by omega⟩

theorem closeRows_spec {g0 a0} (is : List Nat) : ∀ {st}, CInv g0 a0 st → st.err = none → (∀ j ∈ is, j < g0.nodes.length) →
    ∃ st', closeRows is st = .ok st' ∧ Out g0 a0 st st' fun a b => a ∈ is ∧ b < g0.nodes.length := by
  induction is with
  | nil => intro st v he hj; exact ⟨st, rfl, v, Or.inl ⟨rfl, by simp⟩⟩
  | cons i is ih =>
    intro st v he hj
    obtain ⟨st1, h1, v1, o1⟩ := closeRow_spec (hj i (by simp)) (List.range st.graph.nodes.length) v he
      (fun j hj => by rw [← v.nodes]; simpa using hj)
    cases hee : st1.err with
    | some e =>
      refine ⟨st1, by simp only [closeRows, h1, Res.bind_ok, hee], v1, ?_⟩
      rcases o1 with ⟨rfl, _⟩ | o1
      · rw [he] at hee; cases hee
      · exact Or.inr o1
    | none =>
      obtain ⟨st2, h2, v2, o2⟩ := ih v1 hee fun k hk => hj k (List.mem_cons_of_mem _ hk)
      refine ⟨st2, by simp only [closeRows, h1, Res.bind_ok, hee, h2], v2, ?_⟩
      rcases o1 with ⟨rfl, c1⟩ | ⟨o1, m1⟩
      · rcases o2 with ⟨rfl, c2⟩ | o2
        · refine Or.inl ⟨rfl, ?_⟩
          rintro a b ⟨ha, hb⟩
          rcases List.mem_cons.1 ha with rfl | ha
          · exact c1 a b ⟨rfl, by rw [v.nodes]; simpa using hb⟩
          · exact c2 a b ⟨ha, hb⟩
        · exact Or.inr o2
      · rcases o2 with ⟨rfl, c2⟩ | ⟨o2, m2⟩
        · exact Or.inr ⟨o1, m1⟩
        · exact Or.inr ⟨o2, by omega⟩

/-- Every detour has its shortcut. -/
def Closed (g : Graph) : Prop := ∀ i j k, i ≠ j → i ≠ k → j ≠ k → Edge g i k → Edge g k j → Edge g i j

theorem CInv.unchanged {g0 a0 st} (v : CInv g0 a0 st) (b : Bool) : CInv g0 a0 { st with changed := b } :=
  ⟨v.wf, v.nodes, v.edges, v.keep, v.sound, v.anti, v.cyc⟩

theorem closeLoop_spec {g0 a0} (m : Nat) : ∀ {st}, CInv g0 a0 st → st.err = none → missing st.graph ≤ m →
    ∃ st', (∀ fuel, m < fuel → closeLoop fuel st = .ok st') ∧ CInv g0 a0 st' ∧ (st'.err = none → Closed st'.graph) := by
  induction m using Nat.strongRecOn with
  | ind m ih =>
    intro st v he hm
    obtain ⟨st1, h1, v1, o1⟩ := closeRows_spec (List.range st.graph.nodes.length) (v.unchanged false) he
      (fun j hj => by rw [← v.nodes]; simpa using hj)
    cases hee : st1.err with
    | some e =>
      refine ⟨st1, ?_, v1, by rw [hee]; intro h; cases h⟩
      intro fuel hf
      obtain ⟨f, rfl⟩ : ∃ f, fuel = f + 1 := ⟨fuel - 1, by omega⟩
      simp only [closeLoop, h1, Res.bind_ok, hee]
    | none =>
      rcases o1 with ⟨rfl, c1⟩ | ⟨o1, m1⟩
      · refine ⟨_, ?_, v1, ?_⟩
        · intro fuel hf
          obtain ⟨f, rfl⟩ : ∃ f, fuel = f + 1 := ⟨fuel - 1, by omega⟩
          rw [closeLoop, h1, Res.bind_ok]
          simp only [he]
        · intro _ i j k hij hik hjk h2 h3
          by_cases hn : Edge st.graph i j
          · exact hn
          · exfalso
            have hb := (v.wf.bound _ _ h2).1
            have hb' := (v.wf.bound _ _ h3).2
            exact c1 i j ⟨by simpa using hb, by rw [← v.nodes]; exact hb'⟩ hij hn k hik hjk h2 h3
      · have m1' : missing st1.graph < missing st.graph := m1
        obtain ⟨st2, h2, v2, c2⟩ := ih (missing st1.graph) (by omega) v1 hee (Nat.le_refl _)
        refine ⟨st2, ?_, v2, c2⟩
        intro fuel hf
        obtain ⟨f, rfl⟩ : ∃ f, fuel = f + 1 := ⟨fuel - 1, by omega⟩
        simp only [closeLoop, h1, Res.bind_ok, hee, o1]
        exact h2 f (by omega)

theorem CInv.start {g : Graph} (w : Wf g) (added : List (Nat × Nat)) :
    CInv g added { graph := g, added := added, changed := false, err := none } :=
  ⟨w, rfl, ⟨[], by simp⟩, fun _ _ _ h => h, fun _ _ h => Or.inl h, fun ha _ => ha, by simp⟩

/-- In a closed graph a path between different nodes is an edge. -/
theorem closed_path {g : Graph} (hc : Closed g) {i j} (h : Path (Edge g) i j) (hne : i ≠ j) : Edge g i j := by
  induction h with
  | edge e => exact e
  | @step i k j e _ ih =>
    by_cases hkj : k = j
    · subst hkj; exact e
    · by_cases hik : i = k
      · subst hik; exact ih hne
      · exact hc i j k hne hik (fun h => hkj h.symm) e (ih hkj)

theorem close_spec {g : Graph} (w : Wf g) (ha : Anti g) (added : List (Nat × Nat)) :
    ∃ st N, (∀ fuel, N ≤ fuel → GRclose_transitivity fuel g added = .ok st) ∧ CInv g added st ∧
      (st.err = none → (∀ i j, Edge st.graph i j ↔ Edge g i j ∨ (i ≠ j ∧ Path (Edge g) i j)) ∧
        ∀ i j, i ≠ j → Path (Edge g) i j → ¬ Path (Edge g) j i) := by
  obtain ⟨st, h1, v, hc⟩ := closeLoop_spec (missing g) (CInv.start w added) rfl (Nat.le_refl _)
  refine ⟨st, missing g + 1, fun fuel hf => h1 fuel (by omega), v, fun he => ?_⟩
  have mono : ∀ {a b}, Path (Edge g) a b → Path (Edge st.graph) a b := fun h =>
    Path.mono (fun a b ⟨t, ht⟩ => .edge ⟨t, v.keep a b t ht⟩) h
  constructor
  · intro i j
    refine ⟨v.sound i j, ?_⟩
    rintro (⟨t, ht⟩ | ⟨hne, hp⟩)
    · exact ⟨t, v.keep i j t ht⟩
    · exact closed_path (hc he) (mono hp) hne
  · intro i j hne hp hq
    exact v.anti ha he i j hne (closed_path (hc he) (mono hp) hne) (closed_path (hc he) (mono hq) (Ne.symm hne))

/-- Closing any graph, also one in which nodes depend on each other. -/
theorem close_weak {g : Graph} (w : Wf g) (added : List (Nat × Nat)) :
    ∃ st N, (∀ fuel, N ≤ fuel → GRclose_transitivity fuel g added = .ok st) ∧ CInv g added st ∧
      (st.err = none → Closed st.graph) := by
  obtain ⟨st, h1, v, hc⟩ := closeLoop_spec (missing g) (CInv.start w added) rfl (Nat.le_refl _)
  exact ⟨st, missing g + 1, fun fuel hf => h1 fuel (by omega), v, hc⟩

/-- Without self-dependencies, a cycle goes through two different nodes. -/
theorem cycle_two {E : Nat → Nat → Prop} (hs : ∀ i, ¬ E i i) {i} (h : Path E i i) :
    ∃ k, i ≠ k ∧ Path E i k ∧ Path E k i := by
  cases h with
  | edge e => exact absurd e (hs i)
  | @step _ k _ e p => exact ⟨k, fun h => hs i (h ▸ e), .edge e, p⟩

/-! ## Declared dependencies -/

theorem none_edge {g : Graph} {i j : Nat} (h : ¬ Edge g i j) : g.edge i j = none := by
  cases he : g.edge i j with
  | none => rfl
  | some t => exact absurd ⟨t, he⟩ h

/-- One dependency that is not yet there, in any graph. -/
theorem GRadd_edge_weak {g : Graph} (w : Wf g) {n1 n2 : Nat} {t} (h1 : n1 < g.nodes.length)
    (h2 : n2 < g.nodes.length) (hn : ¬ Edge g n1 n2) :
    (Edge g n2 n1 ∧ GRadd_edge g n1 n2 t = .ok (some ⟨t, n1, n2⟩, g)) ∨
    (¬ Edge g n2 n1 ∧ ∃ g', GRadd_edge g n1 n2 t = .ok (none, g') ∧ Wf g' ∧ (Anti g → Anti g') ∧ g'.nodes = g.nodes ∧
      (∀ a b, g'.edge a b = if a = n1 ∧ b = n2 then some t else g.edge a b) ∧ missing g' < missing g) := by
  by_cases hr : Edge g n2 n1
  · obtain ⟨t', ht'⟩ := hr
    exact Or.inl ⟨⟨t', ht'⟩, by simp only [GRadd_edge, checkCycle, ht']⟩
  · obtain ⟨g', hg⟩ := add_ok (t := t) (none_edge hn)
    obtain ⟨_, e2, _, e4⟩ := edge_add hg
    refine Or.inr ⟨hr, g', by simp only [GRadd_edge, checkCycle, none_edge hr, hg, Res.bind_ok], w.add hg h1 h2, ?_, e2,
      e4, missing_add hg h1 h2⟩
    intro ha a b hne hab hba
    rcases (Edge.add hg a b).1 hab with ⟨h3, h4⟩ | h3
    · rcases (Edge.add hg b a).1 hba with ⟨h5, h6⟩ | h5
      · exact hne (h3.trans h5.symm)
      · rw [h3, h4] at h5
        exact hr h5
    · rcases (Edge.add hg b a).1 hba with ⟨h5, h6⟩ | h5
      · rw [h5, h6] at h3
        exact hr h3
      · exact ha a b hne h3 h5

theorem edge_upd {g g' : Graph} {n1 n2 : Nat} {t} (h : ∀ a b, g'.edge a b = if a = n1 ∧ b = n2 then some t else g.edge a b)
    (a b : Nat) : Edge g' a b ↔ (a = n1 ∧ b = n2) ∨ Edge g a b := by
  simp only [Edge, h]
  split
  · next hc => simp [hc]
  · next hc => simp [hc]

/-- One dependency that is not yet there. -/
theorem GRadd_edge_spec {g : Graph} (w : Wf g) (ha : Anti g) {n1 n2 : Nat} {t} (h1 : n1 < g.nodes.length)
    (h2 : n2 < g.nodes.length) (hn : ¬ Edge g n1 n2) :
    (Edge g n2 n1 ∧ GRadd_edge g n1 n2 t = .ok (some ⟨t, n1, n2⟩, g)) ∨
    (¬ Edge g n2 n1 ∧ ∃ g', GRadd_edge g n1 n2 t = .ok (none, g') ∧ Wf g' ∧ Anti g' ∧ g'.nodes = g.nodes ∧
      g'.edge n1 n2 = some t ∧
      (∀ a b, Edge g' a b ↔ (a = n1 ∧ b = n2) ∨ Edge g a b)) := by
  rcases GRadd_edge_weak (t := t) w h1 h2 hn with h | ⟨hr, g', e1, e2, e3, e4, e5, _⟩
  · exact Or.inl h
  · exact Or.inr ⟨hr, g', e1, e2, e3 ha, e4, by simp [e5], edge_upd e5⟩

theorem addDeps_spec (deps : List (Nat × Nat)) : ∀ (g : Graph) (added : List (Nat × Nat)) (errors : Nat), Wf g → Anti g →
    deps.Nodup → (∀ d ∈ deps, d.1 < g.nodes.length ∧ d.2 < g.nodes.length ∧ ¬ Edge g d.1 d.2) →
    ∃ g' added' errors', addDeps g added errors deps = .ok (g', added', errors') ∧ Wf g' ∧ Anti g' ∧
      g'.nodes = g.nodes ∧ (∀ i j, Edge g' i j → Edge g i j ∨ Dep deps i j) ∧ (∀ i j, Edge g i j → Edge g' i j) ∧
      errors ≤ errors' ∧ (errors' = errors → ∀ i j, Dep deps i j → Edge g' i j) ∧
      (errors < errors' → ∃ i j, Dep deps i j ∧ (Edge g j i ∨ Dep deps j i)) := by
  induction deps with
  | nil =>
    intro g added errors w ha _ _
    exact ⟨g, added, errors, rfl, w, ha, rfl, fun _ _ h => Or.inl h, fun _ _ h => h, Nat.le_refl _, by simp [Dep],
      fun h => absurd h (Nat.lt_irrefl _)⟩
  | cons d deps ih =>
    intro g added errors w ha hnd hd
    obtain ⟨n1, n2⟩ := d
    obtain ⟨hb1, hb2, hne⟩ := hd (n1, n2) (by simp)
    have hnd' := List.nodup_cons.1 hnd
    have tl : ∀ d ∈ deps, d.1 < g.nodes.length ∧ d.2 < g.nodes.length ∧ ¬ Edge g d.1 d.2 := fun d h =>
      hd d (List.mem_cons_of_mem _ h)
    rcases GRadd_edge_spec (t := .normal) w ha hb1 hb2 hne with ⟨hr, he⟩ | ⟨hr, g1, he, w1, a1, n1', _, e1⟩
    · obtain ⟨g', ad, er, r1, r2, r3, r4, r5, r6, r7, r8, r9⟩ := ih g
        (if owner g n1 = owner g n2 then (n1, n2) :: added else added) (errors + 1) w ha hnd'.2 tl
      refine ⟨g', ad, er, by simp only [addDeps, he, Res.bind_ok, Option.isSome_some, if_true, r1], r2, r3, r4, ?_, r6,
        by omega, fun h => by omega, fun _ => ⟨n1, n2, by simp [Dep], Or.inl hr⟩⟩
      intro i j hij
      rcases r5 i j hij with h | h
      · exact Or.inl h
      · exact Or.inr (List.mem_cons_of_mem _ h)
    · have tl1 : ∀ d ∈ deps, d.1 < g1.nodes.length ∧ d.2 < g1.nodes.length ∧ ¬ Edge g1 d.1 d.2 := by
        intro d h
        obtain ⟨t1, t2, t3⟩ := tl d h
        refine ⟨by rw [n1']; exact t1, by rw [n1']; exact t2, fun hh => ?_⟩
        rcases (e1 _ _).1 hh with ⟨h3, h4⟩ | h3
        · have : d = (n1, n2) := Prod.ext h3 h4
          exact hnd'.1 (this ▸ h)
        · exact t3 h3
      obtain ⟨g', ad, er, r1, r2, r3, r4, r5, r6, r7, r8, r9⟩ := ih g1
        (if owner g1 n1 = owner g1 n2 then (n1, n2) :: added else added) errors w1 a1 hnd'.2 tl1
      refine ⟨g', ad, er, ?_, r2, r3, r4.trans n1', ?_, fun i j h => r6 i j ((e1 i j).2 (Or.inr h)), r7, ?_, ?_⟩
      · simp only [addDeps, he, Res.bind_ok, Option.isSome_none, Bool.false_eq_true, if_false, r1]
      · intro i j hij
        rcases r5 i j hij with h | h
        · rcases (e1 i j).1 h with ⟨rfl, rfl⟩ | h
          · exact Or.inr (by simp [Dep])
          · exact Or.inl h
        · exact Or.inr (List.mem_cons_of_mem _ h)
      · intro hh i j hij
        rcases List.mem_cons.1 hij with h | h
        · cases h
          exact r6 _ _ ((e1 _ _).2 (Or.inl ⟨rfl, rfl⟩))
        · exact r8 hh i j h
      · intro hh
        obtain ⟨i, j, h1, h2⟩ := r9 hh
        refine ⟨i, j, List.mem_cons_of_mem _ h1, ?_⟩
        rcases h2 with h2 | h2
        · rcases (e1 j i).1 h2 with ⟨rfl, rfl⟩ | h2
          · exact Or.inr (by simp [Dep])
          · exact Or.inl h2
        · exact Or.inr (List.mem_cons_of_mem _ h2)

end Verif.Graph
