import Verif.Lemmas.Graph

/-!
# Property C32: dependency graphs
-/

namespace Verif.Props
open Verif.Graph Verif.Spec.Graph

/-- A graph as `GRadd_node` and `GRadd_edge` build it. -/
inductive BuiltGraph : Graph → Prop where
  | new : BuiltGraph GRnew
  | node {g n a i g'} : BuiltGraph g → GRadd_node g n a = .ok (i, g') → BuiltGraph g'
  | edge {g i j t e g'} : BuiltGraph g → i < g.nodes.length → j < g.nodes.length → GRadd_edge g i j t = .ok (e, g') →
      BuiltGraph g'

theorem built_graph {g : Graph} (h : BuiltGraph g) : Wf g ∧ Anti g := by
  induction h with
  | new =>
    have : ∀ i j, ¬ Edge GRnew i j := by rintro i j ⟨t, ht⟩; cases ht
    exact ⟨⟨fun i j h => absurd h (this i j), fun i j t => by simp [GRnew], by simp [GRnew]⟩,
      fun i j _ h => absurd h (this i j)⟩
  | @node g n a i g' _ he ih =>
    obtain ⟨w, ha⟩ := ih
    unfold GRadd_node at he
    split at he
    · cases he
    · cases he
      refine ⟨⟨fun i j h => ?_, w.listed, w.once⟩, ha⟩
      have := w.bound i j h
      simp only [List.length_append]
      omega
  | @edge g i j t e g' _ hi hj he ih =>
    obtain ⟨w, ha⟩ := ih
    by_cases hn : Edge g i j
    · obtain ⟨t', ht'⟩ := hn
      simp only [GRadd_edge] at he
      split at he
      · cases he; exact ⟨w, ha⟩
      · simp only [addEdge, ht', Res.bind_abort] at he
        cases he
    · rcases GRadd_edge_spec (t := t) w ha hi hj hn with ⟨_, h⟩ | ⟨_, g1, h, w1, a1, _⟩
      · rw [h] at he; cases he; exact ⟨w, ha⟩
      · rw [h] at he; cases he; exact ⟨w1, a1⟩

/-- C32: closing a graph ends.  If it reports no error, the graph has exactly the old edges, with their types, and
an edge of type `GRinduced` between any two different nodes that are connected by a path; what was newly added inside
a node is on the list of added edges, newest first. -/
theorem C32_close (g : Graph) (hb : BuiltGraph g) (added : List (Nat × Nat)) :
    ∃ (st : Close) (N : Nat), (∀ fuel, N ≤ fuel → GRclose_transitivity fuel g added = .ok st) ∧
      (st.err = none →
        (∀ i j, Edge st.graph i j ↔ Edge g i j ∨ (i ≠ j ∧ Path (Edge g) i j)) ∧
        (∀ i j t, g.edge i j = some t → st.graph.edge i j = some t) ∧
        (∀ i j, Edge st.graph i j → ¬ Edge g i j → st.graph.edge i j = some .induced) ∧
        st.graph.nodes = g.nodes ∧
        ∃ new, st.graph.edges = g.edges ++ new ∧
          st.added = ((new.map fun x => (x.1, x.2.1)).filter fun p => decide (owner g p.1 = owner g p.2)).reverse ++ added) := by
  obtain ⟨w, ha⟩ := built_graph hb
  obtain ⟨st, N, h1, v, h2⟩ := close_spec w ha added
  refine ⟨st, N, h1, fun he => ⟨(h2 he).1, v.keep, ?_, v.nodes, ?_⟩⟩
  · rintro i j ⟨t, ht⟩ hn
    have h3 := (v.wf.listed i j t).1 ht
    obtain ⟨new, e1, e2, _⟩ := v.edges
    rw [e1] at h3
    rcases List.mem_append.1 h3 with h3 | h3
    · exact absurd ⟨t, (w.listed i j t).2 h3⟩ hn
    · have : t = .induced := (e2 _ h3).1
      rw [ht, this]
  · obtain ⟨new, e1, _, e3⟩ := v.edges
    exact ⟨new, e1, e3⟩

/-- C32: closing reports an error exactly when two different nodes depend on each other, directly or not; the nodes
it names do. -/
theorem C32_close_reports (g : Graph) (hb : BuiltGraph g) (added : List (Nat × Nat)) :
    ∃ (st : Close) (N : Nat), (∀ fuel, N ≤ fuel → GRclose_transitivity fuel g added = .ok st) ∧
      (st.err ≠ none ↔ ∃ i j, i ≠ j ∧ Path (Edge g) i j ∧ Path (Edge g) j i) ∧
      ∀ e, st.err = some e → e.n1 ≠ e.n2 ∧ Path (Edge g) e.n1 e.n2 ∧ Path (Edge g) e.n2 e.n1 := by
  obtain ⟨w, ha⟩ := built_graph hb
  obtain ⟨st, N, h1, v, h2⟩ := close_spec w ha added
  refine ⟨st, N, h1, ⟨?_, ?_⟩, fun e he => (v.cyc e he).2⟩
  · intro hne
    cases he : st.err with
    | none => exact absurd he hne
    | some e => exact ⟨e.n1, e.n2, (v.cyc e he).2⟩
  · rintro ⟨i, j, hij, p, q⟩ he
    exact (h2 he).2 i j hij p q

/-- Three nodes, the first two of one AST node. -/
def graph3 : Graph := { GRnew with nodes := [(1, 10), (1, 11), (2, 10)] }

theorem graph3_built : BuiltGraph graph3 :=
  .node (.node (.node .new (n := 1) (a := 10) rfl) (n := 1) (a := 11) rfl) (n := 2) (a := 10) rfl

example : ∃ g, BuiltGraph g ∧ Edge g 0 2 ∧ Edge g 2 1 ∧
    (match GRclose_transitivity 20 g [] with
      | .ok st => st.graph.edge 0 1 = some .induced ∧ st.added = [(0, 1)] ∧ st.err = none
      | _ => False) := by
  refine ⟨_, .edge (.edge graph3_built (i := 0) (j := 2) (t := .normal) (by decide) (by decide) rfl)
    (i := 2) (j := 1) (t := .normal) (by decide) (by decide) rfl, ⟨.normal, rfl⟩, ⟨.normal, rfl⟩, ?_⟩
  exact ⟨rfl, rfl, rfl⟩

/-- C32: an edge is refused, with an error, exactly when the opposite edge is there. -/
theorem C32_add (g : Graph) (hb : BuiltGraph g) (i j : Nat) (t : EdgeType) (hi : i < g.nodes.length)
    (hj : j < g.nodes.length) (hn : ¬ Edge g i j) :
    ∃ e g', GRadd_edge g i j t = .ok (e, g') ∧ (e ≠ none ↔ Edge g j i) ∧
      (e = none → ∀ a b, Edge g' a b ↔ (a = i ∧ b = j) ∨ Edge g a b) ∧ (e ≠ none → g' = g) := by
  obtain ⟨w, ha⟩ := built_graph hb
  rcases GRadd_edge_spec (t := t) w ha hi hj hn with ⟨hr, h⟩ | ⟨hr, g1, h, _, _, _, _, h1⟩
  · exact ⟨_, _, h, ⟨fun _ => hr, fun _ => by simp⟩, by simp, fun _ => rfl⟩
  · exact ⟨_, _, h, ⟨by simp, fun h => absurd h hr⟩, fun _ => h1, by simp⟩

example : 0 < graph3.nodes.length ∧ 2 < graph3.nodes.length ∧ ¬ Edge graph3 0 2 :=
  ⟨by decide, by decide, by rintro ⟨t, ht⟩; cases ht⟩

/-- C32, partial: for a graph with nodes only, and the dependencies of a node's equations, each given once and none
from an attribute to itself, the scheduler reports an error exactly when the dependencies have a cycle.  Missing:
repeated dependencies (`C32_repeated_false`) and self-dependencies (`C32_self_false`). -/
theorem C32_cycles_partial (g : Graph) (hb : BuiltGraph g) (he : ∀ i j, ¬ Edge g i j) (deps : List (Nat × Nat))
    (hd : ∀ d ∈ deps, d.1 < g.nodes.length ∧ d.2 < g.nodes.length ∧ d.1 ≠ d.2) (hn : deps.Nodup) :
    ∃ (r : Graph × List (Nat × Nat) × Nat) (N : Nat), (∀ fuel, N ≤ fuel → graphOf fuel g deps = .ok r) ∧
      (r.2.2 ≠ 0 ↔ Cyclic (Dep deps)) ∧
      (r.2.2 = 0 → ∀ i j, Edge r.1 i j ↔ Path (Dep deps) i j) := by
  obtain ⟨w, ha⟩ := built_graph hb
  obtain ⟨g1, ad, er, h1, w1, a1, n1, s1, _, _, c1, y1⟩ := addDeps_spec deps g [] 0 w ha hn
    (fun d h => ⟨(hd d h).1, (hd d h).2.1, he _ _⟩)
  obtain ⟨st, N, h2, v, c2⟩ := close_spec w1 a1 ad
  have sub : ∀ {a b}, Edge g1 a b → Dep deps a b := fun h => (s1 _ _ h).resolve_left (he _ _)
  have subp : ∀ {a b}, Path (Edge g1) a b → Path (Dep deps) a b := fun h => Path.mono (fun a b h => .edge (sub h)) h
  have hs : ∀ i, ¬ Dep deps i i := fun i h => (hd _ h).2.2 rfl
  -- an error means a cycle
  have hcyc : (er ≠ 0 ∨ st.err.isSome = true) → Cyclic (Dep deps) := by
    rintro (h | h)
    · obtain ⟨i, j, h3, h4⟩ := y1 (Nat.pos_of_ne_zero h)
      have h5 := h4.resolve_left (he _ _)
      exact ⟨i, .step h3 (.edge h5)⟩
    · obtain ⟨e, hee⟩ := Option.isSome_iff_exists.1 h
      obtain ⟨_, _, p, q⟩ := v.cyc e hee
      exact ⟨e.n1, Path.trans (subp p) (subp q)⟩
  -- no error means no cycle
  have hok : er = 0 → st.err = none → ¬ Cyclic (Dep deps) ∧ ∀ i j, Edge st.graph i j ↔ Path (Dep deps) i j := by
    intro h3 h4
    have sup : ∀ {a b}, Path (Dep deps) a b → Path (Edge g1) a b := fun h =>
      Path.mono (fun a b h => .edge (c1 h3 _ _ h)) h
    have hno : ¬ Cyclic (Dep deps) := by
      rintro ⟨i, hi⟩
      obtain ⟨k, hk, p, q⟩ := cycle_two hs hi
      exact (c2 h4).2 i k hk (sup p) (sup q)
    refine ⟨hno, fun i j => ?_⟩
    rw [(c2 h4).1]
    constructor
    · rintro (h | ⟨_, h⟩)
      · exact .edge (sub h)
      · exact subp h
    · intro h
      exact Or.inr ⟨fun e => hno ⟨i, e ▸ h⟩, sup h⟩
  refine ⟨_, N, fun fuel hf => by (simp only [graphOf, h1, h2 fuel hf, Res.bind_ok]; rfl), ?_, ?_⟩
  · show (if st.err.isSome then er + 1 else er) ≠ 0 ↔ _
    constructor
    · intro h
      apply hcyc
      split at h
      · next hh => exact Or.inr hh
      · exact Or.inl h
    · intro hc h
      split at h
      · omega
      · next hh =>
        rw [Option.not_isSome_iff_eq_none] at hh
        exact (hok h hh).1 hc
  · intro h
    have h : (if st.err.isSome then er + 1 else er) = 0 := h
    split at h
    · omega
    · next hh =>
      rw [Option.not_isSome_iff_eq_none] at hh
      exact (hok h hh).2

example : ∃ deps : List (Nat × Nat), Cyclic (Dep deps) ∧ deps.Nodup ∧
    ∀ d ∈ deps, d.1 < graph3.nodes.length ∧ d.2 < graph3.nodes.length ∧ d.1 ≠ d.2 := by
  refine ⟨[(0, 1), (1, 2), (2, 0)], ⟨0, .step (k := 1) ?_ (.step (k := 2) ?_ (.edge ?_))⟩, by decide, by decide⟩ <;>
    simp [Dep]

/-- C32 is false for self-dependencies: an attribute that depends on itself is not reported. -/
theorem C32_self_false : ∃ (g : Graph) (deps : List (Nat × Nat)), BuiltGraph g ∧ (∀ i j, ¬ Edge g i j) ∧
    (∀ d ∈ deps, d.1 < g.nodes.length ∧ d.2 < g.nodes.length) ∧ deps.Nodup ∧ Cyclic (Dep deps) ∧
    ∀ fuel, ∃ r, graphOf (fuel + 1) g deps = .ok r ∧ r.2.2 = 0 :=
  ⟨graph3, [(0, 0)], graph3_built, (by rintro i j ⟨t, ht⟩; cases ht), by decide, by decide,
    ⟨0, .edge (by simp [Dep])⟩, fun _ => ⟨_, rfl, rfl⟩⟩

/-- C32: a dependency that is given twice stops the compiler with a failed assertion, although there is no cycle. -/
theorem C32_repeated_false : ∃ (g : Graph) (deps : List (Nat × Nat)), BuiltGraph g ∧ (∀ i j, ¬ Edge g i j) ∧
    (∀ d ∈ deps, d.1 < g.nodes.length ∧ d.2 < g.nodes.length ∧ d.1 ≠ d.2) ∧ ¬ Cyclic (Dep deps) ∧
    ∀ fuel, (graphOf fuel g deps).isAbort = true := by
  refine ⟨graph3, [(0, 1), (0, 1)], graph3_built, (by rintro i j ⟨t, ht⟩; cases ht), by decide, ?_, fun _ => rfl⟩
  have key : ∀ {i j}, Path (Dep [(0, 1), (0, 1)]) i j → i = 0 ∧ j = 1 := by
    intro i j h
    induction h with
    | edge e =>
      simp only [Dep, List.mem_cons, Prod.mk.injEq, List.not_mem_nil, or_false, or_self] at e
      exact e
    | step e _ ih =>
      simp only [Dep, List.mem_cons, Prod.mk.injEq, List.not_mem_nil, or_false, or_self] at e
      omega
  rintro ⟨i, hi⟩
  have := key hi
  omega

end Verif.Props
