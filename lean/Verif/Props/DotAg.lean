import Verif.Spec.DotAg

/-!
# Property theorems C80: the diagrams of dependencies

The theorems quantify over all graphs and names.
-/

namespace Verif.Props
open Verif.Str Verif.Ids Verif.Graph Verif.DotAg
open Verif.Spec.DotAg
open Verif.Spec.Templates (Beside)

namespace DotAg
variable {N : Names} {prod : CStr} {g : Graph}

/-- Where the first part ends is to be seen. -/
theorem split_under {a a' b b' : CStr} (h : a ++ (b!"__" ++ b) = a' ++ (b!"__" ++ b')) (ha : ¬ Beside 95 95 (a ++ [95]))
    (ha' : ¬ Beside 95 95 (a' ++ [95])) : a = a' ∧ b = b' := by
  induction a generalizing a' with
  | nil =>
    cases a' with
    | nil => simpa using h
    | cons c r =>
      exfalso
      simp only [List.nil_append, List.cons_append, List.cons.injEq] at h
      obtain ⟨rfl, h⟩ := h
      cases r with
      | nil => exact ha' ⟨[], [], rfl⟩
      | cons d r =>
        simp only [List.cons_append, List.cons.injEq] at h
        obtain ⟨rfl, h⟩ := h
        exact ha' ⟨[], r ++ [95], rfl⟩
  | cons c r ih =>
    cases a' with
    | nil =>
      exfalso
      simp only [List.nil_append, List.cons_append, List.cons.injEq] at h
      obtain ⟨rfl, h⟩ := h
      cases r with
      | nil => exact ha ⟨[], [], rfl⟩
      | cons d r =>
        simp only [List.cons_append, List.cons.injEq] at h
        obtain ⟨rfl, h⟩ := h
        exact ha ⟨[], r ++ [95], rfl⟩
    | cons d r' =>
      simp only [List.cons_append, List.cons.injEq] at h
      obtain ⟨rfl, h⟩ := h
      have tl : ∀ s : CStr, ¬ Beside 95 95 (c :: s) → ¬ Beside 95 95 s := fun s h1 ⟨x, y, e⟩ => h1 ⟨c :: x, y, by rw [e]; rfl⟩
      obtain ⟨rfl, rfl⟩ := ih h (tl _ ha) (tl _ ha')
      exact ⟨rfl, rfl⟩

theorem vertex_apart (h : Legible N g) : ∀ x ∈ g.nodes, ∀ y ∈ g.nodes, vertexName prod N x = vertexName prod N y → x = y := by
  intro x hx y hy e
  unfold vertexName at e
  have e := List.append_cancel_left (List.append_cancel_left (List.append_cancel_left e))
  obtain ⟨h1, h2⟩ := split_under e (h.underscores x hx) (h.underscores y hy)
  have h3 := h.nodes x hx y hy h1
  exact Prod.ext h3 (h.attrs x hx y hy h3 h2)

/-- The vertex of an attribute. -/
def vertexOf (prod : CStr) (N : Names) (x : Nat × Nat) : Vertex := ⟨vertexName prod N x, (N.attr x.2).orig, .absent⟩

theorem attrs_eq (node : Nat) (l : List (Nat × Nat)) :
    attrs prod N none node l = .ok ((l.filter fun x => decide (x.1 = node)).map (vertexOf prod N)) := by
  induction l with
  | nil => rfl
  | cons x l ih =>
    unfold attrs
    rw [List.filter_cons]
    cases decide (x.1 = node) with
    | false => exact ih
    | true =>
      show (mark none x >>= _) = _
      rw [show mark none x = .ok .absent from rfl, Res.bind_ok, ih, Res.bind_ok]
      rfl

/-- The nodes that get a cluster. -/
def firsts (N : Names) : List CStr → List (Nat × Nat) → List Nat
  | _, [] => []
  | seen, x :: rest => if (N.name x.1).lwr ∈ seen then firsts N seen rest else x.1 :: firsts N ((N.name x.1).lwr :: seen) rest

/-- The cluster of a node. -/
def clusterOf (prod : CStr) (N : Names) (all : List (Nat × Nat)) (n : Nat) : Cluster :=
  ⟨prod ++ (b!"__" ++ (N.name n).lwr), (N.type n).map (·.orig), (N.name n).orig, (all.filter fun x => decide (x.1 = n)).map (vertexOf prod N)⟩

theorem clusters_eq (all : List (Nat × Nat)) (seen : List CStr) (l : List (Nat × Nat)) :
    clusters prod N none all seen l = .ok ((firsts N seen l).map (clusterOf prod N all)) := by
  induction l generalizing seen with
  | nil => rfl
  | cons x l ih =>
    unfold clusters firsts
    by_cases h : (N.name x.1).lwr ∈ seen
    · rw [decide_eq_true h, if_pos h]
      exact ih seen
    · rw [decide_eq_false h, if_neg h]
      show (attrs prod N none x.1 all >>= _) = _
      rw [attrs_eq, Res.bind_ok, ih, Res.bind_ok]
      rfl

theorem firsts_mem {seen : List CStr} {l : List (Nat × Nat)} {n : Nat} (h : n ∈ firsts N seen l) : (N.name n).lwr ∉ seen ∧ ∃ x ∈ l, x.1 = n := by
  induction l generalizing seen with
  | nil => cases h
  | cons x l ih =>
    unfold firsts at h
    split at h
    · obtain ⟨h1, y, h2, h3⟩ := ih h
      exact ⟨h1, y, .tail _ h2, h3⟩
    · rename_i hx
      rcases List.mem_cons.1 h with rfl | h
      · exact ⟨hx, x, .head _, rfl⟩
      · obtain ⟨h1, y, h2, h3⟩ := ih h
        exact ⟨fun h4 => h1 (.tail _ h4), y, .tail _ h2, h3⟩

theorem firsts_all {seen : List CStr} {l : List (Nat × Nat)} {x : Nat × Nat} (h : x ∈ l) :
    (N.name x.1).lwr ∈ seen ∨ ∃ n ∈ firsts N seen l, (N.name n).lwr = (N.name x.1).lwr := by
  induction l generalizing seen with
  | nil => cases h
  | cons y l ih =>
    unfold firsts
    split
    · rename_i hy
      rcases List.mem_cons.1 h with rfl | h
      · exact .inl hy
      · exact ih h
    · rcases List.mem_cons.1 h with rfl | h
      · exact .inr ⟨_, .head _, rfl⟩
      · rcases ih (seen := (N.name y.1).lwr :: seen) h with h1 | ⟨n, h1, h2⟩
        · rcases List.mem_cons.1 h1 with h1 | h1
          · exact .inr ⟨_, .head _, h1.symm⟩
          · exact .inl h1
        · exact .inr ⟨n, .tail _ h1, h2⟩

theorem firsts_nodup {seen : List CStr} {l : List (Nat × Nat)} : (firsts N seen l).Nodup := by
  induction l generalizing seen with
  | nil => exact .nil
  | cons x l ih =>
    unfold firsts
    split
    · exact ih
    · exact List.nodup_cons.2 ⟨fun h => (firsts_mem h).1 (.head _), ih⟩

theorem edges_eq (nodes : List (Nat × Nat)) (l : List (Nat × Nat × EdgeType)) (h : ∀ i j t, (i, j, t) ∈ l → i < nodes.length ∧ j < nodes.length) :
    ∃ es, edges prod N nodes l = .ok es ∧ ∀ e, e ∈ es ↔ ∃ x y t, (∃ i j, (i, j, t) ∈ l ∧ nodes[i]? = some x ∧ nodes[j]? = some y ∧
      (t = .induced → x.1 = y.1)) ∧ e = ⟨vertexName prod N x, vertexName prod N y, decide (t = .induced)⟩ := by
  induction l with
  | nil => exact ⟨[], rfl, fun e => ⟨nofun, fun ⟨_, _, _, ⟨_, _, h, _⟩, _⟩ => by cases h⟩⟩
  | cons a l ih =>
    obtain ⟨i, j, t⟩ := a
    obtain ⟨es, h1, h2⟩ := ih fun i j t hm => h i j t (.tail _ hm)
    obtain ⟨hi, hj⟩ := h i j t (.head _)
    unfold edges
    simp only [List.getElem?_eq_getElem hi, List.getElem?_eq_getElem hj]
    by_cases hd : t = .induced ∧ nodes[i].1 ≠ nodes[j].1
    · rw [decide_eq_true hd]
      refine ⟨es, h1, fun e => (h2 e).trans ⟨?_, ?_⟩⟩
      · rintro ⟨x, y, t', ⟨i', j', k1, k2⟩, k3⟩
        exact ⟨x, y, t', ⟨i', j', .tail _ k1, k2⟩, k3⟩
      · rintro ⟨x, y, t', ⟨i', j', k1, k2, k3, k4⟩, k5⟩
        rcases List.mem_cons.1 k1 with k1 | k1
        · cases k1
          rw [List.getElem?_eq_getElem hi] at k2
          rw [List.getElem?_eq_getElem hj] at k3
          cases k2
          cases k3
          exact absurd (k4 hd.1) hd.2
        · exact ⟨x, y, t', ⟨i', j', k1, k2, k3, k4⟩, k5⟩
    · rw [decide_eq_false hd]
      refine ⟨_, by show (edges prod N nodes l >>= _) = _; rw [h1, Res.bind_ok], fun e => ?_⟩
      rw [List.mem_cons, h2]
      constructor
      · rintro (rfl | ⟨x, y, t', ⟨i', j', k1, k2⟩, k3⟩)
        · refine ⟨_, _, t, ⟨i, j, .head _, List.getElem?_eq_getElem hi, List.getElem?_eq_getElem hj, fun ht => ?_⟩, rfl⟩
          exact Classical.byContradiction fun hne => hd ⟨ht, hne⟩
        · exact ⟨x, y, t', ⟨i', j', .tail _ k1, k2⟩, k3⟩
      · rintro ⟨x, y, t', ⟨i', j', k1, k2, k3, k4⟩, k5⟩
        rcases List.mem_cons.1 k1 with k1 | k1
        · cases k1
          rw [List.getElem?_eq_getElem hi] at k2
          rw [List.getElem?_eq_getElem hj] at k3
          cases k2
          cases k3
          exact .inl k5
        · exact .inr ⟨x, y, t', ⟨i', j', k1, k2, k3, k4⟩, k5⟩

end DotAg

open DotAg

/-- C80: the diagrams before partitions are known show the dependencies between attributes: every attribute has a vertex of its own, beside the name of
its node, and the edges are those of the graph, but for induced ones between different nodes.

Missing: names that the diagram does not tell apart (`C80_seen_false`, `C80_underscore_false`); diagrams with partitions, for which the behaviour is
not defined (`C80_format_false`). -/
theorem C80_shows_partial {N : Names} {g : Graph} {prod : CStr} (hs : Sound g) (hl : Legible N g) :
    ∃ d v, GDag_dot_add_graph N g prod none = .ok d ∧ Shows N g d v := by
  obtain ⟨es, h1, h2⟩ := edges_eq (N := N) (prod := prod) g.nodes g.edges hs.edges
  refine ⟨⟨(firsts N [] g.nodes).map (clusterOf prod N g.nodes), es⟩, vertexName prod N, ?_, vertex_apart hl, fun type name s => ?_, ?_, fun e => ?_⟩
  · unfold GDag_dot_add_graph
    rw [clusters_eq, Res.bind_ok, h1, Res.bind_ok]
  · constructor
    · rintro ⟨c, hc, rfl, rfl, hv⟩
      obtain ⟨n, hn, rfl⟩ := List.mem_map.1 hc
      obtain ⟨x, hx, rfl⟩ := List.mem_map.1 hv
      obtain ⟨hx', e⟩ := List.mem_filter.1 hx
      cases of_decide_eq_true e
      exact ⟨x, hx', rfl, rfl, rfl⟩
    · rintro ⟨x, hx, rfl, rfl, rfl⟩
      rcases firsts_all (N := N) (seen := []) hx with h | ⟨n, hn, e⟩
      · cases h
      · obtain ⟨_, y, hy, rfl⟩ := firsts_mem hn
        rw [hl.nodes y hy x hx e] at hn
        exact ⟨_, List.mem_map.2 ⟨_, hn, rfl⟩, rfl, rfl, List.mem_map.2 ⟨x, List.mem_filter.2 ⟨hx, decide_eq_true rfl⟩, rfl⟩⟩
  · have h3 : (((firsts N [] g.nodes).map (clusterOf prod N g.nodes)).flatMap (·.vertices)).map (·.id) =
        ((firsts N [] g.nodes).flatMap fun n => g.nodes.filter fun x => decide (x.1 = n)).map (vertexName prod N) := by
      generalize firsts N [] g.nodes = l
      induction l with
      | nil => rfl
      | cons n l ih =>
        simp only [List.map_cons, List.flatMap_cons, List.map_append, ih]
        congr 1
        simp only [clusterOf, List.map_map]
        rfl
    have h4 : ((firsts N [] g.nodes).flatMap fun n => g.nodes.filter fun x => decide (x.1 = n)).Nodup := by
      have h5 : (firsts N [] g.nodes).Nodup := firsts_nodup
      generalize firsts N [] g.nodes = l at h5 ⊢
      induction l with
      | nil => exact .nil
      | cons n l ih =>
        obtain ⟨h6, h7⟩ := List.nodup_cons.1 h5
        rw [List.flatMap_cons, List.nodup_append]
        refine ⟨hs.nodup.filter _, ih h7, fun x hx y hy e => ?_⟩
        subst e
        obtain ⟨m, hm, hy⟩ := List.mem_flatMap.1 hy
        have e1 := of_decide_eq_true (List.mem_filter.1 hx).2
        have e2 := of_decide_eq_true (List.mem_filter.1 hy).2
        exact h6 (by rw [← e1, e2]; exact hm)
    show List.Nodup _
    rw [h3]
    have h8 : ∀ x ∈ (firsts N [] g.nodes).flatMap fun n => g.nodes.filter fun x => decide (x.1 = n), x ∈ g.nodes := fun x hx => by
      obtain ⟨m, _, hy⟩ := List.mem_flatMap.1 hx
      exact (List.mem_filter.1 hy).1
    revert h4 h8
    generalize ((firsts N [] g.nodes).flatMap fun n => g.nodes.filter fun x => decide (x.1 = n)) = l
    intro h4 h8
    induction l with
    | nil => exact .nil
    | cons x l ih =>
      obtain ⟨h9, h10⟩ := List.nodup_cons.1 h4
      refine List.nodup_cons.2 ⟨fun h => ?_, ih h10 fun y hy => h8 y (.tail _ hy)⟩
      obtain ⟨y, hy, e⟩ := List.mem_map.1 h
      rw [vertex_apart hl y (h8 y (.tail _ hy)) x (h8 x (.head _)) e] at hy
      exact h9 hy
  · exact h2 e

/-- A production `Add` with children `l` and `r`, and the attributes `value` and `env`. -/
def addNames : Names :=
  ⟨fun n => match n with | 0 => ⟨b!"Add", b!"add", b!"ADD"⟩ | 1 => ⟨b!"l", b!"l", b!"L"⟩ | _ => ⟨b!"r", b!"r", b!"R"⟩,
   fun n => match n with | 0 => none | _ => some ⟨b!"Expr", b!"expr", b!"EXPR"⟩,
   fun a => match a with | 0 => ⟨b!"value", b!"value", b!"VALUE"⟩ | _ => ⟨b!"env", b!"env", b!"ENV"⟩⟩

/-- The value of the sum is made of those of its parts; `env` is handed down.  Induced edges are there within a child, and from child to child. -/
def addGraph : Graph :=
  ⟨[(0, 0), (0, 1), (1, 0), (1, 1), (2, 0), (2, 1)], fun _ _ => none,
   [(2, 0, .normal), (4, 0, .normal), (1, 3, .normal), (1, 5, .normal), (3, 2, .induced), (2, 5, .induced)]⟩

theorem addGraph_sound : Sound addGraph :=
  ⟨by decide, fun i j t h => (by decide : ∀ e ∈ addGraph.edges, e.1 < addGraph.nodes.length ∧ e.2.1 < addGraph.nodes.length) (i, j, t) h⟩

/-- No two underscores in a row. -/
def doubleUnderB : CStr → Bool
  | a :: b :: s => (a == 95 && b == 95) || doubleUnderB (b :: s)
  | _ => false

theorem not_doubleUnder {s : CStr} (h : doubleUnderB s = false) : ¬ Beside 95 95 s := by
  rintro ⟨x, y, rfl⟩
  induction x with
  | nil => simp [doubleUnderB] at h
  | cons c x ih =>
    refine ih ?_
    cases x with
    | nil => simp [doubleUnderB] at h
    | cons d x =>
      simp only [List.cons_append, doubleUnderB, Bool.or_eq_false_iff] at h
      exact h.2

theorem addNames_legible : Legible addNames addGraph :=
  ⟨by decide, by decide, fun x hx => not_doubleUnder ((by decide : ∀ x ∈ addGraph.nodes, doubleUnderB ((addNames.name x.1).lwr ++ [95]) = false) x hx)⟩

/-- The hypotheses of `C80_shows_partial` hold for a production with two children; five of the six edges are drawn, one of them dotted. -/
example : Sound addGraph ∧ Legible addNames addGraph ∧
    ∃ d, GDag_dot_add_graph addNames addGraph b!"Add" none = .ok d ∧ d.clusters.map (·.name) = [b!"Add", b!"l", b!"r"] ∧ d.edges.length = 5 ∧
      (d.edges.filter (·.dotted)).length = 1 ∧ (⟨b!"attr_Add__l__env", b!"attr_Add__l__value", true⟩ : Edge) ∈ d.edges :=
  ⟨addGraph_sound, addNames_legible, _, rfl, by decide +kernel, by decide +kernel, by decide +kernel, by decide +kernel⟩

/-- A node `Expr` with a child `expr`. -/
def exprNames : Names :=
  ⟨fun n => match n with | 0 => ⟨b!"Expr", b!"expr", b!"EXPR"⟩ | _ => ⟨b!"expr", b!"expr", b!"EXPR"⟩,
   fun n => match n with | 0 => none | _ => some ⟨b!"Expr", b!"expr", b!"EXPR"⟩,
   fun _ => ⟨b!"value", b!"value", b!"VALUE"⟩⟩

/-- The value of the node is that of its child. -/
def exprGraph : Graph := ⟨[(0, 0), (1, 0)], fun _ _ => none, [(1, 0, .normal)]⟩

/-- C80 is false for a node with a child that has its name, but for letter case: the child is not drawn, and what depends on it seems to depend on
itself. -/
theorem C80_seen_false : ∃ N g prod d, Sound g ∧ (∀ x ∈ g.nodes, ∀ y ∈ g.nodes, (N.name x.1).orig = (N.name y.1).orig → x = y) ∧
    GDag_dot_add_graph N g prod none = .ok d ∧ (∃ e ∈ d.edges, e.src = e.dst) ∧ ∀ v, ¬ Shows N g d v := by
  refine ⟨exprNames, exprGraph, b!"Expr", _, ⟨by decide, fun i j t h => ?_⟩, by decide, rfl, by decide +kernel, fun v h => ?_⟩
  · exact (by decide : ∀ e ∈ exprGraph.edges, e.1 < exprGraph.nodes.length ∧ e.2.1 < exprGraph.nodes.length) (i, j, t) h
  · obtain ⟨c, hc, _, hn, _⟩ := (h.vertices _ _ _).2 ⟨(1, 0), by decide, rfl, rfl, rfl⟩
    cases List.mem_singleton.1 hc
    exact absurd hn (by decide +kernel)

/-- A node `a` with the attribute `b__c`, and a child `a__b` with the attribute `c`. -/
def underNames : Names :=
  ⟨fun n => match n with | 0 => ⟨b!"a", b!"a", b!"A"⟩ | _ => ⟨b!"a__b", b!"a__b", b!"A__B"⟩,
   fun n => match n with | 0 => none | _ => some ⟨b!"d", b!"d", b!"D"⟩,
   fun n => match n with | 0 => ⟨b!"b__c", b!"b__c", b!"B__C"⟩ | _ => ⟨b!"c", b!"c", b!"C"⟩⟩

/-- C80 is false for names with underscores: two attributes have the same vertex. -/
theorem C80_underscore_false : ∃ N g prod d, Sound g ∧
    (∀ x ∈ g.nodes, ∀ y ∈ g.nodes, (N.name x.1).lwr = (N.name y.1).lwr → x.1 = y.1) ∧
    (∀ x ∈ g.nodes, ∀ y ∈ g.nodes, x.1 = y.1 → (N.attr x.2).lwr = (N.attr y.2).lwr → x.2 = y.2) ∧
    GDag_dot_add_graph N g prod none = .ok d ∧ ∀ v, ¬ Shows N g d v := by
  refine ⟨underNames, ⟨[(0, 0), (1, 1)], fun _ _ => none, []⟩, b!"a", _, ⟨by decide, fun _ _ _ h => by cases h⟩, by decide, by decide, rfl,
    fun v h => ?_⟩
  have := h.once
  revert this
  decide +kernel

/-- C80 is false for the diagram with partitions (`partitioned.dot`): whatever the graph, if its first attribute has a partition, the behaviour is not
defined. -/
theorem C80_format_false (N : Names) (g : Graph) (prod : CStr) (f : Nat × Nat → Lookup) (x : Nat × Nat) (rest : List (Nat × Nat)) (n : Nat)
    (hg : g.nodes = x :: rest) (hf : f x = .found (n + 1)) : ∃ why, GDag_dot_add_graph N g prod (some f) = .ub why := by
  refine ⟨"%d for size_t", ?_⟩
  have h1 : mark (some f) x = .ub "%d for size_t" := by
    show (lookup_partition (f x) >>= _) = _
    rw [hf]
    rfl
  have h2 : attrs prod N (some f) x.1 (x :: rest) = .ub "%d for size_t" := by
    unfold attrs
    rw [decide_eq_true rfl]
    show (mark (some f) x >>= _) = _
    rw [h1]
    rfl
  have h3 : clusters prod N (some f) (x :: rest) [] (x :: rest) = .ub "%d for size_t" := by
    unfold clusters
    rw [decide_eq_false (List.not_mem_nil)]
    show (attrs prod N (some f) x.1 (x :: rest) >>= _) = _
    rw [h2]
    rfl
  unfold GDag_dot_add_graph
  rw [hg, h3]
  rfl

/-- The hypotheses of `C80_format_false` hold for the production above, with `value` in partition 1. -/
example : addGraph.nodes = (0, 0) :: addGraph.nodes.tail ∧ (fun _ => Lookup.found (0 + 1)) (0, 0) = Lookup.found (0 + 1) := ⟨rfl, rfl⟩

end Verif.Props
