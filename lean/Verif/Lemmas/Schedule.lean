import Verif.Lemmas.Evaluate
import Verif.Lemmas.InduceSets
import Verif.Lemmas.Fuel
import Verif.Props.Partition
import Verif.Props.EmptyVisits
import Verif.Props.Visits

/-!
# Lemmas about the scheduler as a whole

The plan that `SAVast` makes has what `Verif.Evaluate.World` asks for.
-/

namespace Verif.Schedule
open Verif.Graph Verif.Induce Verif.Partition Verif.Visits Verif.Spec.Induce Verif.Spec.AttrTree Verif.Spec.Evaluate
open Verif.Spec.Partition Verif.Spec.Visits Verif.AttrTree Verif.Evaluate Verif.Props
open Verif.Spec.Graph (Edge Path Cyclic)

/-- The addresses of the types. -/
def keys (S : Spec) : List Nat := S.nodes.map (·.addr) ++ S.sets.map (·.addr)

/-- What holds after the dependency phase without errors. -/
structure Ctx (S : Spec) (T : List (Nat × List Graph)) : Prop where
  ok : SpecOk S
  eq : Equipped S
  shape : Shape S T
  hk : ∀ k ∈ keys S, k ∈ T.map (·.1)
  inv : RInv S [] [] [] (pairs S T) 0

/-- No inherited attribute of the type depends on a synthesized one. -/
def One (S : Spec) (t : Nat) : Prop :=
  ∀ p o, Production.Sym p o t → ∀ x y, AttrIn S t x → AttrIn S t y → x.syn = true → y.inh = true →
    ¬ Dep S p (o, x.addr) (o, y.addr)

/-- The graph `g` has all attributes of the type `k`. -/
structure KeyOf (S : Spec) (T : List (Nat × List Graph)) (k : Nat) (g : Graph) (p : Production) : Prop where
  mem : (p, g) ∈ pairs S T
  sym : p.Sym k k
  whole : p.Whole k
  has : ∀ x, AttrIn S k x → (x.inh ∨ x.syn) → p.Has S k k x.addr

/-- The number of visits is at least one more than what is held. -/
structure Holds (S : Spec) (t : Nat) (vs : List AVisit) : Prop where
  held : ∀ (k : Nat) v, vs[k]? = some v →
    (∀ a ∈ v.inputs, ∃ x, AttrIn S t x ∧ x.inh = true ∧ x.addr = a) ∧
    (∀ a ∈ v.outputs, ∃ x, AttrIn S t x ∧ x.syn = true ∧ x.addr = a)
  all : ∀ x, AttrIn S t x →
    (x.inh = true → ∃ (k : Nat) (v : AVisit), vs[k]? = some v ∧ x.addr ∈ v.inputs) ∧
    (x.syn = true → ∃ (k : Nat) (v : AVisit), vs[k]? = some v ∧ x.addr ∈ v.outputs)
  one : One S t → vs.length ≤ 1
  nodup : ∀ (k : Nat) v, vs[k]? = some v → v.inputs.Nodup ∧ v.outputs.Nodup

theorem attrOf_in {S : Spec} {t a : Nat} : AttrOf S t a ↔ ∃ x, AttrIn S t x ∧ (x.inh ∨ x.syn) ∧ x.addr = a := by
  constructor
  · rintro (⟨n, hn, h1, x, hx, hc, rfl⟩ | ⟨s, hs, h1, x, hx, hc, rfl⟩)
    · exact ⟨x, Or.inl ⟨n, hn, h1, hx⟩, hc, rfl⟩
    · exact ⟨x, Or.inr ⟨s, hs, h1, hx⟩, hc, rfl⟩
  · rintro ⟨x, ⟨n, hn, h1, hx⟩ | ⟨s, hs, h1, hx⟩, hc, rfl⟩
    · exact Or.inl ⟨n, hn, h1, x, hx, hc, rfl⟩
    · exact Or.inr ⟨s, hs, h1, x, hx, hc, rfl⟩

section
variable {S : Spec} {T : List (Nat × List Graph)} (c : Ctx S T)
include c

theorem good {p : Production} {g : Graph} (h : (p, g) ∈ pairs S T) : GOk S p g ∧ Pl S p g :=
  c.inv.good (p, g) (by simpa using h)

theorem dep_edge' {p : Production} {g : Graph} (h : (p, g) ∈ pairs S T) {x y : Place} (hd : Dep S p x y) : EdgeP g x y :=
  dep_edge c.ok c.inv (fun _ hp =>
    let ⟨g, hg⟩ := has_graph c.ok c.shape c.hk hp
    ⟨g, mem_pairs c.ok hp hg⟩) hd g h

theorem no_circle {p : Production} {g : Graph} (h : (p, g) ∈ pairs S T) {x : Place} (hd : Dep S p x x) : False := by
  obtain ⟨i, j, hi, hj, e⟩ := dep_edge' c h hd
  have ok := (good c h).1
  have := at_inj ok.nodup hi hj
  subst this
  exact ok.irrefl i e

theorem attrAt_eq {x : Attr} (hx : x ∈ attributes S) : attrAt S x.addr = some x := by
  unfold attrAt
  cases hf : (attributes S).find? fun y => y.addr == x.addr with
  | none =>
    rw [List.find?_eq_none] at hf
    exact absurd (hf x hx) (by simp)
  | some y =>
    have h1 := List.mem_of_find?_eq_some hf
    have h2 := List.find?_some hf
    rw [inj_of_nodup c.eq.addrs h1 hx (by simpa using h2)]

theorem name_eq {x : Attr} (hx : x ∈ attributes S) : (attrs S).name x.addr = x.name := by
  simp [attrs, attrAt_eq c hx]

theorem syn_eq {x : Attr} (hx : x ∈ attributes S) : (attrs S).syn x.addr = x.syn := by
  simp [attrs, attrAt_eq c hx]

theorem graphs_at {k : Nat} (hk : k ∈ keys S) : ∃ gs, graphsOf T k = gs ∧ (k, gs) ∈ T := by
  obtain ⟨e, he, hke⟩ := List.mem_map.1 (c.hk k hk)
  unfold graphsOf
  cases hf : T.find? fun e => e.1 == k with
  | none =>
    rw [List.find?_eq_none] at hf
    exact absurd (hf e he) (by simp [hke])
  | some e' =>
    have h1 := List.mem_of_find?_eq_some hf
    have h2 : e'.1 = k := by simpa using List.find?_some hf
    exact ⟨e'.2, rfl, by rw [← h2]; exact h1⟩

theorem key_node {n : INode} (hn : n ∈ S.nodes) : ∃ g, graphsOf T n.addr = [g] ∧ (Production.node n, g) ∈ pairs S T := by
  obtain ⟨gs, h1, h2⟩ := graphs_at c (List.mem_append_left _ (List.mem_map.2 ⟨n, hn, rfl⟩))
  have := c.shape _ h2
  rw [prodsOf_node c.ok hn] at this
  match gs, this with
  | [g], _ =>
    refine ⟨g, h1, List.mem_flatMap.2 ⟨_, h2, ?_⟩⟩
    simp [prodsOf_node c.ok hn]

omit c in
theorem node_key {n : INode} {g : Graph} (h : (Production.node n, g) ∈ pairs S T) :
    KeyOf S T n.addr g (.node n) :=
  ⟨h, Or.inl ⟨rfl, rfl⟩, trivial, fun x hx hc => ⟨Or.inl ⟨rfl, rfl⟩, attrOf_in.2 ⟨x, hx, hc, rfl⟩⟩⟩

theorem key_set {s : NSet} (hs : s ∈ S.sets) : (graphsOf T s.addr = [] ∧ s.members = []) ∨
    ∃ g rest p, graphsOf T s.addr = g :: rest ∧ s.members ≠ [] ∧ KeyOf S T s.addr g p := by
  obtain ⟨gs, h1, h2⟩ := graphs_at c (List.mem_append_right _ (List.mem_map.2 ⟨s, hs, rfl⟩))
  have hl := c.shape _ h2
  rw [prodsOf_set c.ok hs, List.length_map, List.length_reverse] at hl
  cases gs with
  | nil => exact Or.inl ⟨h1, List.length_eq_zero_iff.1 hl⟩
  | cons g rest =>
    right
    cases hm : s.members.reverse with
    | nil => rw [List.reverse_eq_nil_iff] at hm; rw [hm] at hl; cases hl
    | cons m ms =>
      refine ⟨g, rest, .member s m, h1, (fun h => by rw [h] at hl; cases hl), ?_, Or.inl ⟨rfl, rfl⟩, rfl, ?_⟩
      · refine List.mem_flatMap.2 ⟨_, h2, ?_⟩
        simp [prodsOf_set c.ok hs, hm]
      · intro x hx hc
        exact Or.inl ⟨rfl, rfl, x, attrIn_set c.ok.toChecked hs hx, hc, rfl⟩

variable {k : Nat} {g : Graph} {p : Production} (ko : KeyOf S T k g p)
include ko

theorem key_only {a : Nat} (h : (k, a) ∈ g.nodes) : ∃ x, AttrIn S k x ∧ (x.inh ∨ x.syn) ∧ x.addr = a := by
  obtain ⟨ok, pl⟩ := good c ko.mem
  obtain ⟨t, ht⟩ := pl.only k a h ko.whole
  have : t = k := sym_unique c.ok.toChecked ok.inS (has_sym ht) ko.sym
  subst this
  exact attrOf_in.1 (has_attr c.ok.toChecked ok.inS ht)

theorem key_own {i : Nat} (h : Own g k i) : ∃ x, AttrIn S k x ∧ (x.inh ∨ x.syn) ∧ g.nodes[i]? = some (k, x.addr) ∧
    attrOf g i = x.addr ∧ nameOf (attrs S) g i = x.name ∧ synOf (attrs S) g i = x.syn := by
  obtain ⟨a, ha⟩ := h
  obtain ⟨x, h1, h2, rfl⟩ := key_only c ko (at_mem ha)
  have e : attrOf g i = x.addr := by simp [attrOf, ha]
  exact ⟨x, h1, h2, ha, e, by rw [nameOf, e, name_eq c (attrIn_mem h1)], by rw [synOf, e, syn_eq c (attrIn_mem h1)]⟩

theorem key_has {x : Attr} (hx : AttrIn S k x) (hc : x.inh ∨ x.syn) : ∃ i : Nat, g.nodes[i]? = some (k, x.addr) :=
  List.mem_iff_getElem?.1 ((good c ko.mem).2.has _ _ _ (ko.has x hx hc))

theorem key_distinct : Distinct (attrs S) g k := by
  intro i j hi hj hn
  obtain ⟨x, h1, _, h3, _, h5, _⟩ := key_own c ko hi
  obtain ⟨y, g1, _, g3, _, g5, _⟩ := key_own c ko hj
  rw [h5, g5] at hn
  have : x = y := by
    rcases h1 with ⟨n, hn1, rfl, hx⟩ | ⟨s, hs, rfl, hx⟩
    · exact inj_of_nodup (c.ok.names n hn1) hx (attrIn_node c.ok.toChecked hn1 g1) hn
    · exact inj_of_nodup (c.ok.setNames s hs) hx (attrIn_set c.ok.toChecked hs g1) hn
  subst this
  exact at_inj (good c ko.mem).1.nodup h3 g3

omit ko in
theorem needs_dep (hm : (p, g) ∈ pairs S T) {i j : Nat} (h : Needs g k i j) :
    ∃ a b, g.nodes[i]? = some (k, a) ∧ g.nodes[j]? = some (k, b) ∧ Dep S p (k, a) (k, b) := by
  obtain ⟨⟨a, ha⟩, ⟨b, hb⟩, _, he⟩ := h
  refine ⟨a, b, ha, hb, (good c hm).1.sound _ _ ⟨i, j, ha, hb, ?_⟩⟩
  rcases he with he | he <;> exact ⟨_, he⟩

omit ko in
theorem dep_needs (hm : (p, g) ∈ pairs S T) {i j a b : Nat} (ha : g.nodes[i]? = some (k, a)) (hb : g.nodes[j]? = some (k, b))
    (hd : Dep S p (k, a) (k, b)) : Needs g k i j := by
  have ok := (good c hm).1
  have e := (edgeP_iff ok.nodup ha hb).1 (dep_edge' c hm hd)
  refine ⟨⟨a, ha⟩, ⟨b, hb⟩, (fun h => ok.irrefl i (by rw [← h] at e; exact e)), ?_⟩
  obtain ⟨t, ht⟩ := e
  rcases ok.plain _ _ _ ht with rfl | rfl
  · exact Or.inl ht
  · exact Or.inr ht

omit ko in
theorem needs_trans (hm : (p, g) ∈ pairs S T) {i j l : Nat} (h : Needs g k i j) (h' : Needs g k j l) : Needs g k i l := by
  obtain ⟨a, b, h1, h2, h3⟩ := needs_dep c hm h
  obtain ⟨b', d, h4, h5, h6⟩ := needs_dep c hm h'
  rw [h2] at h4
  cases h4
  exact dep_needs c hm h1 h5 (.trans h3 h6)

omit ko in
theorem key_acyclic (hm : (p, g) ∈ pairs S T) : ¬ Cyclic (Needs g k) := by
  rintro ⟨i, hi⟩
  have key : ∀ {i j}, Path (Needs g k) i j → Needs g k i j := by
    intro i j h
    induction h with
    | edge e => exact e
    | step e _ ih => exact needs_trans c hm e ih
  exact (key hi).2.2.1 rfl

/-- With no inherited attribute depending on a synthesized one, the numbers are 2 and 3. -/
theorem small {tb : Table} (ho : One S k)
    (hl : ∀ i, Own g k i → Least (synOf (attrs S) g i)
      (fun q => ∃ d, Needs g k d i ∧ q = tb (nameOf (attrs S) g d)) (tb (nameOf (attrs S) g i))) :
    ∀ i, Own g k i → tb (nameOf (attrs S) g i) ≤ 3 ∧ (synOf (attrs S) g i = false → tb (nameOf (attrs S) g i) ≤ 2) := by
  haveI : ∀ a b, Decidable (Needs g k a b) := fun _ _ => Classical.propDecidable _
  have nn : ∀ m i, Own g k i → ((List.range g.nodes.length).filter fun d => decide (Needs g k d i)).length < m →
      tb (nameOf (attrs S) g i) ≤ 3 ∧ (synOf (attrs S) g i = false → tb (nameOf (attrs S) g i) ≤ 2) := by
    intro m
    induction m with
    | zero => exact fun i _ h => absurd h (Nat.not_lt_zero _)
    | succ m ih =>
      intro i hi hm
      have deps : ∀ d, Needs g k d i → tb (nameOf (attrs S) g d) ≤ 3 ∧
          (synOf (attrs S) g d = false → tb (nameOf (attrs S) g d) ≤ 2) := by
        intro d hd
        refine ih d hd.1 ?_
        have : ((List.range g.nodes.length).filter fun e => decide (Needs g k e d)).length <
            ((List.range g.nodes.length).filter fun e => decide (Needs g k e i)).length := by
          refine length_filter_lt' _ _ _ (fun e _ he => ?_) (a := d) ?_ ?_ ?_
          · simp only [decide_eq_true_eq] at he ⊢
            exact needs_trans c ko.mem he hd
          · obtain ⟨a, ha⟩ := hd.1
            exact List.mem_range.2 (at_lt ha)
          · simpa using hd
          · simp only [decide_eq_false_iff_not]
            exact fun h => h.2.2.1 rfl
        omega
      obtain ⟨x, h1, h2, h3, _, _, h6⟩ := key_own c ko hi
      obtain ⟨_, hmin⟩ := hl i hi
      cases hs : synOf (attrs S) g i with
      | true =>
        refine ⟨hmin 3 (by decide) (by simp [hs]) ?_, fun h => by cases h⟩
        rintro q ⟨d, hd, rfl⟩
        exact (deps d hd).1
      | false =>
        have : tb (nameOf (attrs S) g i) ≤ 2 := by
          refine hmin 2 (by decide) (by simp [hs]) ?_
          rintro q ⟨d, hd, rfl⟩
          refine (deps d hd).2 ?_
          obtain ⟨y, g1, _, g3, _, _, g6⟩ := key_own c ko hd.1
          obtain ⟨a, b, ha, hb, hdep⟩ := needs_dep c ko.mem hd
          rw [g3] at ha
          rw [h3] at hb
          cases ha
          cases hb
          rw [g6]
          cases hys : y.syn with
          | false => rfl
          | true =>
            refine absurd hdep (ho p k ko.sym y x g1 h1 hys ?_)
            rw [h6] at hs
            rcases h2 with h2 | h2
            · exact h2
            · rw [hs] at h2; cases h2
        exact ⟨by omega, fun _ => this⟩
  exact fun i hi => nn _ i hi (Nat.lt_succ_self _)

/-- What partitioning gives. -/
def GoodT (S : Spec) (g : Graph) (k : Nat) (tb : Table) : Prop :=
  ∀ i, Own g k i → 2 ≤ tb (nameOf (attrs S) g i) ∧ (One S k → tb (nameOf (attrs S) g i) ≤ 3)

theorem key_partition : ∃ N tb, (∀ fuel, N ≤ fuel → partition_nodes (attrs S) fuel g k = .ok tb) ∧ GoodT S g k tb := by
  obtain ⟨N, tb, h1, h2, _⟩ := C33_partition (attrs S) g k (key_distinct c ko) (key_acyclic c ko.mem)
  exact ⟨N, tb, h1, fun i hi => ⟨(h2 i hi).1.1, fun ho => (small c ko ho h2 i hi).1⟩⟩

theorem key_collect {tb : Table} (ht : GoodT S g k tb) {Ps : Nat → Option Table} (hp : Ps k = some tb) :
    ∃ vs, collectOf S Ps g k = .ok vs ∧ Holds S k vs := by
  obtain ⟨vs, e, h1, h2, h3⟩ := C34_once (attrs S) g k tb fun i hi => (ht i hi).1
  refine ⟨vs.map (ofVisit g), by simp [collectOf, hp, e], ?_, ?_, ?_, ?_⟩
  · intro j v hv
    rw [List.getElem?_map] at hv
    cases hw : vs[j]? with
    | none => rw [hw] at hv; cases hv
    | some w =>
      rw [hw] at hv
      cases hv
      have key : ∀ i, i ∈ w.inputs ∨ i ∈ w.outputs → ∃ x, AttrIn S k x ∧ (x.inh ∨ x.syn) ∧ x.addr = attrOf g i ∧
          w.inputs.count i = (if x.syn then 0 else 1) ∧ w.outputs.count i = (if x.syn then 1 else 0) := by
        intro i hi
        have own := (h2 i j ⟨w, hw, hi⟩).1
        obtain ⟨x, g1, g2, _, g4, _, g6⟩ := key_own c ko own
        obtain ⟨j', w', f1, f2, f3, f4⟩ := h1 i own
        have := f4 j w hw hi
        subst this
        rw [hw] at f1
        cases f1
        rw [g6] at f2 f3
        exact ⟨x, g1, g2, g4.symm, f2, f3⟩
      constructor
      · intro a ha
        obtain ⟨i, hi, rfl⟩ := List.mem_map.1 ha
        obtain ⟨x, g1, g2, g3, g4, _⟩ := key i (Or.inl hi)
        refine ⟨x, g1, ?_, g3⟩
        have : 0 < w.inputs.count i := List.count_pos_iff.2 hi
        rcases g2 with g2 | g2
        · exact g2
        · rw [g4, g2] at this; simp at this
      · intro a ha
        obtain ⟨i, hi, rfl⟩ := List.mem_map.1 ha
        obtain ⟨x, g1, g2, g3, _, g5⟩ := key i (Or.inr hi)
        refine ⟨x, g1, ?_, g3⟩
        have : 0 < w.outputs.count i := List.count_pos_iff.2 hi
        cases hs : x.syn with
        | true => rfl
        | false => rw [g5, hs] at this; simp at this
  · intro x hx
    have key : (x.inh ∨ x.syn) → ∃ (i j : Nat) (w : Visit), vs[j]? = some w ∧ attrOf g i = x.addr ∧
        w.inputs.count i = (if x.syn then 0 else 1) ∧ w.outputs.count i = (if x.syn then 1 else 0) := by
      intro hc
      obtain ⟨i, hi⟩ := key_has c ko hx hc
      have e1 : attrOf g i = x.addr := by simp [attrOf, hi]
      have e2 : synOf (attrs S) g i = x.syn := by rw [synOf, e1, syn_eq c (attrIn_mem hx)]
      obtain ⟨j', w', f1, f2, f3, _⟩ := h1 i ⟨_, hi⟩
      rw [e2] at f2 f3
      exact ⟨i, j', w', f1, e1, f2, f3⟩
    constructor
    · intro hi
      obtain ⟨i, j, w, f1, f2, f3, _⟩ := key (Or.inl hi)
      refine ⟨j, ofVisit g w, by simp [f1], ?_⟩
      have hs : x.syn = false := by
        cases hs : x.syn with
        | false => rfl
        | true => exact absurd ⟨hi, hs⟩ (c.eq.kinds x (attrIn_mem hx))
      rw [hs] at f3
      exact List.mem_map.2 ⟨i, List.count_pos_iff.1 (by rw [f3]; simp), f2⟩
    · intro hs
      obtain ⟨i, j, w, f1, f2, _, f4⟩ := key (Or.inr hs)
      refine ⟨j, ofVisit g w, by simp [f1], ?_⟩
      rw [hs] at f4
      exact List.mem_map.2 ⟨i, List.count_pos_iff.1 (by rw [f4]; simp), f2⟩
  · intro ho
    rw [List.length_map]
    apply Nat.le_of_not_lt
    intro hlt
    obtain ⟨i, k', hk, hiv⟩ := h3 1 hlt
    obtain ⟨own, rfl⟩ := h2 i k' hiv
    have := (ht i own).2 ho
    omega
  · intro j v hv
    rw [List.getElem?_map] at hv
    cases hw : vs[j]? with
    | none => rw [hw] at hv; cases hv
    | some w =>
      rw [hw] at hv
      cases hv
      have key : ∀ i, i ∈ w.inputs ∨ i ∈ w.outputs → w.inputs.count i ≤ 1 ∧ w.outputs.count i ≤ 1 ∧ Own g k i := by
        intro i hi
        have own := (h2 i j ⟨w, hw, hi⟩).1
        obtain ⟨j', w', f1, f2, f3, f4⟩ := h1 i own
        have := f4 j w hw hi
        subst this
        rw [hw] at f1
        cases f1
        rw [f2, f3]
        exact ⟨by split <;> simp, by split <;> simp, own⟩
      have inj : ∀ i i', Own g k i → Own g k i' → attrOf g i = attrOf g i' → i = i' := by
        rintro i i' ⟨a, ha⟩ ⟨b, hb⟩ e
        simp only [attrOf, ha, hb] at e
        subst e
        exact at_inj (good c ko.mem).1.nodup ha hb
      have go : ∀ l : List Nat, (∀ i ∈ l, Own g k i ∧ l.count i ≤ 1) → (l.map (attrOf g)).Nodup := by
        intro l hl
        have nd : l.Nodup := List.nodup_iff_count.2 fun i => by
          by_cases hi : i ∈ l
          · exact (hl i hi).2
          · rw [List.count_eq_zero_of_not_mem hi]; exact Nat.zero_le _
        refine List.pairwise_map.2 (List.Pairwise.imp_of_mem ?_ nd)
        intro i i' hi hi' hne e
        exact hne (inj i i' (hl i hi).1 (hl i' hi').1 e)
      exact ⟨go _ fun i hi => ⟨(key i (Or.inl hi)).2.2, (key i (Or.inl hi)).1⟩,
        go _ fun i hi => ⟨(key i (Or.inr hi)).2.2, (key i (Or.inr hi)).2.1⟩⟩

end

/-! ## The loops -/

/-- The type has a table. -/
def KeyT (S : Spec) (T : List (Nat × List Graph)) (Ps : Nat → Option Table) (k : Nat) : Prop :=
  ∃ g rest tb, graphsOf T k = g :: rest ∧ Ps k = some tb ∧ GoodT S g k tb

theorem keyT_put {S T Ps k g rest tb} (hg : graphsOf T k = g :: rest) (ht : GoodT S g k tb) {y : Nat}
    (h : y = k ∨ KeyT S T Ps y) : KeyT S T (put Ps k tb) y := by
  by_cases hy : y = k
  · subst hy
    exact ⟨g, rest, tb, hg, by simp [put], ht⟩
  · rcases h with h | ⟨g', rest', tb', h1, h2, h3⟩
    · exact absurd h hy
    · exact ⟨g', rest', tb', h1, by simp [put, hy, h2], h3⟩

section
variable {S : Spec} {T : List (Nat × List Graph)} (c : Ctx S T)
include c

theorem partitionNodes_spec : ∀ (ns : List INode), (∀ n ∈ ns, n ∈ S.nodes) → ∀ Ps, ∃ N Ps',
    (∀ fuel, N ≤ fuel → partitionNodes fuel S T ns Ps = .ok Ps') ∧ (∀ y, KeyT S T Ps y → KeyT S T Ps' y) ∧
    ∀ n ∈ ns, KeyT S T Ps' n.addr
  | [], _, Ps => ⟨0, Ps, fun _ _ => rfl, fun _ h => h, fun _ h => by cases h⟩
  | n :: rest, hs, Ps => by
    obtain ⟨g, hg, hm⟩ := key_node c (hs n (by simp))
    obtain ⟨N1, tb, r1, ht⟩ := key_partition c (node_key hm)
    obtain ⟨N2, Ps', r2, h1, h2⟩ := partitionNodes_spec rest (fun n h => hs n (by simp [h])) (put Ps n.addr tb)
    refine ⟨N1 + N2, Ps', fun fuel hf => ?_, fun y hy => h1 y (keyT_put hg ht (Or.inr hy)), fun m hm => ?_⟩
    · simp only [partitionNodes, hg, r1 fuel (by omega), Res.bind_ok, r2 fuel (by omega)]
    · rcases List.mem_cons.1 hm with rfl | hm
      · exact h1 _ (keyT_put hg ht (Or.inl rfl))
      · exact h2 m hm

theorem partitionSets_spec : ∀ (ss : List NSet), (∀ s ∈ ss, s ∈ S.sets) → ∀ Ps, ∃ N Ps',
    (∀ fuel, N ≤ fuel → partitionSets fuel S T ss Ps = .ok Ps') ∧ (∀ y, KeyT S T Ps y → KeyT S T Ps' y) ∧
    ∀ s ∈ ss, s.members ≠ [] → KeyT S T Ps' s.addr
  | [], _, Ps => ⟨0, Ps, fun _ _ => rfl, fun _ h => h, fun _ h => by cases h⟩
  | s :: rest, hs, Ps => by
    rcases key_set c (hs s (by simp)) with ⟨hg, hm⟩ | ⟨g, gs, p, hg, _, ko⟩
    · obtain ⟨N2, Ps', r2, h1, h2⟩ := partitionSets_spec rest (fun n h => hs n (by simp [h])) Ps
      refine ⟨N2, Ps', fun fuel hf => ?_, h1, fun m hm' hne => ?_⟩
      · simp only [partitionSets, hg, r2 fuel hf]
      · rcases List.mem_cons.1 hm' with rfl | hm'
        · exact absurd hm hne
        · exact h2 m hm' hne
    · obtain ⟨N1, tb, r1, ht⟩ := key_partition c ko
      obtain ⟨N2, Ps', r2, h1, h2⟩ := partitionSets_spec rest (fun n h => hs n (by simp [h])) (put Ps s.addr tb)
      refine ⟨N1 + N2, Ps', fun fuel hf => ?_, fun y hy => h1 y (keyT_put hg ht (Or.inr hy)), fun m hm hne => ?_⟩
      · simp only [partitionSets, hg, r1 fuel (by omega), Res.bind_ok, r2 fuel (by omega)]
      · rcases List.mem_cons.1 hm with rfl | hm
        · exact h1 _ (keyT_put hg ht (Or.inl rfl))
        · exact h2 m hm hne

/-- What holds for the table of visits. -/
structure VInv (S : Spec) (T : List (Nat × List Graph)) (V : Nat → Option (List AVisit)) : Prop where
  holds : ∀ y vs, V y = some vs → Holds S y vs
  graph : ∀ y, V y ≠ none → graphsOf T y ≠ []

omit c in
theorem vinv_put {V k vs} (v : VInv S T V) (h : Holds S k vs) (hg : graphsOf T k ≠ []) : VInv S T (put V k vs) := by
  constructor
  · intro y ws hy
    unfold put at hy
    split at hy
    · next e => cases hy; rw [e]; exact h
    · exact v.holds y ws hy
  · intro y hy
    unfold put at hy
    split at hy
    · next e => rw [e]; exact hg
    · exact v.graph y hy

omit c in
theorem put_ne {V : Nat → Option (List AVisit)} {k vs y} (h : y = k ∨ V y ≠ none) : put V k vs y ≠ none := by
  unfold put
  split
  · simp
  · next e => exact h.resolve_left e

theorem collectNodes_spec {Ps : Nat → Option Table} : ∀ (ns : List INode), (∀ n ∈ ns, n ∈ S.nodes) →
    (∀ n ∈ ns, KeyT S T Ps n.addr) → ∀ V, VInv S T V → ∃ V', collectNodes S T Ps ns V = .ok V' ∧ VInv S T V' ∧
    (∀ y, V y ≠ none → V' y ≠ none) ∧ ∀ n ∈ ns, V' n.addr ≠ none
  | [], _, _, V, v => ⟨V, rfl, v, fun _ h => h, fun _ h => by cases h⟩
  | n :: rest, hs, hk, V, v => by
    obtain ⟨g, hg, hm⟩ := key_node c (hs n (by simp))
    obtain ⟨g', gs, tb, hg', hp, ht⟩ := hk n (by simp)
    rw [hg] at hg'
    cases hg'
    obtain ⟨vs, e, hh⟩ := key_collect c (node_key hm) ht hp
    obtain ⟨V', r, v', h1, h2⟩ := collectNodes_spec rest (fun n h => hs n (by simp [h])) (fun n h => hk n (by simp [h]))
      (put V n.addr vs) (vinv_put v hh (by rw [hg]; simp))
    refine ⟨V', ?_, v', fun y hy => h1 y (put_ne (Or.inr hy)), fun m hm => ?_⟩
    · simp only [collectNodes, hg, e, Res.bind_ok, r]
    · rcases List.mem_cons.1 hm with rfl | hm
      · exact h1 _ (put_ne (Or.inl rfl))
      · exact h2 m hm

theorem collectSets_spec {Ps : Nat → Option Table} : ∀ (ss : List NSet), (∀ s ∈ ss, s ∈ S.sets) →
    (∀ s ∈ ss, s.members ≠ [] → KeyT S T Ps s.addr) → ∀ V, VInv S T V → ∃ V', collectSets S T Ps ss V = .ok V' ∧ VInv S T V' ∧
    (∀ y, V y ≠ none → V' y ≠ none) ∧ ∀ s ∈ ss, s.members ≠ [] → V' s.addr ≠ none
  | [], _, _, V, v => ⟨V, rfl, v, fun _ h => h, fun _ h => by cases h⟩
  | s :: rest, hs, hk, V, v => by
    rcases key_set c (hs s (by simp)) with ⟨hg, hm⟩ | ⟨g, gs, p, hg, hne, ko⟩
    · obtain ⟨V', r, v', h1, h2⟩ := collectSets_spec rest (fun n h => hs n (by simp [h])) (fun n h => hk n (by simp [h])) V v
      refine ⟨V', by simp only [collectSets, hg, r], v', h1, fun m hm' hne => ?_⟩
      rcases List.mem_cons.1 hm' with rfl | hm'
      · exact absurd hm hne
      · exact h2 m hm' hne
    · obtain ⟨g', gs', tb, hg', hp, ht⟩ := hk s (by simp) hne
      rw [hg] at hg'
      cases hg'
      obtain ⟨vs, e, hh⟩ := key_collect c ko ht hp
      obtain ⟨V', r, v', h1, h2⟩ := collectSets_spec rest (fun n h => hs n (by simp [h])) (fun n h => hk n (by simp [h]))
        (put V s.addr vs) (vinv_put v hh (by rw [hg]; simp))
      refine ⟨V', ?_, v', fun y hy => h1 y (put_ne (Or.inr hy)), fun m hm hne => ?_⟩
      · simp only [collectSets, hg, e, Res.bind_ok, r]
      · rcases List.mem_cons.1 hm with rfl | hm
        · exact h1 _ (put_ne (Or.inl rfl))
        · exact h2 m hm hne

omit c in
/-- What the sequences are made from. -/
theorem sequences_inv {max : Nat} {V : Nat → Option (List AVisit)} : ∀ (ns : List INode), (ns.map (·.addr)).Nodup → ∀ Q Q',
    sequences max S T V ns Q = .ok Q' → (∀ y, y ∉ ns.map (·.addr) → Q' y = Q y) ∧
    ∀ n ∈ ns, ∃ g rest seqs, graphsOf T n.addr = g :: rest ∧ generate_visits (env S V n g) max = .ok seqs ∧
      Q' n.addr = some (seqs.map fun seq => seq.map (act g))
  | [], _, Q, Q', h => by cases h; exact ⟨fun _ _ => rfl, fun _ h => by cases h⟩
  | n :: rest, hn, Q, Q', h => by
    rw [List.map_cons, List.nodup_cons] at hn
    unfold sequences at h
    split at h
    · cases h
    next g gs hg =>
    obtain ⟨seqs, e1, e2⟩ := Res.bind_eq_ok.1 h
    obtain ⟨h1, h2⟩ := sequences_inv rest hn.2 _ _ e2
    refine ⟨fun y hy => ?_, fun m hm => ?_⟩
    · simp only [List.map_cons, List.mem_cons, not_or] at hy
      rw [h1 y hy.2, put, if_neg hy.1]
    · rcases List.mem_cons.1 hm with rfl | hm
      · exact ⟨g, gs, seqs, hg, e1, by rw [h1 _ hn.1, put, if_pos rfl]⟩
      · exact h2 m hm

end

/-! ## Empty visits -/

theorem addr_ty {S : Spec} {t : Nat} (ht : t ∈ keys S) : addrOf S (tyOf S t) = some t := by
  unfold tyOf
  split
  · next i hi =>
    obtain ⟨h1, h2, _⟩ := List.findIdx?_eq_some_iff_getElem.1 hi
    have h2 : S.nodes[i].addr = t := by simpa using h2
    simp only [addrOf, List.getElem?_eq_getElem h1, Option.map_some, h2]
  · next hi =>
    rw [List.findIdx?_eq_none_iff] at hi
    rcases List.mem_append.1 ht with ht | ht
    · obtain ⟨n, hn, rfl⟩ := List.mem_map.1 ht
      exact absurd (hi n hn) (by simp)
    · obtain ⟨s, hs, rfl⟩ := List.mem_map.1 ht
      have hlt : S.sets.findIdx (fun x => x.addr == s.addr) < S.sets.length :=
        List.findIdx_lt_length_of_exists ⟨s, hs, by simp⟩
      have : S.sets[S.sets.findIdx (fun x => x.addr == s.addr)].addr = s.addr := by
        have := List.findIdx_getElem (w := hlt)
        simpa using this
      simp only [addrOf, List.getElem?_eq_getElem hlt, Option.map_some, this]

theorem ty_node {S : Spec} (h : Checked S) {i : Nat} {n : INode} (hi : S.nodes[i]? = some n) : tyOf S n.addr = .node i := by
  have hn : n ∈ S.nodes := List.mem_of_getElem? hi
  obtain ⟨hlt, hg⟩ := List.getElem?_eq_some_iff.1 hi
  unfold tyOf
  have : S.nodes.findIdx? (fun m => m.addr == n.addr) = some i := by
    rw [List.findIdx?_eq_some_iff_getElem]
    refine ⟨hlt, by simp [hg], fun j hj => ?_⟩
    have nd : (S.nodes.map (·.addr)).Nodup := (List.nodup_append.1 (List.nodup_append.1 h.distinct).1).1
    simp only [beq_iff_eq]
    intro he
    have e1 : (S.nodes.map (·.addr))[j]? = some n.addr := by
      simp only [List.getElem?_map, List.getElem?_eq_getElem (Nat.lt_trans hj hlt), Option.map_some, he]
    have e2 : (S.nodes.map (·.addr))[i]? = some n.addr := by
      simp only [List.getElem?_map, hi, Option.map_some]
    have := (List.getElem?_inj (by simpa using Nat.lt_trans hj hlt) nd).1 (e1.trans e2.symm)
    omega
  rw [this]

theorem ty_set {S : Spec} (h : Checked S) {i : Nat} {s : NSet} (hi : S.sets[i]? = some s) : tyOf S s.addr = .set i := by
  have hs : s ∈ S.sets := List.mem_of_getElem? hi
  obtain ⟨hlt, hg⟩ := List.getElem?_eq_some_iff.1 hi
  unfold tyOf
  have hno : S.nodes.findIdx? (fun m => m.addr == s.addr) = none := by
    rw [List.findIdx?_eq_none_iff]
    intro n hn
    simpa using node_set h hn hs
  have : S.sets.findIdx (fun m => m.addr == s.addr) = i := by
    rw [List.findIdx_eq hlt]
    refine ⟨by simp [hg], fun j hj => ?_⟩
    have nd : (S.sets.map (·.addr)).Nodup := (List.nodup_append.1 (List.nodup_append.1 h.distinct).1).2.1
    simp only [beq_eq_false_iff_ne]
    intro he
    have e1 : (S.sets.map (·.addr))[j]? = some s.addr := by
      simp only [List.getElem?_map, List.getElem?_eq_getElem (Nat.lt_trans hj hlt), Option.map_some, he]
    have e2 : (S.sets.map (·.addr))[i]? = some s.addr := by
      simp only [List.getElem?_map, hi, Option.map_some]
    have := (List.getElem?_inj (by simpa using Nat.lt_trans hj hlt) nd).1 (e1.trans e2.symm)
    omega
  rw [hno, this]

theorem below_child {S : Spec} (h : Checked S) {n : INode} (hn : n ∈ S.nodes) {ch : Child} (hc : ch ∈ n.children) :
    Spec.EmptyVisits.Below (types S) (tyOf S n.addr) (tyOf S ch.type) := by
  obtain ⟨i, hi⟩ := List.mem_iff_getElem?.1 hn
  rw [ty_node h hi]
  exact .child (kids := n.children.map fun c => tyOf S c.type) (by simp [types, hi]) (List.mem_map.2 ⟨ch, hc, rfl⟩)

theorem below_member {S : Spec} (h : Checked S) {s : NSet} (hs : s ∈ S.sets) {m : INode} (hm : m ∈ s.members) :
    Spec.EmptyVisits.Below (types S) (tyOf S s.addr) (tyOf S m.addr) := by
  obtain ⟨i, hi⟩ := List.mem_iff_getElem?.1 hs
  rw [ty_set h hi]
  exact .member (ms := s.members.reverse.map fun m => tyOf S m.addr) (by simp [types, hi])
    (List.mem_map.2 ⟨m, List.mem_reverse.2 hm, rfl⟩)

theorem below_inv {S : Spec} {a b : EmptyVisits.Ty} (hb : Spec.EmptyVisits.Below (types S) a b) :
    (∃ n ∈ S.nodes, ∃ ch ∈ n.children, b = tyOf S ch.type) ∨ (∃ s ∈ S.sets, ∃ m ∈ s.members, b = tyOf S m.addr) := by
  cases hb with
  | @child i kids t h1 h2 =>
    simp only [types, List.getElem?_map] at h1
    cases hn : S.nodes[i]? with
    | none => rw [hn] at h1; cases h1
    | some n =>
      rw [hn] at h1
      cases h1
      obtain ⟨ch, hc, rfl⟩ := List.mem_map.1 h2
      exact Or.inl ⟨n, List.mem_of_getElem? hn, ch, hc, rfl⟩
  | @member i ms t h1 h2 =>
    simp only [types, List.getElem?_map] at h1
    cases hn : S.sets[i]? with
    | none => rw [hn] at h1; cases h1
    | some s =>
      rw [hn] at h1
      cases h1
      obtain ⟨m, hm, rfl⟩ := List.mem_map.1 h2
      exact Or.inr ⟨s, List.mem_of_getElem? hn, m, List.mem_reverse.1 hm, rfl⟩

/-- The table of visits after `generate_empty_visits`. -/
theorem empty_visits {S : Spec} {T : List (Nat × List Graph)} (c : Ctx S T) (hi : Filled S)
    {V : Nat → Option (List AVisit)} (v : VInv S T V) (hn : ∀ n ∈ S.nodes, V n.addr ≠ none)
    (hs : ∀ s ∈ S.sets, s.members ≠ [] → V s.addr ≠ none) :
    ∃ C N, (∀ fuel, N ≤ fuel → EmptyVisits.generate_empty_visits (types S) fuel (counts S V) = .ok C) ∧
      VInv S T (withEmpty S V C) ∧ (∀ y, withEmpty S V C y = none ↔ V y = none) ∧
      ∀ a ∈ keys S, ∀ b ∈ keys S, Spec.EmptyVisits.Below (types S) (tyOf S a) (tyOf S b) →
        ∀ vs ws, withEmpty S V C a = some vs → withEmpty S V C b = some ws → vs = [] → ws = [] := by
  have hct : ∀ t ∈ keys S, counts S V (tyOf S t) = (V t).map (·.length) := by
    intro t ht
    simp [counts, addr_ty ht]
  have hkey : ∀ n ∈ S.nodes, n.addr ∈ keys S := fun n hn => List.mem_append_left _ (List.mem_map.2 ⟨n, hn, rfl⟩)
  have hct' : ∀ n ∈ S.nodes, ∀ ch ∈ n.children, V ch.type ≠ none := by
    intro n hn1 ch hc
    rcases List.mem_append.1 (c.ok.types n hn1 ch hc) with ht | ht
    · obtain ⟨m, hm, e⟩ := List.mem_map.1 ht
      rw [← e]; exact hn m hm
    · obtain ⟨s, hs1, e⟩ := List.mem_map.1 ht
      rw [← e]; exact hs s hs1 (hi n hn1 ch hc s hs1 e)
  obtain ⟨C, N, r, c1, c2, c3, c4⟩ := C43_reachable_partial (types S) (counts S V) (by
    intro a b hb _
    rcases below_inv hb with ⟨n, hn1, ch, hc, rfl⟩ | ⟨s, hs1, m, hm, rfl⟩
    · rw [hct _ (c.ok.types n hn1 ch hc)]
      simpa using hct' n hn1 ch hc
    · have hm' := c.ok.members s hs1 m hm
      rw [hct _ (hkey m hm')]
      simpa using hn m hm')
  have hnone : ∀ y, withEmpty S V C y = none ↔ V y = none := by
    intro y
    unfold withEmpty
    split
    · next h => rw [h]; split <;> simp
    · exact Iff.rfl
  have hlen : ∀ t ∈ keys S, ∀ ws, withEmpty S V C t = some ws → C (tyOf S t) = some ws.length := by
    intro t ht ws hw
    unfold withEmpty at hw
    split at hw
    · next h =>
      have h0 : counts S V (tyOf S t) = some 0 := by rw [hct t ht, h]; rfl
      rcases c3 _ h0 with e | e
      · rw [e] at hw ⊢; cases hw; rfl
      · rw [e] at hw ⊢; cases hw; rfl
    · next h =>
      cases ws with
      | nil => exact absurd hw h
      | cons w ws =>
        exact c2 _ _ (by rw [hct t ht, hw]; rfl)
  refine ⟨C, N, r, ⟨?_, ?_⟩, hnone, ?_⟩
  · intro y vs hy
    unfold withEmpty at hy
    split at hy
    · next h =>
      have hh := v.holds y [] h
      split at hy
      · cases hy
        refine ⟨fun k w hw => ?_, fun x hx => ?_, fun _ => Nat.le_refl _, fun k w hw => ?_⟩
        · cases k with
          | zero => cases hw; exact ⟨(fun _ h => by cases h), (fun _ h => by cases h)⟩
          | succ k => simp at hw
        · obtain ⟨h1, h2⟩ := hh.all x hx
          exact ⟨fun h => by obtain ⟨_, _, h, _⟩ := h1 h; simp at h, fun h => by obtain ⟨_, _, h, _⟩ := h2 h; simp at h⟩
        · cases k with
          | zero => cases hw; exact ⟨List.nodup_nil, List.nodup_nil⟩
          | succ k => simp at hw
      · cases hy; exact hh
    · exact v.holds y vs hy
  · exact fun y hy => v.graph y fun h => hy ((hnone y).2 h)
  · intro a ha b hb hbl vs ws hv hw hvs
    subst hvs
    have e1 := hlen a ha _ hv
    cases ws with
    | nil => rfl
    | cons w ws =>
      have e2 := hlen b hb _ hw
      have hVa : counts S V (tyOf S a) ≠ none := fun h => by rw [(c1 _).2 h] at e1; cases e1
      have hVb : counts S V (tyOf S b) ≠ none := fun h => by rw [(c1 _).2 h] at e2; cases e2
      obtain ⟨t', n, h1, h2⟩ := (c4 _ hVb).1 ⟨_, e2⟩
      obtain ⟨n', h3⟩ := (c4 _ hVa).2 ⟨t', n, .step hbl h1, h2⟩
      rw [h3] at e1
      cases e1

/-! ## The plan -/

/-- The facts about a node, from the sequences that were generated for it. -/
theorem node_fact {S : Spec} {T : List (Nat × List Graph)} (c : Ctx S T) (hi : Filled S) {P : Plan}
    (v : VInv S T P.visits) (hn : ∀ n ∈ S.nodes, P.visits n.addr ≠ none)
    (hs : ∀ s ∈ S.sets, s.members ≠ [] → P.visits s.addr ≠ none)
    (hb : ∀ a ∈ keys S, ∀ b ∈ keys S, Spec.EmptyVisits.Below (types S) (tyOf S a) (tyOf S b) →
      ∀ vs ws, P.visits a = some vs → P.visits b = some ws → vs = [] → ws = [])
    {n : INode} (hnS : n ∈ S.nodes) {g : Graph} {rest : List Graph} (hg : graphsOf T n.addr = g :: rest) {max : Nat}
    {seqs : List (List Ev)} (hgen : generate_visits (env S P.visits n g) max = .ok seqs)
    (hq : P.seqs n.addr = some (seqs.map fun seq => seq.map (act g))) :
    ∃ st vs, NodeFact S P n (env S P.visits n g) seqs st vs := by
  obtain ⟨g', hg', hm⟩ := key_node c hnS
  rw [hg] at hg'
  cases hg'
  obtain ⟨ok, pl⟩ := good c hm
  have ch := c.ok.toChecked
  have only : ∀ o a p, At (env S P.visits n g) o a p → (o = n.addr ∧ ∃ x ∈ n.attrs, (x.inh ∨ x.syn) ∧ x.addr = a) ∨
      ∃ c ∈ n.children, c.addr = o ∧ ∃ x, AttrIn S c.type x ∧ (x.inh ∨ x.syn) ∧ x.addr = a := by
    intro o a p hp
    obtain ⟨t, ⟨hs1, ha⟩⟩ := pl.only o a (at_mem hp) trivial
    obtain ⟨x, h1, h2, h3⟩ := attrOf_in.1 ha
    rcases hs1 with ⟨rfl, rfl⟩ | ⟨cc, hc, rfl, rfl⟩
    · exact Or.inl ⟨rfl, x, attrIn_node ch hnS h1, h2, h3⟩
    · exact Or.inr ⟨cc, hc, rfl, x, h1, h2, h3⟩
  have typ : ∀ c ∈ n.children, get_node_type S c.addr = c.type := fun cc hc =>
    type_sym ch (p := .node n) hnS (Or.inr ⟨cc, hc, rfl, rfl⟩)
  have hchild : ∀ c ∈ n.children, ∃ ws, P.visits c.type = some ws := by
    intro cc hc
    refine Option.ne_none_iff_exists'.1 ?_
    rcases List.mem_append.1 (c.ok.types n hnS cc hc) with ht | ht
    · obtain ⟨m, hm, e⟩ := List.mem_map.1 ht
      rw [← e]; exact hn m hm
    · obtain ⟨s, hs1, e⟩ := List.mem_map.1 ht
      rw [← e]; exact hs s hs1 (hi n hnS cc hc s hs1 e)
  obtain ⟨vs, U, hvs, hpl, hU⟩ := C35_order_partial (env S P.visits n g) ok.nodup (by
      intro o a p hp ho
      rcases only o a p hp with ⟨rfl, _⟩ | ⟨cc, hc, rfl, _⟩
      · exact absurd rfl ho
      · exact List.mem_map.2 ⟨cc, hc, rfl⟩) (by
      intro t ht
      simp only [env] at ht
      cases hf : S.sets.find? fun s => s.addr == t with
      | none => rw [hf] at ht; cases ht
      | some s =>
        rw [hf] at ht
        simp only [Option.map_some, Option.some.injEq, List.map_eq_nil_iff, List.reverse_eq_nil_iff] at ht
        have h1 := List.mem_of_find?_eq_some hf
        have h2 : s.addr = t := by simpa using List.find?_some hf
        subst h2
        rcases key_set c h1 with ⟨hgs, _⟩ | ⟨_, _, _, _, hne, _⟩
        · cases hV : P.visits s.addr with
          | none => exact hV
          | some w => exact absurd hgs (v.graph s.addr (by rw [hV]; simp))
        · exact absurd ht hne) max seqs hgen
  obtain ⟨st, s0, s1, s2, s3⟩ := plays_states hpl
  refine ⟨st, vs, ?_⟩
  exact {
    self := rfl
    kids := fun x => by simp [env]
    typ := typ
    syn := fun t x hx => syn_eq c (attrIn_mem hx)
    mem := by
      intro cc hc m ks hmS ho
      rcases ho with ho | ⟨s, hs1, ho, hm1⟩
      · left
        refine ⟨?_, ho.symm⟩
        simp only [env, Option.map_eq_none_iff, List.find?_eq_none]
        exact fun s hs1 => by simpa [← ho] using (node_set ch hmS hs1).symm
      · right
        refine ⟨s.members.reverse.map (·.addr), ?_, List.mem_map.2 ⟨m, List.mem_reverse.2 hm1, rfl⟩⟩
        simp only [env, ← ho, find_set c.ok hs1, Option.map_some]
    alt := by
      intro cc hc
      refine ⟨fun h0 => ?_, fun ms h0 => ?_⟩
      · simp only [env, Option.map_eq_none_iff, List.find?_eq_none] at h0
        rcases List.mem_append.1 (c.ok.types n hnS cc hc) with h1 | h1
        · obtain ⟨m, hm1, e⟩ := List.mem_map.1 h1
          exact ⟨m, hm1, e⟩
        · obtain ⟨s, hs1, e⟩ := List.mem_map.1 h1
          exact absurd (by simpa using e) (h0 s hs1)
      · simp only [env, Option.map_eq_some_iff] at h0
        obtain ⟨s, hf, rfl⟩ := h0
        exact ⟨s, List.mem_of_find?_eq_some hf, by simpa using List.find?_some hf, rfl⟩
    vis := rfl
    nodup := ok.nodup
    only := only
    hasOwn := fun x hx hc => by
      obtain ⟨i, hi⟩ := key_has c (node_key hm) (own_attrIn hnS hx) hc
      exact ⟨i, hi⟩
    hasKid := fun cc hc x hx hcx => by
      have := pl.has cc.addr cc.type x.addr ⟨Or.inr ⟨cc, hc, rfl, rfl⟩, attrOf_in.2 ⟨x, hx, hcx, rfl⟩⟩
      exact List.mem_iff_getElem?.1 this
    dep := by
      intro q hq d hd hc i hi
      obtain ⟨j, i', hj, hi', e⟩ := dep_edge' c hm (.direct hnS (.eqn hq hd hc))
      have := at_inj ok.nodup hi hi'
      subst this
      refine ⟨j, hj, at_lt hj, (fun h => ok.irrefl j (by rw [← h] at e; exact e)), ?_⟩
      obtain ⟨t, ht⟩ := e
      rcases ok.plain _ _ _ ht with rfl | rfl
      · exact Or.inl ht
      · exact Or.inr ht
    own := hvs
    child := hchild
    plan := hq
    start := s0
    len := s2
    step := s3
    last := by
      intro hne cc hc ws hw k hk
      obtain ⟨ws', h1, h2⟩ := hU hne cc.addr (List.mem_map.2 ⟨cc, hc, rfl⟩)
      simp only [env, typ cc hc] at h1
      rw [hw] at h1
      cases h1
      rw [s1]
      exact h2 k hk
    none := by
      intro he cc hc ws hw
      exact hb n.addr (List.mem_append_left _ (List.mem_map.2 ⟨n, hnS, rfl⟩)) cc.type (c.ok.types n hnS cc hc)
        (below_child ch hnS hc) vs ws hvs hw he }

/-- What the scheduler establishes. -/
structure Sched (S : Spec) (P : Plan) (En : INode → Env) (Sq : INode → List (List Ev)) (St : INode → Nat → Known)
    (Vs : INode → List AVisit) : Prop where
  node : ∀ n ∈ S.nodes, NodeFact S P n (En n) (Sq n) (St n) (Vs n)
  holds : ∀ t vs, P.visits t = some vs → Holds S t vs
  member : ∀ s ∈ S.sets, ∀ m ∈ s.members, ∀ vs ws, P.visits s.addr = some vs → P.visits m.addr = some ws → vs = [] → ws = []

theorem schedule_large {S : Spec} (h : SpecOk S) (q : Equipped S) (hi : Filled S)
    (order : List (Nat × List Graph) → List (Nat × List Graph)) (ho : ∀ l, (order l).Perm l) :
    ∃ N, ∀ fuel, N ≤ fuel → ∀ max P, SAVast fuel max order S = .ok (some P) → ∃ En Sq St Vs, Sched S P En Sq St Vs := by
  obtain ⟨st, N0, r0, hs, hind, hk⟩ := sav_spec h order ho
  cases he : st.errors with
  | succ e =>
    refine ⟨N0, fun fuel hf max P hP => ?_⟩
    simp only [SAVast, r0 fuel hf, Res.bind_ok, he] at hP
    cases hP
  | zero =>
    have inv := hs.inv
    rw [hind, he] at inv
    have c : Ctx S st.graphs := ⟨h, q, hs.shape, hk, inv⟩
    obtain ⟨N1, Ps1, r1, _, k1⟩ := partitionNodes_spec c S.nodes (fun _ h => h) fun _ => none
    obtain ⟨N2, Ps2, r2, k2, k3⟩ := partitionSets_spec c S.sets (fun _ h => h) Ps1
    obtain ⟨V1, r3, v1, _, n1⟩ := collectNodes_spec c (Ps := Ps2) S.nodes (fun _ h => h) (fun n hn => k2 _ (k1 n hn))
      (fun _ => none) ⟨(fun y vs h => by cases h), (fun y h => absurd rfl h)⟩
    obtain ⟨V2, r4, v2, n2, n3⟩ := collectSets_spec c (Ps := Ps2) S.sets (fun _ h => h) k3 V1 v1
    obtain ⟨C, N3, r5, v3, n4, hb⟩ := empty_visits c hi v2 (fun n hn => n2 _ (n1 n hn)) n3
    refine ⟨N0 + N1 + N2 + N3, fun fuel hf max P hP => ?_⟩
    simp only [SAVast, r0 fuel (by omega), Res.bind_ok, he, SAVast_visits, r1 fuel (by omega), r2 fuel (by omega), r3, r4,
      r5 fuel (by omega)] at hP
    obtain ⟨P', e1, e2⟩ := Res.bind_eq_ok.1 hP
    cases e2
    obtain ⟨Q, e3, e4⟩ := Res.bind_eq_ok.1 e1
    cases e4
    obtain ⟨_, sq⟩ := sequences_inv S.nodes (List.nodup_append.1 (List.nodup_append.1 h.distinct).1).1 _ _ e3
    have nf : ∀ n, ∃ x : Env × List (List Ev) × (Nat → Known) × List AVisit, n ∈ S.nodes →
        NodeFact S ⟨withEmpty S V2 C, Q⟩ n x.1 x.2.1 x.2.2.1 x.2.2.2 := by
      intro n
      by_cases hn : n ∈ S.nodes
      · obtain ⟨g, rest, seqs, h1, h2, h3⟩ := sq n hn
        obtain ⟨s, vs, nf⟩ := node_fact c hi (P := ⟨withEmpty S V2 C, Q⟩) v3
          (fun n hn h => n2 _ (n1 n hn) ((n4 _).1 h)) (fun s hs hm h => n3 s hs hm ((n4 _).1 h)) hb hn h1 h2 h3
        exact ⟨(_, _, s, vs), fun _ => nf⟩
      · exact ⟨(⟨⟨[], fun _ _ => none, []⟩, 0, [], fun _ => 0, fun _ => false, fun _ => none, fun _ => none⟩, [], fun _ _ => False, []),
          fun h => absurd h hn⟩
    refine ⟨fun n => (nf n).choose.1, fun n => (nf n).choose.2.1, fun n => (nf n).choose.2.2.1,
      fun n => (nf n).choose.2.2.2, fun n hn => (nf n).choose_spec hn, v3.holds, fun s hs m hm vs ws h1 h2 h3 => ?_⟩
    exact hb s.addr (List.mem_append_right _ (List.mem_map.2 ⟨s, hs, rfl⟩)) m.addr
      (List.mem_append_left _ (List.mem_map.2 ⟨m, h.members s hs m hm, rfl⟩)) (below_member h.toChecked hs hm) vs ws h1 h2 h3

theorem schedule_spec {S : Spec} (h : SpecOk S) (q : Equipped S) (hi : Filled S)
    (order : List (Nat × List Graph) → List (Nat × List Graph)) (ho : ∀ l, (order l).Perm l) {fuel max : Nat} {P : Plan}
    (hP : SAVast fuel max order S = .ok (some P)) : ∃ En Sq St Vs, Sched S P En Sq St Vs := by
  obtain ⟨N, r⟩ := schedule_large h q hi order ho
  exact r (fuel + N) (by omega) max P ((SAVast_le (by omega) max order S).ok hP)

theorem Sched.world {S : Spec} {P En Sq St Vs} (h : Checked S) (q : Equipped S) (w : Sched S P En Sq St Vs) (ha : Agree S P)
    (hn : NoInherited S P) : World S P En Sq St Vs :=
  ⟨h, q, ha, hn, w.node, fun t vs hv => (w.holds t vs hv).held, fun t vs hv => (w.holds t vs hv).all⟩

/-- With at most one visit for each type, and all inherited attributes of members in their nodesets, nothing can go wrong. -/
theorem Sched.single {S : Spec} {P En Sq St Vs} (h : Checked S) (w : Sched S P En Sq St Vs)
    (ho : ∀ t, One S t)
    (hin : Covers S) :
    Agree S P ∧ NoInherited S P := by
  have first : ∀ {t vs}, P.visits t = some vs → ∀ {k : Nat} {v : AVisit}, vs[k]? = some v → vs = [v] ∧ k = 0 := by
    intro t vs hv k v hk
    have := (w.holds t vs hv).one (ho t)
    match vs, k, hk, this with
    | [_], 0, hk, _ => cases hk; exact ⟨rfl, rfl⟩
    | [_], k + 1, hk, _ => simp at hk
    | _ :: _ :: _, _, _, hl => simp at hl
  constructor
  · intro s hs m hm vs ws hv hw
    have hmS := h.members s hs m hm
    refine ⟨?_, ?_, ?_⟩
    · have h1 := (w.holds _ _ hw).one (ho _)
      have h2 := w.member s hs m hm vs ws hv hw
      cases vs with
      | nil => rw [h2 rfl]; exact Nat.le_refl _
      | cons v vs => simp only [List.length_cons]; omega
    · intro k x hk b hb
      obtain ⟨y, y1, y2, rfl⟩ := ((w.holds _ _ hw).held k x hk).1 b hb
      have y1 := attrIn_node h hmS y1
      obtain ⟨a, ha, ai, an⟩ := hin s hs m hm y y1 y2
      obtain ⟨j, v, hj, hav⟩ := ((w.holds _ _ hv).all a (Or.inr ⟨s, hs, rfl, ha⟩)).1 ai
      obtain ⟨_, rfl⟩ := first hv hj
      exact ⟨0, v, Nat.zero_le _, hj, a.addr, hav, a, ha, y, y1, rfl, rfl, an⟩
    · intro k v hk a hb
      obtain ⟨x, x1, x2, rfl⟩ := ((w.holds _ _ hv).held k v hk).2 a hb
      have x1 := attrIn_set h hs x1
      obtain ⟨b, hb1, bn, _, bs⟩ := h.equivalent s hs m hm x x1 (Or.inr x2)
      obtain ⟨j, u, hj, hbu⟩ := ((w.holds _ _ hw).all b (Or.inl ⟨m, hmS, rfl, hb1⟩)).2 (bs.trans x2)
      obtain ⟨_, rfl⟩ := first hw hj
      exact ⟨0, u, Nat.zero_le _, hj, b.addr, hbu, x, x1, b, hb1, rfl, rfl, bn.symm⟩
  · intro n hn seqs hsq seq hseq a ha hai hev
    have nf := w.node n hn
    rw [nf.plan] at hsq
    cases hsq
    obtain ⟨evs, hevs, rfl⟩ := List.mem_map.1 hseq
    obtain ⟨ev, hev1, hev2⟩ := List.mem_map.1 hev
    obtain ⟨p, hp⟩ := nf.hasOwn a ha (Or.inl hai)
    cases ev with
    | visit => cases hev2
    | eval i =>
      obtain ⟨k, hk⟩ := List.mem_iff_getElem?.1 hevs
      have hlt : k < (Vs n).length := by rw [← nf.len]; exact (List.getElem?_eq_some_iff.1 hk).1
      obtain ⟨e1, rfl⟩ := first nf.own (List.getElem?_eq_getElem hlt)
      obtain ⟨r, _⟩ := nf.step 0 _ evs (List.getElem?_eq_getElem hlt) hk
      obtain ⟨h1, o, a', h2, _⟩ := runs_eval r hev1
      simp only [act, Act.eval.injEq] at hev2
      unfold At at h2 hp
      rw [h2] at hev2
      simp only [Option.getD_some] at hev2
      cases hev2
      have := at_inj nf.nodup h2 hp
      subst this
      obtain ⟨j, v, hj, hav⟩ := ((w.holds _ _ nf.own).all a (own_attrIn hn ha)).1 hai
      obtain ⟨e2, rfl⟩ := first nf.own hj
      rw [List.getElem?_eq_getElem hlt] at hj
      cases hj
      exact h1 (Or.inr ⟨a.addr, i, hav, by rw [nf.self]; exact h2, rfl⟩)

/-- What an inherited attribute depends on is inherited. -/
theorem topDown_dep {S : Spec} (h : Checked S) (q : Equipped S) (ht : TopDown S) {p : Production} {x y : Place}
    (hd : Dep S p x y) : ∀ a ∈ attributes S, ∀ b ∈ attributes S, a.addr = x.2 → b.addr = y.2 → b.inh = true → a.syn = false := by
  have inj : ∀ {a b : Attr}, a ∈ attributes S → b ∈ attributes S → a.addr = b.addr → a = b := fun ha hb => inj_of_nodup q.addrs ha hb
  have inN : ∀ {n a}, n ∈ S.nodes → a ∈ n.attrs → a ∈ attributes S := fun hn ha => attrIn_mem (own_attrIn hn ha)
  have inS : ∀ {s a}, s ∈ S.sets → a ∈ s.attrs → a ∈ attributes S := fun {s a} hs ha => attrIn_mem (t := s.addr) (Or.inr ⟨s, hs, rfl, ha⟩)
  have nos : ∀ {a}, a ∈ attributes S → a.inh = true → a.syn = false := by
    intro a ha hi
    cases hs : a.syn with
    | false => rfl
    | true => exact absurd ⟨hi, hs⟩ (q.kinds a ha)
  have res : ∀ {n r}, n ∈ S.nodes → Resolved S n r → r.attr ∈ attributes S := by
    intro n r hn hr
    unfold Resolved at hr
    split at hr
    · exact inN hn hr
    · obtain ⟨_, _, _, ⟨m, hm, _, h2⟩ | ⟨s, hs, _, h2⟩⟩ := hr
      · exact inN hm h2
      · exact inS hs h2
  induction hd with
  | direct hp hd =>
    intro a ha b hb hax hby hbi
    cases hd with
    | @eqn n e d he hdm hc =>
      have r1 := res hp (h.rules n hp e he).1
      have r2 := res hp (h.args n hp e he d hdm hc)
      have := inj ha r2 hax
      subst this
      have := inj hb r1 hby
      subst this
      exact ht n hp e he hbi d hdm
    | @down s m a' b' ha' hi hb' hn =>
      have := inj ha (inS hp.1 ha') hax
      subst this
      exact nos ha hi
    | @up s m a' b' ha' hi hb' hn =>
      have := inj hb (inS hp.1 ha') hby
      subst this
      exact absurd ⟨hbi, hi⟩ (q.kinds b hb)
  | @trans p x y z h1 h2 ih1 ih2 =>
    intro a ha b hb hax hby hbi
    obtain ⟨t, hh⟩ := (dep_has h h2).1
    obtain ⟨c, hc1, hc2, hc3⟩ := attrOf_in.1 (has_attr h (dep_in h2) hh)
    have := ih2 c (attrIn_mem hc1) b hb hc3 hby hbi
    refine ih1 a ha c (attrIn_mem hc1) hax hc3 ?_
    rcases hc2 with hc2 | hc2
    · exact hc2
    · rw [this] at hc2; cases hc2
  | induced _ _ _ _ _ ih => exact ih

theorem topDown_one {S : Spec} (h : Checked S) (q : Equipped S) (ht : TopDown S) : OneVisit S := by
  intro p o x hx y hy hs hi hd
  rw [topDown_dep h q ht hd x hx y hy rfl rfl hi] at hs
  cases hs

end Verif.Schedule
