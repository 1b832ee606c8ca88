import Verif.Lemmas.Partition
import Verif.Props.Graph

/-!
# Properties C33 and C34: partitions and visits
-/

namespace Verif.Props
open Verif.Graph Verif.Partition Verif.Spec.Graph Verif.Spec.Partition

/-- C33: if the attributes of an AST node have different names and do not depend on each other in a circle, partitioning
ends.  Each attribute gets the least number that is at least 2, odd exactly for synthesized attributes, and not below
the number of an attribute it depends on; nothing else gets a number. -/
theorem C33_partition (A : Attrs) (g : Graph) (tnode : Nat) (hd : Distinct A g tnode) (hc : ¬ Cyclic (Needs g tnode)) :
    ∃ (N : Nat) (T : Table), (∀ fuel, N ≤ fuel → partition_nodes A fuel g tnode = .ok T) ∧
      (∀ i, Own g tnode i →
        Least (synOf A g i) (fun q => ∃ d, Needs g tnode d i ∧ q = T (nameOf A g d)) (T (nameOf A g i))) ∧
      (∀ s, T s ≠ 0 → ∃ i, Own g tnode i ∧ s = nameOf A g i) := by
  obtain ⟨N, T, h1, v⟩ := partition_spec hd hc
  refine ⟨N, T, h1, fun i hi => (v.done i hi ?_).2, v.other⟩
  intro h0
  exact absurd ((v.queued i hi).1 h0) (by simp)

/-- C33: if they do depend on each other in a circle, partitioning never ends.  (The scheduler stops before, with an
error: `C33_closed`.) -/
theorem C33_cyclic (A : Attrs) (g : Graph) (tnode : Nat) (hd : Distinct A g tnode) (hc : Cyclic (Needs g tnode))
    (fuel : Nat) : partition_nodes A fuel g tnode = .diverge := partition_cyclic hd hc fuel

/-- C33: in a graph that was closed without an error, attributes do not depend on each other in a circle. -/
theorem C33_closed (g : Graph) (hb : BuiltGraph g) (added : List (Nat × Nat)) (fuel : Nat) (st : Close)
    (h : GRclose_transitivity fuel g added = .ok st) (he : st.err = none) (tnode : Nat) :
    ¬ Cyclic (Needs st.graph tnode) := by
  obtain ⟨w, ha⟩ := built_graph hb
  obtain ⟨st', N, h1, v, h2⟩ := close_spec w ha added
  have hmono : ∀ (f k : Nat) (s s' : Close), closeLoop f s = .ok s' → closeLoop (f + k) s = .ok s' := by
    intro f k
    induction f with
    | zero => intro s s' h; cases h
    | succ f ih =>
      intro s s' h
      rw [show f + 1 + k = (f + k) + 1 by omega]
      rw [closeLoop] at h ⊢
      obtain ⟨s1, e1, e2⟩ := Res.bind_eq_ok.1 h
      rw [e1, Res.bind_ok]
      revert e2
      split
      · exact id
      · exact ih _ _
      · exact id
  have hst : st = st' := by
    have a := hmono fuel N _ _ h
    have b := h1 (fuel + N) (by omega)
    unfold GRclose_transitivity at b
    rw [a] at b
    cases b
    rfl
  subst hst
  rintro ⟨i, hi⟩
  obtain ⟨k, hk, p, q⟩ := cycle_two (fun i (h : Needs st.graph tnode i i) => h.2.2.1 rfl) hi
  have sub : ∀ {a b}, Path (Needs st.graph tnode) a b → Path (Edge g) a b := fun h =>
    Path.mono (fun a b h => v.path (by rcases h.2.2.2 with h | h <;> exact ⟨_, h⟩)) h
  exact (h2 he).2 i k hk (sub p) (sub q)

/-- Three attributes of node type 7 and one of a child: an inherited one, a synthesized one that depends on it, and an
inherited one that depends on the synthesized one. -/
def graphP : Graph :=
  { nodes := [(7, 0), (7, 1), (7, 2), (8, 0)]
    edge := fun i j => if (i, j) = (0, 1) ∨ (i, j) = (1, 2) ∨ (i, j) = (3, 0) then some .normal else
      if (i, j) = (0, 2) then some .induced else none
    edges := [(0, 1, .normal), (1, 2, .normal), (3, 0, .normal), (0, 2, .induced)] }

/-- Names and kinds of the attributes. -/
def attrsP : Attrs := { name := fun a => [97 + UInt8.ofNat a], syn := fun a => a == 1 }

theorem graphP_own {i : Nat} : Own graphP 7 i ↔ i < 3 := by
  unfold Own graphP
  match i with
  | 0 | 1 | 2 => simp
  | 3 => simp
  | n + 4 => simp

theorem graphP_distinct : Distinct attrsP graphP 7 := by
  intro i j hi hj
  have : ∀ i < 3, ∀ j < 3, nameOf attrsP graphP i = nameOf attrsP graphP j → i = j := by decide
  exact this i (graphP_own.1 hi) j (graphP_own.1 hj)

theorem graphP_acyclic : ¬ Cyclic (Needs graphP 7) := by
  have key : ∀ {i j}, Path (Needs graphP 7) i j → i < j := by
    have one : ∀ {i j}, Needs graphP 7 i j → i < j := by
      rintro i j ⟨hi, hj, _, h⟩
      have : ∀ i < 3, ∀ j < 3, graphP.edge i j = some .normal ∨ graphP.edge i j = some .induced → i < j := by decide
      exact this i (graphP_own.1 hi) j (graphP_own.1 hj) h
    intro i j h
    induction h with
    | edge e => exact one e
    | step e _ ih => exact Nat.lt_trans (one e) ih
  rintro ⟨i, hi⟩
  exact Nat.lt_irrefl _ (key hi)

example : Distinct attrsP graphP 7 ∧ ¬ Cyclic (Needs graphP 7) ∧ Needs graphP 7 1 2 :=
  ⟨graphP_distinct, graphP_acyclic, graphP_own.2 (by decide), graphP_own.2 (by decide), by decide, Or.inl rfl⟩

example : (match partition_nodes attrsP 10 graphP 7 with
    | .ok T => [T [97], T [98], T [99], T [100]]
    | _ => []) = [2, 3, 4, 0] := by decide

/-- A graph with a circle. -/
def graphC : Graph := { nodes := [(7, 0), (7, 1)], edge := fun i j => if i ≠ j then some .normal else none, edges := [] }

example : Distinct attrsP graphC 7 ∧ Cyclic (Needs graphC 7) := by
  have own : ∀ {i : Nat}, Own graphC 7 i ↔ i < 2 := by
    intro i
    unfold Own graphC
    match i with
    | 0 | 1 => simp
    | n + 2 => simp
  refine ⟨?_, 0, .step (k := 1) ⟨own.2 (by decide), own.2 (by decide), by decide, Or.inl rfl⟩
    (.edge ⟨own.2 (by decide), own.2 (by decide), by decide, Or.inl rfl⟩)⟩
  intro i j hi hj
  have : ∀ i < 2, ∀ j < 2, nameOf attrsP graphC i = nameOf attrsP graphC j → i = j := by decide
  exact this i (own.1 hi) j (own.1 hj)

example : ∃ g, BuiltGraph g ∧ Edge g 0 1 ∧ ∃ st, GRclose_transitivity 3 g [] = .ok st ∧ st.err = none :=
  ⟨_, .edge graph3_built (i := 0) (j := 1) (t := .normal) (by decide) (by decide) rfl, ⟨.normal, rfl⟩, _, rfl, rfl⟩

/-- The visits hold each attribute once: an inherited one among the inputs, a synthesized one among the outputs. -/
def HeldOnce (syn : Bool) (i : Nat) (vs : List Visit) : Prop :=
  ∃ (k : Nat) (v : Visit), vs[k]? = some v ∧
    v.inputs.count i = (if syn then 0 else 1) ∧ v.outputs.count i = (if syn then 1 else 0) ∧
    ∀ (k' : Nat) (v' : Visit), vs[k']? = some v' → i ∈ v'.inputs ∨ i ∈ v'.outputs → k' = k

/-- `i` is in visit `k`. -/
def InVisit (vs : List Visit) (i k : Nat) : Prop := ∃ v, vs[k]? = some v ∧ (i ∈ v.inputs ∨ i ∈ v.outputs)

/-- What `collect_visits` returns, for numbers other than 1. -/
theorem collect_shape (A : Attrs) (g : Graph) (node : Nat) (T : Table) (h : ∀ i, Own g node i → T (nameOf A g i) ≠ 1) :
    ∃ os vs, collect_visits A g node T = .ok (vs, (os.filter fun i => T (nameOf A g i) == 0).length) ∧ os.Nodup ∧
      (∀ i, i ∈ os ↔ Own g node i) ∧
      (∀ (k : Nat) v, vs[k]? = some v → v = expected A g T os k) ∧
      (∀ k, k < vs.length ↔ ∃ i ∈ os, k ≤ visitOf A g T i) := by
  obtain ⟨vs, e, hv, hl⟩ := collectLoop_spec (A := A) (g := g) (t := node) (T := T) (List.range g.nodes.length) [] 0 []
    (fun i _ hi => h i hi) (by simp [expected]) (by simp)
  rw [List.nil_append] at hl
  refine ⟨_, vs, by rw [collect_visits, e, Nat.zero_add], List.nodup_range.sublist List.filter_sublist, ?_, ?_, hl⟩
  · intro i
    simp only [List.mem_filter, List.mem_range, decide_eq_true_eq, own_owner]
    exact ⟨fun h => h.2, fun h => ⟨own_lt h, h⟩⟩
  · intro k v hk
    have := hv k
    rw [hk] at this
    simpa using this

theorem inVisit_iff {A : Attrs} {g : Graph} {T : Table} {os : List Nat} {vs : List Visit}
    (hv : ∀ (k : Nat) v, vs[k]? = some v → v = expected A g T os k)
    (hl : ∀ k, k < vs.length ↔ ∃ i ∈ os, k ≤ visitOf A g T i) (i k : Nat) :
    InVisit vs i k ↔ i ∈ os ∧ k = visitOf A g T i := by
  constructor
  · rintro ⟨v, h1, h2⟩
    rw [hv k v h1] at h2
    simp only [expected, List.mem_filter, Bool.and_eq_true, beq_iff_eq] at h2
    rcases h2 with ⟨h3, _, h4⟩ | ⟨h3, _, h4⟩
    · exact ⟨h3, h4.symm⟩
    · exact ⟨h3, h4.symm⟩
  · rintro ⟨h1, rfl⟩
    have hlt := (hl (visitOf A g T i)).2 ⟨i, h1, Nat.le_refl _⟩
    refine ⟨vs[visitOf A g T i], List.getElem?_eq_getElem hlt, ?_⟩
    rw [hv _ _ (List.getElem?_eq_getElem hlt)]
    simp only [expected, List.mem_filter, Bool.and_eq_true, beq_iff_eq, and_true, h1, true_and]
    cases synOf A g i <;> simp

/-- C34: if every attribute has a number of at least 2, collecting the visits reports no error, each attribute is held
by exactly one visit (inherited ones as input, synthesized ones as output), no visit holds anything else, and there
are no visits after the last one that holds something. -/
theorem C34_once (A : Attrs) (g : Graph) (node : Nat) (T : Table) (h : ∀ i, Own g node i → 2 ≤ T (nameOf A g i)) :
    ∃ vs, collect_visits A g node T = .ok (vs, 0) ∧ (∀ i, Own g node i → HeldOnce (synOf A g i) i vs) ∧
      (∀ i k, InVisit vs i k → Own g node i ∧ k = T (nameOf A g i) / 2 - 1) ∧
      (∀ k, k < vs.length → ∃ i k', k ≤ k' ∧ InVisit vs i k') := by
  obtain ⟨os, vs, e, hn, hm, hv, hl⟩ := collect_shape A g node T (fun i hi => by have := h i hi; omega)
  have hi := inVisit_iff hv hl
  refine ⟨vs, ?_, ?_, fun i k hk => ?_, fun k hk => ?_⟩
  · have : (os.filter fun i => T (nameOf A g i) == 0) = [] := by
      rw [List.filter_eq_nil_iff]
      intro i hio
      have := h i ((hm i).1 hio)
      simp; omega
    rw [e, this]; rfl
  · intro i hio
    obtain ⟨v, h1, h2⟩ := (hi i _).2 ⟨(hm i).2 hio, rfl⟩
    refine ⟨_, v, h1, ?_, ?_, fun k' v' h3 h4 => ((hi i k').1 ⟨v', h3, h4⟩).2⟩
    · have hc : (os.filter fun j => !synOf A g j && visitOf A g T j == visitOf A g T i).count i = if synOf A g i then 0 else 1 := by
        cases hs : synOf A g i with
        | true =>
          have : ∀ (l : List Nat), i ∉ l → l.count i = 0 := fun l h => List.count_eq_zero.2 h
          exact this _ (by simp [List.mem_filter, hs])
        | false =>
          rw [List.count_filter (by simp [hs]), List.Nodup.count hn, if_pos ((hm i).2 hio)]
          rfl
      rw [hv _ _ h1]
      exact hc
    · have hc : (os.filter fun j => synOf A g j && visitOf A g T j == visitOf A g T i).count i = if synOf A g i then 1 else 0 := by
        cases hs : synOf A g i with
        | false =>
          have : ∀ (l : List Nat), i ∉ l → l.count i = 0 := fun l h => List.count_eq_zero.2 h
          exact this _ (by simp [List.mem_filter, hs])
        | true =>
          rw [List.count_filter (by simp [hs]), List.Nodup.count hn, if_pos ((hm i).2 hio)]
          rfl
      rw [hv _ _ h1]
      exact hc
  · obtain ⟨h1, h2⟩ := (hi i k).1 hk
    exact ⟨(hm i).1 h1, h2⟩
  · obtain ⟨i, h1, h2⟩ := (hl k).1 hk
    exact ⟨i, _, h2, (hi i _).2 ⟨h1, rfl⟩⟩

example : ∃ T : Table, ∀ i, Own graphP 7 i → 2 ≤ T (nameOf attrsP graphP i) := ⟨fun _ => 3, fun _ _ => by simp⟩

example : (match partition_nodes attrsP 10 graphP 7 with
    | .ok T => collect_visits attrsP graphP 7 T
    | _ => .diverge) = .ok ([⟨[0], [1]⟩, ⟨[2], []⟩], 0) := by decide

/-- C34: attributes without a number are counted as errors. -/
theorem C34_errors (A : Attrs) (g : Graph) (node : Nat) (T : Table) (h : ∀ i, Own g node i → T (nameOf A g i) ≠ 1) :
    ∃ vs n, collect_visits A g node T = .ok (vs, n) ∧ (n ≠ 0 ↔ ∃ i, Own g node i ∧ T (nameOf A g i) = 0) := by
  obtain ⟨os, vs, e, hn, hm, hv, hl⟩ := collect_shape A g node T h
  refine ⟨vs, _, e, ?_⟩
  rw [← Nat.pos_iff_ne_zero, List.length_pos_iff_exists_mem]
  simp only [List.mem_filter, beq_iff_eq, hm]

example : ∃ T : Table, (∀ i, Own graphP 7 i → T (nameOf attrsP graphP i) ≠ 1) ∧ T (nameOf attrsP graphP 0) = 0 :=
  ⟨fun s => if s = [97] then 0 else 2, fun i hi => by
    rw [graphP_own] at hi
    revert i
    decide, by decide⟩

/-- C34 with C33: an attribute's visit is not earlier than the visit of an attribute it depends on; an input that depends
on an output is in a later visit. -/
theorem C34_order (A : Attrs) (g : Graph) (node fuel : Nat) (T : Table) (hd : Distinct A g node)
    (hT : partition_nodes A fuel g node = .ok T) :
    ∃ vs, collect_visits A g node T = .ok (vs, 0) ∧ (∀ i, Own g node i → HeldOnce (synOf A g i) i vs) ∧
      ∀ i d k k', Needs g node d i → InVisit vs i k → InVisit vs d k' →
        k' ≤ k ∧ (synOf A g d = true → synOf A g i = false → k' < k) := by
  have hc : ¬ Cyclic (Needs g node) := fun hc => by rw [partition_cyclic hd hc] at hT; cases hT
  obtain ⟨N, T', h1, v⟩ := partition_spec hd hc
  have hTT : T' = T := by
    have key : ∀ (f k : Nat) q S r, partLoop A g f q S = .ok r → partLoop A g (f + k) q S = .ok r := by
      intro f k
      induction f with
      | zero => intro q S r h; cases h
      | succ f ih =>
        intro q S r h
        rw [show f + 1 + k = (f + k) + 1 by omega]
        rw [partLoop] at h ⊢
        obtain ⟨⟨x, q1⟩, e1, e2⟩ := Res.bind_eq_ok.1 h
        rw [e1, Res.bind_ok]
        cases x with
        | none => exact e2
        | some x =>
          obtain ⟨⟨q2, S2⟩, e3, e4⟩ := Res.bind_eq_ok.1 e2
          simp only [e3, Res.bind_ok]
          exact ih _ _ _ e4
    have h2 : partition_nodes A (fuel + N) g node = .ok T := by
      unfold partition_nodes at hT ⊢
      obtain ⟨q, e1, e2⟩ := Res.bind_eq_ok.1 hT
      obtain ⟨⟨q2, S⟩, e3, e4⟩ := Res.bind_eq_ok.1 e2
      rw [e1, Res.bind_ok, key _ N _ _ _ e3, Res.bind_ok]
      exact e4
    rw [h1 _ (by omega)] at h2
    cases h2
    rfl
  subst hTT
  have least : ∀ i, Own g node i →
      Least (synOf A g i) (fun q => ∃ d, Needs g node d i ∧ q = T' (nameOf A g d)) (T' (nameOf A g i)) := fun i hi =>
    (v.done i hi fun h0 => absurd ((v.queued i hi).1 h0) (by simp)).2
  obtain ⟨vs, e, h2, h3, _⟩ := C34_once A g node T' fun i hi => (least i hi).1.1
  refine ⟨vs, e, h2, fun i d k k' hn hk hk' => ?_⟩
  have e1 := (h3 i k hk).2
  have e2 := (h3 d k' hk').2
  obtain ⟨⟨l1, l2, l3⟩, _⟩ := least i hn.2.1
  obtain ⟨⟨m1, m2, _⟩, _⟩ := least d hn.1
  have l4 := l3 _ ⟨d, hn, rfl⟩
  refine ⟨by omega, fun s1 s2 => ?_⟩
  rw [s2] at l2
  rw [s1] at m2
  simp only [Bool.false_eq_true, iff_false, iff_true] at l2 m2
  omega

example : ∃ T, Distinct attrsP graphP 7 ∧ partition_nodes attrsP 10 graphP 7 = .ok T ∧ Needs graphP 7 1 2 :=
  ⟨_, graphP_distinct, rfl, graphP_own.2 (by decide), graphP_own.2 (by decide), by decide, Or.inl rfl⟩

end Verif.Props
