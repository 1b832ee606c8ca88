import Verif.Lemmas.InduceSets
import Verif.Lemmas.AttrTree

/-!
# C57, C58: circular dependencies between attributes

C57: the scheduler's graphs, with the edges induced in one graph added to all others until nothing is new, have exactly the
dependencies of the grammar, and errors are reported exactly if some attribute depends on itself.  C58: if no error is
reported then no tree of the grammar, of any size, has an attribute that is needed to compute itself.
-/

namespace Verif.Props
open Verif.Induce Verif.Graph Verif.Spec.Graph Verif.Spec.Induce Verif.Spec.AttrTree

/-- C57.  For a specification that passed the earlier checks, in which no equation uses an attribute twice or for itself:
whatever the order in which the hash table is iterated, the rounds end without an assertion failing; an error is counted
exactly if the grammar is circular; and without errors the graph of each production has exactly its dependencies as edges. -/
theorem C57_circular_partial (S : Spec) (h : SpecOk S) (order : List (Nat × List Graph) → List (Nat × List Graph))
    (ho : ∀ l, (order l).Perm l) :
    ∃ st N, (∀ fuel, N ≤ fuel → SAVast_graphs fuel order S = .ok st) ∧ (st.errors ≠ 0 ↔ Circular S) ∧
      (st.errors = 0 → (∀ p, p.In S → ∃ g, GraphIn st.graphs p g) ∧
        ∀ p g, p.In S → GraphIn st.graphs p g → ∀ x y, EdgeP g x y ↔ Dep S p x y) := by
  obtain ⟨st, N, hr, hs, hi, hk⟩ := sav_spec h order ho
  have inv := hs.inv
  rw [hi] at inv
  have hL : ∀ p, p.In S → ∃ g, (p, g) ∈ pairs S st.graphs := fun p hp =>
    let ⟨g, hg⟩ := has_graph h hs.shape hk hp
    ⟨g, mem_pairs h hp hg⟩
  have hin : ∀ {p x y}, Dep S p x y → p.In S := fun hd => by
    induction hd with
    | direct hp => exact hp
    | trans _ _ ih => exact ih
    | induced _ _ hq => exact hq
  have none : st.errors = 0 → ∀ p g, (p, g) ∈ pairs S st.graphs → ∀ x y, EdgeP g x y ↔ Dep S p x y := by
    intro he p g hg x y
    have inv := inv
    rw [he] at inv
    exact ⟨(inv.good (p, g) (by simpa using hg)).1.sound x y, fun hd => dep_edge h inv hL hd g hg⟩
  refine ⟨st, N, hr, ⟨inv.circ, ?_⟩, ?_⟩
  · rintro ⟨p, x, hd⟩ he
    obtain ⟨g, hg⟩ := hL p (hin hd)
    have ok := (inv.good (p, g) (by simpa using hg)).1
    obtain ⟨i, j, hi', hj', e⟩ := (none he p g hg x x).2 hd
    have : i = j := at_inj ok.nodup hi' hj'
    subst this
    exact ok.irrefl i e
  · intro he
    exact ⟨fun p hp => has_graph h hs.shape hk hp, fun p g hp hg => none he p g (mem_pairs h hp hg)⟩

/-- C58.  If no error is counted, then in no tree of the grammar an attribute is needed to compute itself. -/
theorem C58_acyclic_partial (S : Spec) (h : SpecOk S) (order : List (Nat × List Graph) → List (Nat × List Graph))
    (ho : ∀ l, (order l).Perm l) :
    ∃ st N, (∀ fuel, N ≤ fuel → SAVast_graphs fuel order S = .ok st) ∧
      (st.errors = 0 → ∀ T, Fits S T → ¬ T.Circular) := by
  obtain ⟨st, N, hr, hc, _⟩ := C57_circular_partial S h order ho
  refine ⟨st, N, hr, fun he T hf ht => ?_⟩
  exact hc.2 ((AttrTree.tree_spec h.toChecked T hf).2 ht) he

/-! ## Samples -/

/-- The names of the attributes: `down`, `need`, `up`, `val`. -/
def sampleNames : Nat → Str.CStr
  | 0 => [100, 111, 119, 110]
  | 1 => [110, 101, 101, 100]
  | 2 => [117, 112]
  | _ => [118, 97, 108]

/-- Two inherited and two synthesized attributes. -/
def sampleAttrs (k : Nat) : List Attr :=
  [⟨k, sampleNames 0, true, false⟩, ⟨k + 1, sampleNames 1, true, false⟩, ⟨k + 2, sampleNames 2, false, true⟩,
    ⟨k + 3, sampleNames 3, false, true⟩]

/-- An attribute of a sample type. -/
def sampleAttr (k i : Nat) : Attr := ⟨k + i, sampleNames i, decide (i < 2), decide (2 ≤ i)⟩

/-- Node `A`: `up` is computed from `down`. -/
def sampleNodeA : INode := ⟨1, sampleAttrs 10, [], [⟨⟨none, sampleAttr 10 2⟩, [⟨none, sampleAttr 10 0⟩]⟩,
  ⟨⟨none, sampleAttr 10 3⟩, []⟩]⟩

/-- Node `B`: `val` is computed from `need`. -/
def sampleNodeB : INode := ⟨2, sampleAttrs 20, [], [⟨⟨none, sampleAttr 20 3⟩, [⟨none, sampleAttr 20 1⟩]⟩,
  ⟨⟨none, sampleAttr 20 2⟩, []⟩]⟩

/-- The nodeset. -/
def sampleSetX : NSet := ⟨3, sampleAttrs 30, [sampleNodeA, sampleNodeB]⟩

/-- The root: `c.need` is computed from `c.up`. -/
def sampleRoot : INode := ⟨4, [], [⟨5, 3⟩], [⟨⟨some 5, sampleAttr 30 1⟩, [⟨some 5, sampleAttr 30 2⟩]⟩,
  ⟨⟨some 5, sampleAttr 30 0⟩, []⟩]⟩

/-- The root with `c.down` computed from `c.val` as well. -/
def sampleRoot2 : INode := ⟨4, [], [⟨5, 3⟩], [⟨⟨some 5, sampleAttr 30 1⟩, [⟨some 5, sampleAttr 30 2⟩]⟩,
  ⟨⟨some 5, sampleAttr 30 0⟩, [⟨some 5, sampleAttr 30 3⟩]⟩]⟩

/-- The grammar with the first root. -/
def sampleGrammar : Spec := ⟨[sampleNodeA, sampleNodeB, sampleRoot], [sampleSetX]⟩

/-- The grammar with the second root. -/
def sampleGrammar2 : Spec := ⟨[sampleNodeA, sampleNodeB, sampleRoot2], [sampleSetX]⟩

instance (S : Spec) (n : INode) (r : Ref) : Decidable (Resolved S n r) := by
  unfold Resolved
  split <;> infer_instance

instance (r : Ref) : Decidable (RuleKind r) := by
  unfold RuleKind
  split <;> infer_instance

theorem sampleGrammar_ok : SpecOk sampleGrammar := by
  refine ⟨⟨?_, ?_, ?_, ?_, ?_, ?_, ?_, ?_, ?_, ?_, ?_⟩, ?_, ?_⟩ <;> decide

theorem sampleGrammar2_ok : SpecOk sampleGrammar2 := by
  refine ⟨⟨?_, ?_, ?_, ?_, ?_, ?_, ?_, ?_, ?_, ?_, ?_⟩, ?_, ?_⟩ <;> decide

/-- The hypotheses of C57 and C58 hold for a grammar with a nodeset that is accepted, and for one that is not. -/
example : SpecOk sampleGrammar ∧ SpecOk sampleGrammar2 ∧ (∀ l : List (Nat × List Graph), (l.reverse).Perm l) :=
  ⟨sampleGrammar_ok, sampleGrammar2_ok, fun l => l.reverse_perm⟩

/-- The number of errors of a run. -/
def errorsOf : Res Sav → Option Nat
  | .ok st => some st.errors
  | _ => none

example : errorsOf (SAVast_graphs 20 List.reverse sampleGrammar) = some 0 := by decide +kernel

example : Fits sampleGrammar (.node sampleRoot fun _ => .node sampleNodeA fun _ => .null) := by
  refine ⟨by decide, fun c hc => ?_⟩
  have : c = ⟨5, 3⟩ := by simpa [sampleRoot] using hc
  subst this
  exact ⟨Or.inr ⟨sampleSetX, by decide, by decide, by decide⟩, by decide, fun c hc => by cases hc⟩

/-! ## What is not true -/

/-- A node whose only attribute is computed from itself. -/
def selfNode : INode := ⟨1, [sampleAttr 10 2], [], [⟨⟨none, sampleAttr 10 2⟩, [⟨none, sampleAttr 10 2⟩]⟩]⟩

/-- The grammar with that node. -/
def selfGrammar : Spec := ⟨[selfNode], []⟩

theorem self_run : ∀ fuel, 4 ≤ fuel → ∀ order, (∀ l, (order l).Perm l) →
    ∃ st, SAVast_graphs fuel order selfGrammar = .ok st ∧ st.errors = 0 := by
  intro fuel hf order ho
  obtain ⟨k, rfl⟩ : ∃ k, fuel = k + 4 := ⟨fuel - 4, by omega⟩
  obtain ⟨g, hg⟩ : ∃ g, ∀ order, SAVast_graphs (k + 4) order selfGrammar =
    rounds (k + 4) selfGrammar (k + 4) ⟨order [(1, [g])], [((1, 12), (1, 12))], 0⟩ := ⟨_, fun _ => rfl⟩
  have := ho [(1, [g])]
  rw [List.perm_singleton] at this
  rw [hg, this]
  have e := hg id
  simp only [id] at e
  rw [← e]
  exact ⟨_, rfl, rfl⟩

/-- C57 does not hold if an equation may use the attribute it computes: an edge from a node of the graph to itself is not
seen as a cycle (`cocogen/frontend/attribute_scheduler/graph.c:222-260`). -/
theorem C57_self_false : ∃ S, Checked S ∧ Circular S ∧ ∀ fuel, 4 ≤ fuel → ∀ order, (∀ l, (order l).Perm l) →
    ∃ st, SAVast_graphs fuel order S = .ok st ∧ st.errors = 0 := by
  refine ⟨selfGrammar, by constructor <;> decide, ⟨.node selfNode, _, .direct (by unfold Production.In; decide)
    (.eqn (n := selfNode) (e := ⟨⟨none, sampleAttr 10 2⟩, [⟨none, sampleAttr 10 2⟩]⟩)
      (d := ⟨none, sampleAttr 10 2⟩) (by decide) (by decide) (by decide))⟩, self_run⟩

/-- Nor does C58: the tree that is such a node has an attribute that is needed to compute itself. -/
theorem C58_self_false : ∃ S, Checked S ∧ (∃ T, Fits S T ∧ T.Circular) ∧ ∀ fuel, 4 ≤ fuel → ∀ order,
    (∀ l, (order l).Perm l) → ∃ st, SAVast_graphs fuel order S = .ok st ∧ st.errors = 0 := by
  refine ⟨selfGrammar, by constructor <;> decide, ⟨.node selfNode fun _ => .null, ⟨by decide, fun c hc => by cases hc⟩,
    ([], 12), .single (.here (e := ⟨⟨none, sampleAttr 10 2⟩, [⟨none, sampleAttr 10 2⟩]⟩)
      (d := ⟨none, sampleAttr 10 2⟩) (by decide) (by decide) (by decide) (.own rfl) (.own rfl))⟩, self_run⟩

/-- A node with an equation that uses an attribute twice. -/
def twiceNode : INode := ⟨1, [sampleAttr 10 0, sampleAttr 10 2], [],
    [⟨⟨none, sampleAttr 10 2⟩, [⟨none, sampleAttr 10 0⟩, ⟨none, sampleAttr 10 0⟩]⟩]⟩

/-- The grammar with that node. -/
def twiceGrammar : Spec := ⟨[twiceNode], []⟩

/-- C57 does not hold if an equation may use an attribute twice: an assertion fails
(`cocogen/frontend/attribute_scheduler/graph.c:207`). -/
theorem C57_repeated_false : ∃ S, Checked S ∧ ¬ Circular S ∧ ∀ fuel order,
    SAVast_graphs fuel order S = .abort "assert edge is new" := by
  refine ⟨twiceGrammar, by constructor <;> decide, ?_, fun fuel order => rfl⟩
  rintro ⟨p, x, hd⟩
  have : ∀ {p x y}, Dep twiceGrammar p x y → x.2 = 10 ∧ y.2 = 12 := by
    intro p x y hd
    induction hd with
    | direct hp hd =>
      cases hd with
      | @eqn n e d he hd' hc =>
        have hn : n = twiceNode := by simpa [Production.In, twiceGrammar] using hp
        subst hn
        have hee : e = ⟨⟨none, sampleAttr 10 2⟩, [⟨none, sampleAttr 10 0⟩, ⟨none, sampleAttr 10 0⟩]⟩ := by
          simpa [twiceNode] using he
        subst hee
        have hdd : d = ⟨none, sampleAttr 10 0⟩ := by simpa using hd'
        subst hdd
        decide
      | down => exact absurd hp.1 (by simp [twiceGrammar])
      | up => exact absurd hp.1 (by simp [twiceGrammar])
    | trans _ _ h1 h2 => omega
    | induced _ _ _ _ _ ih => exact ih
  have := this hd
  omega

/-! ## The converse of C58 -/

/-- The order in which the attributes of the node at `c` can be computed. -/
def rankOf (B : Bool) (a : Nat) : Nat :=
  match B with
  | false => [1, 3, 2, 0].getD (a % 10) 0
  | true => [3, 1, 0, 2].getD (a % 10) 0

theorem rank_acyclic {T : Tree} (f : Vertex → Nat) (h : ∀ u v, Uses T u v → f u < f v) : ¬ T.Circular := by
  rintro ⟨v, t⟩
  have : ∀ {u w}, Relation.TransGen (Uses T) u w → f u < f w := by
    intro u w t
    induction t with
    | single e => exact h _ _ e
    | tail _ e ih => exact Nat.lt_trans ih (h _ _ e)
  exact Nat.lt_irrefl _ (this t)

/-- An edge in a tree that is one node without children. -/
theorem leaf_uses {n : INode} {kids u v} (hc : n.children = []) (hu : Uses (.node n kids) u v) :
    ∃ e ∈ n.eqs, ∃ d ∈ e.args, Means n kids d u ∧ Means n kids e.rule v := by
  generalize hT : Tree.node n kids = T at hu
  cases hu with
  | here he hd _ h1 h2 => cases hT; exact ⟨_, he, _, hd, h1, h2⟩
  | deeper hc' => cases hT; rw [hc] at hc'; cases hc'

theorem leafA {kids u v} (hu : Uses (.node sampleNodeA kids) u v) : u = ([], 10) ∧ v = ([], 12) := by
  obtain ⟨e, he, d, hd, h1, h2⟩ := leaf_uses rfl hu
  simp only [sampleNodeA, List.mem_cons, List.not_mem_nil, or_false] at he
  rcases he with rfl | rfl
  · simp only [List.mem_cons, List.not_mem_nil, or_false] at hd
    subst hd
    cases h1 with
    | own => cases h2 with
      | own => exact ⟨rfl, rfl⟩
      | child h => cases h
    | child h => cases h
  · cases hd

theorem leafB {kids u v} (hu : Uses (.node sampleNodeB kids) u v) : u = ([], 21) ∧ v = ([], 23) := by
  obtain ⟨e, he, d, hd, h1, h2⟩ := leaf_uses rfl hu
  simp only [sampleNodeB, List.mem_cons, List.not_mem_nil, or_false] at he
  rcases he with rfl | rfl
  · simp only [List.mem_cons, List.not_mem_nil, or_false] at hd
    subst hd
    cases h1 with
    | own => cases h2 with
      | own => exact ⟨rfl, rfl⟩
      | child h => cases h
    | child h => cases h
  · cases hd

theorem rootUses {kids u v} (hu : Uses (.node sampleRoot2 kids) u v) :
    (∃ m k, kids 5 = .node m k ∧ ∃ a ∈ m.attrs, ∃ b ∈ m.attrs, u = ([5], a.addr) ∧ v = ([5], b.addr) ∧
      (a.name = sampleNames 2 ∧ b.name = sampleNames 1 ∨ a.name = sampleNames 3 ∧ b.name = sampleNames 0)) ∨
    (∃ u' v', Uses (kids 5) u' v' ∧ u = (5 :: u'.1, u'.2) ∧ v = (5 :: v'.1, v'.2)) := by
  generalize hT : Tree.node sampleRoot2 kids = T at hu
  cases hu with
  | @here n kids e d u v he hd _ h1 h2 =>
    cases hT
    left
    simp only [sampleRoot2, List.mem_cons, List.not_mem_nil, or_false] at he
    rcases he with rfl | rfl
    all_goals
      simp only [List.mem_cons, List.not_mem_nil, or_false] at hd
      subst hd
      cases h1 with
      | own h => cases h
      | child e1 k1 b1 n1 =>
        cases h2 with
        | own h => cases h
        | child e2 k2 b2 n2 =>
          cases e1
          cases e2
          rw [k1] at k2
          cases k2
          first
            | exact ⟨_, _, k1, _, b1, _, b2, rfl, rfl, Or.inl ⟨n1, n2⟩⟩
            | exact ⟨_, _, k1, _, b1, _, b2, rfl, rfl, Or.inr ⟨n1, n2⟩⟩
  | @deeper n kids c u v hc hu =>
    cases hT
    right
    have : c = ⟨5, 3⟩ := by simpa [sampleRoot2] using hc
    subst this
    exact ⟨u, v, hu, rfl, rfl⟩

/-- The converse of C58 does not hold: a grammar may be rejected though no tree is circular.  `c.need` is computed from
`c.up` and `c.down` from `c.val`.  A node `A` computes `up` from `down`, a node `B` computes `val` from `need`; no node does
both. -/
theorem C58_converse_false : ∃ S, SpecOk S ∧ (∀ T, Fits S T → ¬ T.Circular) ∧
    ∀ order, (∀ l, (order l).Perm l) → ∃ st N, (∀ fuel, N ≤ fuel → SAVast_graphs fuel order S = .ok st) ∧
      st.errors ≠ 0 := by
  refine ⟨sampleGrammar2, sampleGrammar2_ok, ?_, ?_⟩
  · have hA : ∀ a ∈ sampleNodeA.attrs, ∀ i < 4, a.name = sampleNames i → a.addr = 10 + i := by decide
    have hB : ∀ a ∈ sampleNodeB.attrs, ∀ i < 4, a.name = sampleNames i → a.addr = 20 + i := by decide
    intro T hf
    cases T with
    | null => exact rank_acyclic (fun _ => 0) (fun u v hu => by cases hu)
    | node n kids =>
      rw [Fits] at hf
      obtain ⟨hn, hk⟩ := hf
      simp only [sampleGrammar2, List.mem_cons, List.not_mem_nil, or_false] at hn
      rcases hn with rfl | rfl | rfl
      · refine rank_acyclic (fun u => rankOf false u.2) fun u v hu => ?_
        obtain ⟨rfl, rfl⟩ := leafA hu
        decide
      · refine rank_acyclic (fun u => rankOf true u.2) fun u v hu => ?_
        obtain ⟨rfl, rfl⟩ := leafB hu
        decide
      · obtain ⟨ht, _⟩ := hk ⟨5, 3⟩ (by decide)
        cases hkid : kids 5 with
        | null =>
          refine rank_acyclic (fun _ => 0) fun u v hu => ?_
          rcases rootUses hu with ⟨m, k, e, _⟩ | ⟨u', v', hu', _⟩
          · rw [hkid] at e; cases e
          · rw [hkid] at hu'; cases hu'
        | node m k =>
          simp only [hkid] at ht
          have hm : m = sampleNodeA ∨ m = sampleNodeB := by
            rcases ht with e | ⟨s, hs, -, hms⟩
            · have := (hk ⟨5, 3⟩ (by decide)).2
              simp only [hkid] at this
              rw [Fits] at this
              have hn := this.1
              simp only [sampleGrammar2, List.mem_cons, List.not_mem_nil, or_false] at hn
              rcases hn with rfl | rfl | rfl
              · exact Or.inl rfl
              · exact Or.inr rfl
              · cases e
            · simp only [sampleGrammar2, List.mem_cons, List.not_mem_nil, or_false] at hs
              subst hs
              simpa [sampleSetX] using hms
          rcases hm with rfl | rfl
          · refine rank_acyclic (fun u => rankOf false u.2) fun u v hu => ?_
            rcases rootUses hu with ⟨m, k', e, a, ha, b, hb, rfl, rfl, hab⟩ | ⟨u', v', hu', rfl, rfl⟩
            · rw [hkid] at e
              cases e
              rcases hab with ⟨h1, h2⟩ | ⟨h1, h2⟩
              · rw [hA a ha _ (by decide) h1, hA b hb _ (by decide) h2]; decide
              · rw [hA a ha _ (by decide) h1, hA b hb _ (by decide) h2]; decide
            · rw [hkid] at hu'
              obtain ⟨rfl, rfl⟩ := leafA hu'
              decide
          · refine rank_acyclic (fun u => rankOf true u.2) fun u v hu => ?_
            rcases rootUses hu with ⟨m, k', e, a, ha, b, hb, rfl, rfl, hab⟩ | ⟨u', v', hu', rfl, rfl⟩
            · rw [hkid] at e
              cases e
              rcases hab with ⟨h1, h2⟩ | ⟨h1, h2⟩
              · rw [hB a ha _ (by decide) h1, hB b hb _ (by decide) h2]; decide
              · rw [hB a ha _ (by decide) h1, hB b hb _ (by decide) h2]; decide
            · rw [hkid] at hu'
              obtain ⟨rfl, rfl⟩ := leafB hu'
              decide
  · intro order ho
    obtain ⟨st, N, hr, hc, _⟩ := C57_circular_partial _ sampleGrammar2_ok order ho
    refine ⟨st, N, hr, hc.2 ?_⟩
    have hR : sampleRoot2 ∈ sampleGrammar2.nodes := by decide
    have hX : sampleSetX ∈ sampleGrammar2.sets := by decide
    have iX : ∀ i < 4, AttrTree.AttrIn sampleGrammar2 3 (sampleAttr 30 i) := fun i hi =>
      Or.inr ⟨sampleSetX, hX, rfl, by revert i; decide⟩
    have eq : ∀ (n : INode) (e : Eqn) (d : Ref), n ∈ sampleGrammar2.nodes → e ∈ n.eqs → d ∈ e.args →
        (d.attr.inh = true ∨ d.attr.syn = true) → Dep sampleGrammar2 (.node n) (place n d) (place n e.rule) :=
      fun n e d hn he hd hc => .direct hn (.eqn he hd hc)
    have dA := eq sampleNodeA ⟨⟨none, sampleAttr 10 2⟩, [⟨none, sampleAttr 10 0⟩]⟩ ⟨none, sampleAttr 10 0⟩ (by decide)
      (by decide) (by decide) (by decide)
    have dB := eq sampleNodeB ⟨⟨none, sampleAttr 20 3⟩, [⟨none, sampleAttr 20 1⟩]⟩ ⟨none, sampleAttr 20 1⟩ (by decide)
      (by decide) (by decide) (by decide)
    have r1 := eq sampleRoot2 ⟨⟨some 5, sampleAttr 30 1⟩, [⟨some 5, sampleAttr 30 2⟩]⟩ ⟨some 5, sampleAttr 30 2⟩ (by decide)
      (by decide) (by decide) (by decide)
    have r2 := eq sampleRoot2 ⟨⟨some 5, sampleAttr 30 0⟩, [⟨some 5, sampleAttr 30 3⟩]⟩ ⟨some 5, sampleAttr 30 3⟩ (by decide)
      (by decide) (by decide) (by decide)
    have cA := AttrTree.lift sampleGrammar2_ok.toChecked hR (ch := ⟨5, 3⟩) (by decide) (m := sampleNodeA) (by decide)
      (k := fun _ => .null) (Or.inr ⟨sampleSetX, hX, rfl, by decide⟩) (a1 := sampleAttr 30 0) (a2 := sampleAttr 30 2)
      (b1 := sampleAttr 10 0) (b2 := sampleAttr 10 2) (iX 0 (by decide)) (iX 2 (by decide)) (by decide) (by decide)
      (by decide) (by decide) (by decide) (by decide) (by decide) dA
    have cB := AttrTree.lift sampleGrammar2_ok.toChecked hR (ch := ⟨5, 3⟩) (by decide) (m := sampleNodeB) (by decide)
      (k := fun _ => .null) (Or.inr ⟨sampleSetX, hX, rfl, by decide⟩) (a1 := sampleAttr 30 1) (a2 := sampleAttr 30 3)
      (b1 := sampleAttr 20 1) (b2 := sampleAttr 20 3) (iX 1 (by decide)) (iX 3 (by decide)) (by decide) (by decide)
      (by decide) (by decide) (by decide) (by decide) (by decide) dB
    exact ⟨_, _, cA.trans (r1.trans (cB.trans r2))⟩

end Verif.Props
