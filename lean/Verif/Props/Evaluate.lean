import Verif.Lemmas.Schedule
import Verif.Props.Induce

/-!
# C59: the visit sequences compute all attributes of all trees

If the scheduler accepts a specification, then executing the visit sequences on any tree of the grammar computes every
attribute of the tree once, after everything that its equation uses.
-/

namespace Verif.Props
open Verif.Induce Verif.Graph Verif.Schedule Verif.Visits Verif.Spec.Induce Verif.Spec.AttrTree Verif.Spec.Evaluate
open Verif.Evaluate

/-- C59, partial.  For a specification that passed the earlier checks, in which no equation uses an attribute twice or for
itself: if the scheduler makes a plan, then the plan evaluates every tree of the grammar, if the visits of the members of
nodesets fit those of the nodeset and no sequence evaluates an inherited attribute of its own node.

Missing: the scheduler does not check the last two conditions, and there are specifications for which they do not hold
(`C59_nodeset_false`, `C59_inherited_false`); `C59_oneVisit` and `C59_topDown` say when they do. -/
theorem C59_evaluates_partial (S : Spec) (h : SpecOk S) (q : Equipped S) (hf : Filled S)
    (order : List (Nat × List Graph) → List (Nat × List Graph)) (ho : ∀ l, (order l).Perm l) (fuel max : Nat) (P : Plan)
    (hP : SAVast fuel max order S = .ok (some P)) (ha : Agree S P) (hn : NoInherited S P) :
    ∀ T, Fits S T → Evaluates P T := by
  obtain ⟨En, Sq, St, Vs, w⟩ := schedule_spec h q hf order ho hP
  exact fun T hT => evaluates (w.world h.toChecked q ha hn) T hT

/-- C59: there is only one way to execute the visits of a tree, so what can be executed is what is executed. -/
theorem C59_determined (P : Plan) (T : Tree) (k r : Nat) (K K1 K2 : Values) (h1 : AllVisited P T k r K K1)
    (h2 : AllVisited P T k r K K2) : K1 = K2 := all_det h1 h2

/-- C59 without conditions on the plan: if in no production an inherited attribute of a node or child depends on a synthesized
attribute of the same node or child, and nodesets have the inherited attributes of their members, then the plan evaluates
every tree of the grammar. -/
theorem C59_oneVisit (S : Spec) (h : SpecOk S) (q : Equipped S) (hf : Filled S) (h1 : OneVisit S) (hc : Covers S)
    (order : List (Nat × List Graph) → List (Nat × List Graph)) (ho : ∀ l, (order l).Perm l) (fuel max : Nat) (P : Plan)
    (hP : SAVast fuel max order S = .ok (some P)) : ∀ T, Fits S T → Evaluates P T := by
  obtain ⟨En, Sq, St, Vs, w⟩ := schedule_spec h q hf order ho hP
  obtain ⟨ha, hn⟩ := w.single h.toChecked (fun t p o _ x y hx hy => h1 p o x (attrIn_mem hx) y (attrIn_mem hy)) hc
  exact fun T hT => evaluates (w.world h.toChecked q ha hn) T hT

/-- C59 for equations that compute inherited attributes from inherited attributes only. -/
theorem C59_topDown (S : Spec) (h : SpecOk S) (q : Equipped S) (hf : Filled S) (ht : TopDown S) (hc : Covers S)
    (order : List (Nat × List Graph) → List (Nat × List Graph)) (ho : ∀ l, (order l).Perm l) (fuel max : Nat) (P : Plan)
    (hP : SAVast fuel max order S = .ok (some P)) : ∀ T, Fits S T → Evaluates P T :=
  C59_oneVisit S h q hf (topDown_one h.toChecked q ht) hc order ho fuel max P hP

/-! ## Samples -/

/-- There is an equation for the place, as a check. -/
def hasEqn (n : INode) (x : Place) : Bool := n.eqs.any fun q => place n q.rule == x

theorem hasEqn_for {n : INode} {x : Place} (h : hasEqn n x = true) : ∃ q, For n x q := by
  obtain ⟨q, h1, h2⟩ := List.any_eq_true.1 h
  exact ⟨q, h1, by simpa using h2⟩

theorem equipped_of {S : Spec} (h1 : ((attributes S).map (·.addr)).Nodup)
    (h2 : ∀ a ∈ attributes S, ¬ (a.inh = true ∧ a.syn = true))
    (h3 : ∀ n ∈ S.nodes, ∀ a ∈ n.attrs, a.syn = true → hasEqn n (n.addr, a.addr) = true)
    (h4 : ∀ n ∈ S.nodes, ∀ c ∈ n.children, (∀ m ∈ S.nodes, m.addr = c.type → ∀ a ∈ m.attrs, a.inh = true →
      hasEqn n (c.addr, a.addr) = true) ∧
      ∀ s ∈ S.sets, s.addr = c.type → ∀ a ∈ s.attrs, a.inh = true → hasEqn n (c.addr, a.addr) = true) : Equipped S :=
  ⟨h1, h2, fun n hn a ha hs => hasEqn_for (h3 n hn a ha hs),
    fun n hn c hc => ⟨fun m hm e a ha hi => hasEqn_for ((h4 n hn c hc).1 m hm e a ha hi),
      fun s hs e a ha hi => hasEqn_for ((h4 n hn c hc).2 s hs e a ha hi)⟩⟩

/-- The visits and sequences of the types with these addresses. -/
def planOf (l : List Nat) : Res (Option Plan) → Option (List (Option (List AVisit) × Option (List (List Act))))
  | .ok (some P) => some (l.map fun k => (P.visits k, P.seqs k))
  | _ => none

theorem planOf_some {l : List Nat} {r : Res (Option Plan)} {x} (h : planOf l r = some x) :
    ∃ P, r = .ok (some P) ∧ (l.map fun k => (P.visits k, P.seqs k)) = x := by
  unfold planOf at h
  split at h
  · cases h; exact ⟨_, rfl, rfl⟩
  · cases h

theorem sampleGrammar_equipped : Equipped sampleGrammar := by apply equipped_of <;> decide

instance (s : NSet) (m : INode) (a b : Nat) : Decidable (Same s m a b) := by
  unfold Same
  infer_instance

/-- The plan for the grammar of C57 has two visits for each member of the nodeset, and meets the conditions of C59. -/
theorem sample_plan : ∃ P, SAVast 60 100 List.reverse sampleGrammar = .ok (some P) ∧ Agree sampleGrammar P ∧
    NoInherited sampleGrammar P ∧ P.visits 3 = some [⟨[30], [32]⟩, ⟨[31], [33]⟩] := by
  obtain ⟨P, hP, he⟩ := planOf_some (l := [1, 2, 3, 4]) (r := SAVast 60 100 List.reverse sampleGrammar) (x := [
    (some [⟨[10], [12, 13]⟩, ⟨[11], []⟩], some [[.eval (1, 12), .eval (1, 13)], []]),
    (some [⟨[20], [22]⟩, ⟨[21], [23]⟩], some [[.eval (2, 22)], [.eval (2, 23)]]),
    (some [⟨[30], [32]⟩, ⟨[31], [33]⟩], none),
    (some [⟨[], []⟩], some [[.eval (5, 30), .visit 5 0 [(2, some 0), (1, some 0)], .eval (5, 31),
      .visit 5 1 [(2, some 1), (1, some 1)]]])]) (by decide +kernel)
  simp only [List.map_cons, List.map_nil, List.cons.injEq, Prod.mk.injEq, and_true] at he
  obtain ⟨⟨a1, a2⟩, ⟨b1, b2⟩, ⟨c1, _⟩, ⟨d1, d2⟩⟩ := he
  refine ⟨P, hP, ?_, ?_, c1⟩
  · intro s hs m hm vs ws hv hw
    have : s = sampleSetX := by simpa [sampleGrammar] using hs
    subst this
    rw [show sampleSetX.addr = 3 from rfl, c1] at hv
    cases hv
    have hm : m = sampleNodeA ∨ m = sampleNodeB := by simpa [sampleSetX] using hm
    rcases hm with rfl | rfl
    · rw [show sampleNodeA.addr = 1 from rfl, a1] at hw
      cases hw
      refine ⟨by decide, fun k w hk b hb => ?_, fun k v hk a ha => ?_⟩
      · match k with
        | 0 => cases hk; cases (List.mem_singleton.1 hb); exact ⟨0, _, by decide, rfl, 30, by decide, by decide⟩
        | 1 => cases hk; cases (List.mem_singleton.1 hb); exact ⟨1, _, by decide, rfl, 31, by decide, by decide⟩
        | k + 2 => simp at hk
      · match k with
        | 0 => cases hk; cases (List.mem_singleton.1 ha); exact ⟨0, _, by decide, rfl, 12, by decide, by decide⟩
        | 1 => cases hk; cases (List.mem_singleton.1 ha); exact ⟨0, _, by decide, rfl, 13, by decide, by decide⟩
        | k + 2 => simp at hk
    · rw [show sampleNodeB.addr = 2 from rfl, b1] at hw
      cases hw
      refine ⟨by decide, fun k w hk b hb => ?_, fun k v hk a ha => ?_⟩
      · match k with
        | 0 => cases hk; cases (List.mem_singleton.1 hb); exact ⟨0, _, by decide, rfl, 30, by decide, by decide⟩
        | 1 => cases hk; cases (List.mem_singleton.1 hb); exact ⟨1, _, by decide, rfl, 31, by decide, by decide⟩
        | k + 2 => simp at hk
      · match k with
        | 0 => cases hk; cases (List.mem_singleton.1 ha); exact ⟨0, _, by decide, rfl, 22, by decide, by decide⟩
        | 1 => cases hk; cases (List.mem_singleton.1 ha); exact ⟨1, _, by decide, rfl, 23, by decide, by decide⟩
        | k + 2 => simp at hk
  · intro n hn seqs hsq
    have hn : n = sampleNodeA ∨ n = sampleNodeB ∨ n = sampleRoot := by simpa [sampleGrammar] using hn
    rcases hn with rfl | rfl | rfl
    · rw [show sampleNodeA.addr = 1 from rfl, a2] at hsq
      cases hsq
      decide
    · rw [show sampleNodeB.addr = 2 from rfl, b2] at hsq
      cases hsq
      decide
    · rw [show sampleRoot.addr = 4 from rfl, d2] at hsq
      cases hsq
      decide

example : SpecOk sampleGrammar ∧ Equipped sampleGrammar ∧ Filled sampleGrammar ∧
    ∃ P, SAVast 60 100 List.reverse sampleGrammar = .ok (some P) ∧ Agree sampleGrammar P ∧ NoInherited sampleGrammar P :=
  ⟨sampleGrammar_ok, sampleGrammar_equipped, by unfold Filled; decide,
    let ⟨P, h1, h2, h3, _⟩ := sample_plan
    ⟨P, h1, h2, h3⟩⟩

/-- The root with constants for the inherited attributes of the child. -/
def downRoot : INode := ⟨4, [⟨40, [114], false, true⟩], [⟨5, 3⟩], [⟨⟨some 5, sampleAttr 30 1⟩, [⟨some 5, sampleAttr 30 0⟩]⟩,
  ⟨⟨some 5, sampleAttr 30 0⟩, []⟩, ⟨⟨none, ⟨40, [114], false, true⟩⟩, [⟨some 5, sampleAttr 30 2⟩]⟩]⟩

/-- Inherited attributes from inherited ones, synthesized attributes from both. -/
def downGrammar : Spec := ⟨[sampleNodeA, sampleNodeB, downRoot], [sampleSetX]⟩

theorem downGrammar_ok : SpecOk downGrammar := by
  refine ⟨⟨?_, ?_, ?_, ?_, ?_, ?_, ?_, ?_, ?_, ?_, ?_⟩, ?_, ?_⟩ <;> decide

theorem downGrammar_equipped : Equipped downGrammar := by apply equipped_of <;> decide

/-- The hypotheses of `C59_topDown` and `C59_oneVisit` hold for a grammar with a nodeset. -/
example : SpecOk downGrammar ∧ Equipped downGrammar ∧ Filled downGrammar ∧ TopDown downGrammar ∧ OneVisit downGrammar ∧
    Covers downGrammar ∧ ∃ P, SAVast 60 100 List.reverse downGrammar = .ok (some P) := by
  have ht : TopDown downGrammar := by unfold TopDown; decide
  refine ⟨downGrammar_ok, downGrammar_equipped, by unfold Filled; decide, ht,
    topDown_one downGrammar_ok.toChecked downGrammar_equipped ht, by unfold Covers; decide, ?_⟩
  obtain ⟨P, hP, _⟩ := planOf_some (l := [4]) (r := SAVast 60 100 List.reverse downGrammar) (x := [
    (some [⟨[], [40]⟩], some [[.eval (5, 30), .eval (5, 31), .visit 5 0 [(2, some 0), (1, some 0)], .eval (4, 40)]])])
    (by decide +kernel)
  exact ⟨P, hP⟩

/-- A tree of the grammar of C57, whose visit is executed. -/
example : ∃ (P : Plan) (K : Values), AllVisited P (.node sampleRoot fun _ => .node sampleNodeB fun _ => .null) 0 1
    (given (.node sampleRoot fun _ => .node sampleNodeB fun _ => .null)) K ∧ K ([5], 23) := by
  obtain ⟨P, hP, he⟩ := planOf_some (l := [4]) (r := SAVast 60 100 List.reverse sampleGrammar) (x := [
    (some [⟨[], []⟩], some [[.eval (5, 30), .visit 5 0 [(2, some 0), (1, some 0)], .eval (5, 31),
      .visit 5 1 [(2, some 1), (1, some 1)]]])]) (by decide +kernel)
  obtain ⟨P', hP', ha, hn, _⟩ := sample_plan
  rw [hP] at hP'
  cases hP'
  obtain ⟨K, h1, h2⟩ := C59_evaluates_partial sampleGrammar sampleGrammar_ok sampleGrammar_equipped (by unfold Filled; decide)
    List.reverse (fun l => l.reverse_perm) 60 100 P hP ha hn (.node sampleRoot fun _ => .node sampleNodeB fun _ => .null) (by
      refine ⟨by decide, fun c hc => ?_⟩
      have : c = ⟨5, 3⟩ := by simpa [sampleRoot] using hc
      subst this
      exact ⟨Or.inr ⟨sampleSetX, by decide, by decide, by decide⟩, by decide, fun c hc => by cases hc⟩)
  simp only [List.map_cons, List.map_nil, List.cons.injEq, Prod.mk.injEq, and_true] at he
  refine ⟨P, K, ?_, h2 _ (.deeper (c := ⟨5, 3⟩) (v := ([], 23)) (by decide) (.root (x := sampleAttr 20 3) (by decide) (by decide)))⟩
  rw [show numVisits P (.node sampleRoot fun _ => .node sampleNodeB fun _ => .null) = 1 by
    simp [numVisits, show sampleRoot.addr = 4 from rfl, he.1]] at h1
  exact h1

/-! ## What is not true -/

theorem visited_inv {P : Plan} {n : INode} {kids : Nat → Tree} {k : Nat} {K K' : Values} (h : Visited P (.node n kids) k K K')
    {seqs : List (List Act)} (hs : P.seqs n.addr = some seqs) {seq : List Act} (hk : seqs[k]? = some seq) :
    Done P n kids seq K K' := by
  cases h with
  | node h1 h2 h3 =>
    rw [hs] at h1
    cases h1
    rw [hk] at h2
    cases h2
    exact h3

theorem done_visit {P : Plan} {n : INode} {kids : Nat → Tree} {c k : Nat} {alts : List (Nat × Option Nat)} {rest : List Act}
    {K K' : Values} (h : Done P n kids (.visit c k alts :: rest) K K') {m : INode} {ks : Nat → Tree} (hc : kids c = .node m ks)
    {j : Nat} (hl : alts.lookup m.addr = some (some j)) :
    ∃ B, Visited P (.node m ks) j (part c K) B ∧ Done P n kids rest (replace c B K) K' := by
  cases h with
  | missing e _ => rw [hc] at e; cases e
  | skip e l _ => rw [hc] at e; cases e; rw [hl] at l; cases l
  | visit e l v d => rw [hc] at e; cases e; rw [hl] at l; cases l; exact ⟨_, v, d⟩

theorem done_eval {P : Plan} {n : INode} {kids : Nat → Tree} {x : Place} {rest : List Act} {K K' : Values}
    (h : Done P n kids (.eval x :: rest) K K') : (∃ q, For n x q) ∧
    (∀ q, For n x q → ∀ d ∈ q.args, (d.attr.inh ∨ d.attr.syn) → ∀ u, Means n kids d u → K u) ∧
    Done P n kids rest (fun v => K v ∨ ∃ q, For n x q ∧ Means n kids q.rule v) K' := by
  cases h with
  | eval h1 h2 _ h4 => exact ⟨h1, h2, h4⟩

/-- An evaluation of an own attribute computes nothing else. -/
theorem means_own {n : INode} {kids : Nat → Tree} {x : Place} {q : Eqn} {v : Vertex} (hq : For n x q)
    (ho : ∀ q ∈ n.eqs, place n q.rule = x → q.rule.child = none) (hm : Means n kids q.rule v) : v = ([], x.2) := by
  obtain ⟨h1, h2⟩ := hq
  cases hm with
  | own _ => rw [← h2]; rfl
  | child hc _ _ _ => rw [ho q h1 h2] at hc; cases hc

/-- An evaluation of an attribute of a child computes only attributes of that name. -/
theorem means_child {n : INode} {kids : Nat → Tree} {x : Place} {q : Eqn} {v : Vertex} (hq : For n x q)
    {c : Nat} {a : Attr} (ho : ∀ q ∈ n.eqs, place n q.rule = x → q.rule = ⟨some c, a⟩) {m : INode} {ks : Nat → Tree}
    (hk : kids c = .node m ks) (hm : Means n kids q.rule v) : ∃ b ∈ m.attrs, b.name = a.name ∧ v = ([c], b.addr) := by
  have := ho q hq.1 hq.2
  rw [this] at hm
  cases hm with
  | own h => cases h
  | child hc h1 h2 h3 => cases hc; rw [hk] at h1; cases h1; exact ⟨_, h2, h3, rfl⟩

/-- An inherited attribute. -/
def inhAttr (k i : Nat) : Attr := ⟨k + i, [97 + UInt8.ofNat i], true, false⟩

/-- A synthesized attribute. -/
def synAttr (k i : Nat) : Attr := ⟨k + i, [97 + UInt8.ofNat i], false, true⟩

/-- A member of a nodeset: `d` is computed from `a`. -/
def lateA : INode := ⟨1, [inhAttr 10 0, inhAttr 10 1, synAttr 10 2, synAttr 10 3], [],
  [⟨⟨none, synAttr 10 2⟩, []⟩, ⟨⟨none, synAttr 10 3⟩, [⟨none, inhAttr 10 0⟩]⟩]⟩

/-- The other member: `d` is a constant, and there is an attribute `e`, computed from `b`. -/
def lateB : INode := ⟨2, [inhAttr 20 0, inhAttr 20 1, synAttr 20 2, synAttr 20 3, synAttr 20 4], [],
  [⟨⟨none, synAttr 20 2⟩, []⟩, ⟨⟨none, synAttr 20 3⟩, []⟩, ⟨⟨none, synAttr 20 4⟩, [⟨none, inhAttr 20 1⟩]⟩]⟩

/-- The nodeset. -/
def lateX : NSet := ⟨3, [inhAttr 30 0, inhAttr 30 1, synAttr 30 2, synAttr 30 3], [lateA, lateB]⟩

/-- The root: `a` of the child is computed from its `c`, and `b` from its `d`. -/
def lateRoot : INode := ⟨4, [], [⟨5, 3⟩], [⟨⟨some 5, inhAttr 30 0⟩, [⟨some 5, synAttr 30 2⟩]⟩,
  ⟨⟨some 5, inhAttr 30 1⟩, [⟨some 5, synAttr 30 3⟩]⟩]⟩

/-- The grammar.  The nodeset has three visits, the second member has two. -/
def lateGrammar : Spec := ⟨[lateA, lateB, lateRoot], [lateX]⟩

theorem lateGrammar_ok : SpecOk lateGrammar := by
  refine ⟨⟨?_, ?_, ?_, ?_, ?_, ?_, ?_, ?_, ?_, ?_, ?_⟩, ?_, ?_⟩ <;> decide

theorem lateGrammar_equipped : Equipped lateGrammar := by apply equipped_of <;> decide

/-- C59 is false without the first condition on the plan: for a specification that passes all checks, the sequences evaluate
an attribute of a member of a nodeset before the attribute it is computed from. -/
theorem C59_nodeset_false : ∃ S, SpecOk S ∧ Equipped S ∧ Filled S ∧ Covers S ∧ ∃ T, Fits S T ∧
    ∃ fuel max P, SAVast fuel max id S = .ok (some P) ∧ NoInherited S P ∧ ¬ Evaluates P T := by
  refine ⟨lateGrammar, lateGrammar_ok, lateGrammar_equipped, by unfold Filled; decide, by unfold Covers; decide,
    .node lateRoot fun _ => .node lateB fun _ => .null, ?_, 60, 100, ?_⟩
  · refine ⟨by decide, fun c hc => ?_⟩
    have : c = ⟨5, 3⟩ := by simpa [lateRoot] using hc
    subst this
    exact ⟨Or.inr ⟨lateX, by decide, by decide, by decide⟩, by decide, fun c hc => by cases hc⟩
  obtain ⟨P, hP, he⟩ := planOf_some (l := [1, 2, 4]) (r := SAVast 60 100 id lateGrammar) (x := [
    (some [⟨[], [12]⟩, ⟨[10], [13]⟩, ⟨[11], []⟩], some [[.eval (1, 12)], [.eval (1, 13)], []]),
    (some [⟨[], [22, 23]⟩, ⟨[20, 21], [24]⟩], some [[.eval (2, 22), .eval (2, 23)], [.eval (2, 24)]]),
    (some [⟨[], []⟩], some [[.visit 5 0 [(2, some 0), (1, some 0)], .eval (5, 30), .visit 5 1 [(2, some 1), (1, some 1)],
      .eval (5, 31), .visit 5 2 [(2, none), (1, some 2)]]])]) (by decide +kernel)
  simp only [List.map_cons, List.map_nil, List.cons.injEq, Prod.mk.injEq, and_true] at he
  obtain ⟨⟨a1, a2⟩, ⟨b1, b2⟩, ⟨c1, c2⟩⟩ := he
  refine ⟨P, hP, ?_, ?_⟩
  · intro n hn seqs hsq
    have hn : n = lateA ∨ n = lateB ∨ n = lateRoot := by simpa [lateGrammar] using hn
    rcases hn with rfl | rfl | rfl
    · rw [show lateA.addr = 1 from rfl, a2] at hsq
      cases hsq
      decide
    · rw [show lateB.addr = 2 from rfl, b2] at hsq
      cases hsq
      decide
    · rw [show lateRoot.addr = 4 from rfl, c2] at hsq
      cases hsq
      decide
  · rintro ⟨K, h, _⟩
    rw [show numVisits P (.node lateRoot fun _ => .node lateB fun _ => .null) = 1 by
      simp [numVisits, show lateRoot.addr = 4 from rfl, c1]] at h
    cases h with
    | more h1 _ =>
    have d1 := visited_inv h1 (by rw [show lateRoot.addr = 4 from rfl, c2]) rfl
    obtain ⟨B, v, d2⟩ := done_visit d1 rfl rfl
    have w1 := visited_inv v (by rw [show lateB.addr = 2 from rfl, b2]) rfl
    obtain ⟨_, _, w2⟩ := done_eval w1
    obtain ⟨_, _, w3⟩ := done_eval w2
    cases w3
    obtain ⟨_, _, d3⟩ := done_eval d2
    obtain ⟨B', v', _⟩ := done_visit d3 rfl rfl
    have w4 := visited_inv v' (by rw [show lateB.addr = 2 from rfl, b2]) rfl
    obtain ⟨_, hu, _⟩ := done_eval w4
    have := hu ⟨⟨none, synAttr 20 4⟩, [⟨none, inhAttr 20 1⟩]⟩ ⟨by decide, rfl⟩ ⟨none, inhAttr 20 1⟩ (by decide) (by decide) _
      (.own rfl)
    rcases this with this | ⟨q, hq, hm⟩
    · simp only [replace, if_true] at this
      rcases this with (this | ⟨q, hq, hm⟩) | ⟨q, hq, hm⟩
      · exact absurd this.1 (by simp)
      · have := means_own hq (by decide) hm
        exact absurd this (by decide)
      · have := means_own hq (by decide) hm
        exact absurd this (by decide)
    · obtain ⟨b, hb, hbn, he⟩ := means_child hq (c := 5) (a := inhAttr 30 0) (by decide) rfl hm
      have : ∀ b ∈ lateB.attrs, b.name = (inhAttr 30 0).name → b.addr ≠ 21 := by decide
      exact this b hb hbn (Prod.mk.inj he).2.symm

/-- A leaf with an inherited attribute and a constant. -/
def ownLeaf : INode := ⟨1, [inhAttr 10 0, synAttr 10 1], [], [⟨⟨none, synAttr 10 1⟩, []⟩]⟩

/-- `a` of the child is the own `a`; `c` is computed from `b` of the child. -/
def ownMid : INode := ⟨2, [inhAttr 20 0, synAttr 20 1, synAttr 20 2], [⟨5, 1⟩], [⟨⟨none, synAttr 20 1⟩, []⟩,
  ⟨⟨none, synAttr 20 2⟩, [⟨some 5, synAttr 10 1⟩]⟩, ⟨⟨some 5, inhAttr 10 0⟩, [⟨none, inhAttr 20 0⟩]⟩]⟩

/-- `a` of the child is computed from its `b`. -/
def ownRoot : INode := ⟨3, [], [⟨6, 2⟩], [⟨⟨some 6, inhAttr 20 0⟩, [⟨some 6, synAttr 20 1⟩]⟩]⟩

/-- The grammar.  Both synthesized attributes are outputs of the first visit of the node in the middle, `a` is an input of the
second. -/
def ownGrammar : Spec := ⟨[ownLeaf, ownMid, ownRoot], []⟩

theorem ownGrammar_ok : SpecOk ownGrammar := by
  refine ⟨⟨?_, ?_, ?_, ?_, ?_, ?_, ?_, ?_, ?_, ?_, ?_⟩, ?_, ?_⟩ <;> decide

theorem ownGrammar_equipped : Equipped ownGrammar := by apply equipped_of <;> decide

/-- C59 is false without the second condition on the plan: for a specification without nodesets that passes all checks, a
sequence evaluates an inherited attribute of its own node, for which the node has no equation. -/
theorem C59_inherited_false : ∃ S, SpecOk S ∧ Equipped S ∧ Filled S ∧ Covers S ∧ ∃ T, Fits S T ∧
    ∃ fuel max P, SAVast fuel max id S = .ok (some P) ∧ Agree S P ∧ ¬ Evaluates P T := by
  refine ⟨ownGrammar, ownGrammar_ok, ownGrammar_equipped, by unfold Filled; decide, by unfold Covers; decide,
    .node ownRoot fun _ => .node ownMid fun _ => .node ownLeaf fun _ => .null, ?_, 60, 100, ?_⟩
  · refine ⟨by decide, fun c hc => ?_⟩
    have : c = ⟨6, 2⟩ := by simpa [ownRoot] using hc
    subst this
    refine ⟨Or.inl rfl, by decide, fun c hc => ?_⟩
    have : c = ⟨5, 1⟩ := by simpa [ownMid] using hc
    subst this
    exact ⟨Or.inl rfl, by decide, fun c hc => by cases hc⟩
  obtain ⟨P, hP, he⟩ := planOf_some (l := [2, 3]) (r := SAVast 60 100 id ownGrammar) (x := [
    (some [⟨[], [21, 22]⟩, ⟨[20], []⟩], some [[.eval (2, 21), .eval (2, 20), .eval (5, 10), .visit 5 0 [(1, some 0)],
      .eval (2, 22)], []]),
    (some [⟨[], []⟩], some [[.visit 6 0 [(2, some 0)], .eval (6, 20), .visit 6 1 [(2, some 1)]]])]) (by decide +kernel)
  simp only [List.map_cons, List.map_nil, List.cons.injEq, Prod.mk.injEq, and_true] at he
  obtain ⟨⟨b1, b2⟩, ⟨c1, c2⟩⟩ := he
  refine ⟨P, hP, (fun s hs => by cases hs), ?_⟩
  rintro ⟨K, h, _⟩
  rw [show numVisits P (.node ownRoot fun _ => .node ownMid fun _ => .node ownLeaf fun _ => .null) = 1 by
    simp [numVisits, show ownRoot.addr = 3 from rfl, c1]] at h
  cases h with
  | more h1 _ =>
  have d1 := visited_inv h1 (by rw [show ownRoot.addr = 3 from rfl, c2]) rfl
  obtain ⟨B, v, _⟩ := done_visit d1 rfl rfl
  have w1 := visited_inv v (by rw [show ownMid.addr = 2 from rfl, b2]) rfl
  obtain ⟨_, _, w2⟩ := done_eval w1
  obtain ⟨⟨q, h1, h2⟩, _, _⟩ := done_eval w2
  have : ∀ q ∈ ownMid.eqs, place ownMid q.rule ≠ (2, 20) := by decide
  exact this q h1 h2

end Verif.Props
