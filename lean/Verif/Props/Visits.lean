import Verif.Lemmas.VisitsComplete
import Verif.Model.Partition

/-!
# Property C35: visit sequences
-/

namespace Verif.Props
open Verif.Graph Verif.Visits Verif.Spec.Visits Verif.Lemmas.Visits

/-- C35, partial: if sequences are generated for the visits of a node, then, executed in order, each evaluation comes
when all attributes it depends on are known, only children are visited, each visit of a child comes when its inputs are known and the earlier visits
of that child are done, nothing is evaluated or visited twice, the outputs of each visit are known when it ends, and all
visits of all children are done when the last one ends.

Missing: an attribute that is evaluated need not have an equation in the node (`C35_first` says when it has,
`C35_inherited_false` that it may not); a visit of a nodeset need not compute its outputs for each member
(`C35_nodeset_false`).  When a sequence is generated: `C35_complete`, `C35_dummy_false`. -/
theorem C35_order_partial (e : Env) (hn : e.g.nodes.Nodup) (hcl : Owned e)
    (hne : ∀ t, e.members t = some [] → e.visits t = none)
    (max : Nat) (seqs : List (List Ev)) (h : generate_visits e max = .ok seqs) :
    ∃ vs U, e.visits e.self = some vs ∧ Plays e (fun _ => False) vs seqs U ∧
      (vs ≠ [] → ∀ c, c ∈ e.children →
        ∃ ws, e.visits (e.typeOf c) = some ws ∧ ∀ k, k < ws.length → U (.visit c k)) := by
  unfold generate_visits at h
  split at h
  · cases h
  rename_i vs hv
  obtain ⟨U, h1, h2⟩ := from_spec hn hcl hne h
  have : K (fun _ => false) = fun _ => False := by funext x; simp [K]
  rw [this] at h1
  exact ⟨vs, U, hv, h1, h2⟩

theorem runs_eval {e : Env} {S T : Known} {seq : List Ev} (h : Runs e S seq T) {i : Nat} (hi : Ev.eval i ∈ seq) :
    ¬ S (.node i) ∧ ∃ o a, At e o a i ∧ (o = e.self ∨ e.syn a = false) := by
  induction h with
  | nil => cases hi
  | cons h1 _ ih =>
    rcases List.mem_cons.1 hi with hi | hi
    · subst hi
      cases h1 with
      | eval a b _ d => exact ⟨d, _, _, a, b⟩
    · exact ⟨fun h => (ih hi).1 (step_mono h1 _ h), (ih hi).2⟩

theorem plays_eval {e : Env} {S U : Known} {vs : List AVisit} {seqs : List (List Ev)} (h : Plays e S vs seqs U)
    {i : Nat} {seq : List Ev} (hs : seq ∈ seqs) (hi : Ev.eval i ∈ seq) :
    ¬ S (.node i) ∧ ∃ o a, At e o a i ∧ (o = e.self ∨ e.syn a = false) := by
  induction h with
  | nil => cases hs
  | cons h1 _ _ ih =>
    rcases List.mem_cons.1 hs with hs | hs
    · subst hs
      exact ⟨fun h => (runs_eval h1 hi).1 (Or.inl h), (runs_eval h1 hi).2⟩
    · exact ⟨fun h => (ih hs).1 (runs_mono h1 _ (Or.inl h)), (ih hs).2⟩

/-- C35: if all inherited attributes of the node come in with its first visit — in particular if it has one visit only —
each attribute that is evaluated has an equation in the node. -/
theorem C35_first (e : Env) (hn : e.g.nodes.Nodup) (hcl : Owned e)
    (hne : ∀ t, e.members t = some [] → e.visits t = none)
    (v : AVisit) (vs : List AVisit) (hv : e.visits e.self = some (v :: vs))
    (hin : ∀ a p, At e e.self a p → e.syn a = false → a ∈ v.inputs)
    (max : Nat) (seqs : List (List Ev)) (h : generate_visits e max = .ok seqs) (seq : List Ev) (hs : seq ∈ seqs)
    (i : Nat) (hi : Ev.eval i ∈ seq) : HasEquation e i := by
  obtain ⟨vs', U, h1, h2, _⟩ := C35_order_partial e hn hcl hne max seqs h
  rw [hv] at h1
  cases h1
  cases h2 with
  | cons g1 _ g3 =>
    have key : ¬ withInputs e v (fun _ => False) (.node i) ∧ ∃ o a, At e o a i ∧ (o = e.self ∨ e.syn a = false) := by
      rcases List.mem_cons.1 hs with hs | hs
      · subst hs; exact runs_eval g1 hi
      · obtain ⟨k1, k2⟩ := plays_eval g3 hs hi
        exact ⟨fun h => k1 (runs_mono g1 _ h), k2⟩
    obtain ⟨k1, o, a, k2, k3⟩ := key
    refine ⟨o, a, k2, ?_⟩
    by_cases ho : o = e.self
    · left
      refine ⟨ho, ?_⟩
      cases ha : e.syn a with
      | true => rfl
      | false =>
        subst ho
        exact absurd (Or.inr ⟨a, i, hin a i k2 ha, k2, rfl⟩) k1
    · exact Or.inr ⟨ho, k3.resolve_left ho⟩

/-- A node (10) with a child (20, of type 30).  Attributes of the node: 0 inherited, 1 synthesized, of the child:
2 inherited, 3 synthesized.  The child's inherited attribute is computed from the node's, and the node's synthesized
attribute from the child's. -/
def envV : Env :=
  { g := { nodes := [(10, 0), (10, 1), (20, 2), (20, 3)]
           edge := fun i j => if (i, j) = (0, 2) ∨ (i, j) = (3, 1) then some .normal else
             if (i, j) = (2, 3) ∨ (i, j) = (0, 3) ∨ (i, j) = (2, 1) ∨ (i, j) = (0, 1) then some .induced else none
           edges := [] }
    self := 10
    children := [20]
    typeOf := fun n => if n = 20 then 30 else n
    syn := fun a => a == 1 || a == 3
    members := fun _ => none
    visits := fun t => if t = 10 then some [⟨[0], [1]⟩] else if t = 30 then some [⟨[2], [3]⟩] else none }

/-- The sequence of the sample: the child's input, the visit, the output. -/
theorem envV_seq : generate_visits envV 10 = .ok [[.eval 2, .visit 20 0 [(30, some 0)], .eval 1]] := by decide

theorem envV_at {o a p : Nat} (h : At envV o a p) :
    (o, a, p) = (10, 0, 0) ∨ (o, a, p) = (10, 1, 1) ∨ (o, a, p) = (20, 2, 2) ∨ (o, a, p) = (20, 3, 3) := by
  match p, h with
  | 0, h => cases h; simp
  | 1, h => cases h; simp
  | 2, h => cases h; simp
  | 3, h => cases h; simp
  | n + 4, h => simp [At, envV] at h

/-- The hypotheses of `C35_order_partial` hold for the sample. -/
example : envV.g.nodes.Nodup ∧ Owned envV ∧ (∀ t, envV.members t = some [] → envV.visits t = none) ∧
    (generate_visits envV 10).isOk = true :=
  ⟨by decide, fun o a p h ho => (by
    rcases envV_at h with h | h | h | h <;> cases h <;> first | exact absurd rfl ho | decide), fun _ h => (by cases h), by decide⟩

/-- So do the hypotheses of `C35_first`. -/
example : envV.visits envV.self = some (⟨[0], [1]⟩ :: []) ∧
    (∀ a p, At envV envV.self a p → envV.syn a = false → a ∈ [0]) ∧
    Ev.eval 2 ∈ [Ev.eval 2, .visit 20 0 [(30, some 0)], .eval 1] := by
  refine ⟨rfl, fun a p h hs => ?_, by simp⟩
  match p, h with
  | 0, h => cases h; simp
  | 1, h => cases h; simp [envV] at hs
  | 2, h => simp [At, envV] at h
  | 3, h => simp [At, envV] at h
  | n + 4, h => simp [At, envV] at h

/-- C35: if the tables are complete and the evaluations and visits can be ordered, the sequences are generated, given
enough iterations. -/
theorem C35_complete (e : Env) (hc : Complete e) (ho : Ordered e) :
    ∃ (N : Nat) (seqs : List (List Ev)), ∀ max, N ≤ max → generate_visits e max = .ok seqs := by
  obtain ⟨vs, h1, _⟩ := hc.self
  obtain ⟨N, seqs, h2⟩ := from_ends hc ho h1 vs (fun _ => false) (fun _ h => h) (fun _ _ _ h => by cases h)
  exact ⟨N, seqs, fun max hm => by rw [generate_visits, h1]; exact h2 max hm⟩

theorem envV_visit {c k : Nat} {v : AVisit} (h : VisitOf envV c k v) (hc : c = 20) : k = 0 ∧ v = ⟨[2], [3]⟩ := by
  subst hc
  obtain ⟨vs, h1, h2⟩ := h
  cases h1
  match k, h2 with
  | 0, h2 => cases h2; exact ⟨rfl, rfl⟩
  | k + 1, h2 => simp at h2

theorem envV_dep {d i : Nat} (h : DependsOn envV.g d i) :
    (d, i) = (0, 2) ∨ (d, i) = (3, 1) ∨ (d, i) = (2, 3) ∨ (d, i) = (0, 3) ∨ (d, i) = (2, 1) ∨ (d, i) = (0, 1) := by
  obtain ⟨_, _, h⟩ := h
  have h : envV.g.edge d i ≠ none := by rcases h with h | h <;> simp [h]
  unfold envV at h
  simp only at h
  split at h
  · rename_i hh; rcases hh with hh | hh <;> simp [hh]
  · split at h
    · rename_i hh; rcases hh with hh | hh | hh | hh <;> simp [hh]
    · exact absurd rfl h

/-- The hypotheses of `C35_complete` hold for the sample. -/
example : Complete envV ∧ Ordered envV := by
  constructor
  · refine ⟨by decide, ⟨_, rfl, ?_⟩, ?_, ?_, ?_, ?_, ?_⟩
    · intro v hv a ha
      simp only [List.mem_singleton] at hv
      subst hv
      simp only [List.mem_singleton] at ha
      rcases ha with ha | ha <;> subst ha
      · exact ⟨0, rfl⟩
      · exact ⟨1, rfl⟩
    · intro c hc
      simp only [envV, List.mem_singleton] at hc
      subst hc
      refine ⟨_, rfl, fun v hv a ha => ?_⟩
      simp only [List.mem_singleton] at hv
      subst hv
      simp only [List.mem_singleton] at ha
      rcases ha with ha | ha <;> subst ha
      · exact ⟨2, rfl⟩
      · exact ⟨3, rfl⟩
    · intro o a p h ho
      rcases envV_at h with h | h | h | h <;> cases h <;> first | exact absurd rfl ho | decide
    · intro o a p h ho hs
      rcases envV_at h with h | h | h | h <;> cases h <;> first | exact absurd rfl ho | cases hs | skip
      exact ⟨0, ⟨[2], [3]⟩, ⟨_, rfl, rfl⟩, by simp⟩
    · intro c _ ms h; cases h
    · intro c _ m ms h; cases h
  · refine ⟨fun x => match x with
      | .node 0 => 0
      | .node 2 => 1
      | .node _ => 10
      | .visit _ k => 2 + k, fun x y h => ?_⟩
    have hp : ∀ {d y}, Provides envV d y → (d = 0 ∧ y = .node 0) ∨ (d = 1 ∧ y = .node 1) ∨ (d = 2 ∧ y = .node 2) ∨
        (d = 3 ∧ y = .visit 20 0) := by
      intro d y h
      cases h with
      | eval h1 h2 =>
        rcases envV_at h1 with h | h | h | h <;> cases h <;> simp
        simp [envV] at h2
      | visit h1 h2 h3 h4 h5 =>
        rcases envV_at h1 with h | h | h | h <;> cases h
        · exact absurd rfl h2
        · exact absurd rfl h2
        · cases h3
        · simp [(envV_visit h4 rfl).1]
    cases h with
    | dep h1 h2 =>
      rcases hp h2 with ⟨h, hy⟩ | ⟨h, hy⟩ | ⟨h, hy⟩ | ⟨h, hy⟩ <;> subst h hy <;>
        rcases envV_dep h1 with h | h | h | h | h | h <;> cases h <;> decide
    | prev h => simp only; omega
    | @input c k a p v y h1 h2 h3 h4 =>
      obtain ⟨vs, g1, g2⟩ := h1
      rcases envV_at h3 with h | h | h | h <;> cases h <;> cases g1 <;> cases k with
      | succ k => simp at g2
      | zero =>
        cases g2
        rcases hp h4 with ⟨h, hy⟩ | ⟨h, hy⟩ | ⟨h, hy⟩ | ⟨h, hy⟩ <;> cases h <;> subst hy <;>
          first | decide | (simp at h2)

/-- A node (10) with a child (20, of type 30).  Attributes of the node: 0 inherited, 1 and 2 synthesized, of the child:
3 inherited, 4 synthesized.  The equations are `child.3 = f(0)`, `1 = f(child.4)` and `2 = constant`.  In the parent 0
depends on 2, so it is an input of the second visit.  The child needs 3 for its only visit although 4 does not depend on
it. -/
def envI : Env :=
  { g := { nodes := [(10, 0), (10, 1), (10, 2), (20, 3), (20, 4)]
           edge := fun i j => if (i, j) = (0, 3) ∨ (i, j) = (4, 1) then some .normal else
             if (i, j) = (2, 0) ∨ (i, j) = (2, 3) then some .induced else none
           edges := [] }
    self := 10
    children := [20]
    typeOf := fun n => if n = 20 then 30 else n
    syn := fun a => a == 1 || a == 2 || a == 4
    members := fun _ => none
    visits := fun t => if t = 10 then some [⟨[], [1, 2]⟩, ⟨[0], []⟩] else if t = 30 then some [⟨[3], [4]⟩] else none }

/-- Names of the attributes of the samples. -/
def attrsI : Verif.Partition.Attrs := { name := fun a => [97 + UInt8.ofNat a], syn := envI.syn }

/-- The visits of the sample are those that the scheduler computes for this graph. -/
example : (do
    let T ← Verif.Partition.partition_nodes attrsI 20 envI.g 10
    Verif.Partition.collect_visits attrsI envI.g 10 T) = .ok ([⟨[], [1, 2]⟩, ⟨[0], []⟩], 0) := by decide

/-- C35 is false: a sequence may evaluate an inherited attribute of the node itself, for which the node has no equation.
It is an input of a later visit and is needed, in an earlier one, as an input of the visit of a child; the scheduler takes
it for an attribute that can be evaluated (`cocogen/frontend/attribute_scheduler/generate_visits.c:186-198`) instead of
reporting that the node cannot be scheduled. -/
theorem C35_inherited_false : ∃ (e : Env) (max : Nat) (seqs : List (List Ev)) (seq : List Ev) (i : Nat),
    e.g.nodes.Nodup ∧ Owned e ∧ (∀ t, e.members t = some [] → e.visits t = none) ∧
    generate_visits e max = .ok seqs ∧ seq ∈ seqs ∧ Ev.eval i ∈ seq ∧ ¬ HasEquation e i := by
  refine ⟨envI, 20, [[.eval 2, .eval 0, .eval 3, .visit 20 0 [(30, some 0)], .eval 1], []], _, 0, by decide,
    fun o a p h ho => ?_, fun _ h => (by cases h), by decide, List.mem_cons_self, by simp, ?_⟩
  · match p, h with
    | 0, h | 1, h | 2, h => cases h; exact absurd rfl ho
    | 3, h | 4, h => cases h; decide
    | n + 5, h => simp [At, envI] at h
  rintro ⟨o, a, h1, h2⟩
  have h1 : some (10, 0) = some (o, a) := h1
  cases h1
  revert h2
  decide

/-- A node (10) whose child (20) has a nodeset (30) as its type; its first member (40) has two visits, the second member
and the nodeset have three. -/
def envD : Env :=
  { g := { nodes := [(10, 0), (20, 1), (20, 2), (20, 3), (20, 4), (20, 5)]
           edge := fun i j => if (i, j) = (1, 2) ∨ (i, j) = (3, 4) ∨ (i, j) = (5, 0) then some .normal else
             if (i, j) = (2, 3) ∨ (i, j) = (4, 5) ∨ (i, j) = (1, 3) ∨ (i, j) = (2, 4) ∨ (i, j) = (3, 5) ∨
               (i, j) = (4, 0) ∨ (i, j) = (1, 4) ∨ (i, j) = (2, 5) ∨ (i, j) = (3, 0) ∨ (i, j) = (1, 5) ∨
               (i, j) = (2, 0) ∨ (i, j) = (1, 0) then some .induced else none
           edges := [] }
    self := 10
    children := [20]
    typeOf := fun n => if n = 20 then 30 else n
    syn := fun a => a == 0 || a == 1 || a == 3 || a == 5
    members := fun t => if t = 30 then some [40, 41] else none
    visits := fun t => if t = 10 then some [⟨[], [0]⟩]
      else if t = 30 then some [⟨[], [1]⟩, ⟨[2], [3]⟩, ⟨[4], [5]⟩]
      else if t = 40 then some [⟨[], [11, 13]⟩, ⟨[12, 14], [15]⟩]
      else if t = 41 then some [⟨[], [21]⟩, ⟨[22], [23]⟩, ⟨[24], [25]⟩] else none }

/-- C35: generation may stop at a failed assertion although there is a sequence: nothing can be appended after the visit
of a nodeset whose first member has no such visit.  With the members in the other order the sequence is generated. -/
theorem C35_dummy_false :
    generate_visits envD 30 = .abort "assert NODE_TYPE(*visit_tail) == NT_VISIT_SEQUENCE_EVAL" ∧
    generate_visits { envD with members := fun t => if t = 30 then some [41, 40] else none } 30 =
      .ok [[.visit 20 0 [(41, some 0), (40, some 0)], .eval 2, .visit 20 1 [(41, some 1), (40, some 1)], .eval 4,
        .visit 20 2 [(41, some 2), (40, none)], .eval 0]] := by
  constructor <;> decide

/-- Names of the attributes of the nodeset and the member: a copy has the same name. -/
def attrsN : Verif.Partition.Attrs := { name := fun a => [97 + UInt8.ofNat (a % 10)], syn := fun a => a != 3 && a != 13 }

/-- The visits of a type, as the scheduler computes them from its graph: closure, partition, visits. -/
def visitsOf (g : Graph) (t : Nat) : Res (List AVisit) := do
  let st ← GRclose_transitivity 5 g []
  let T ← Verif.Partition.partition_nodes attrsN 20 st.graph t
  let (vs, _) ← Verif.Partition.collect_visits attrsN st.graph t T
  .ok (vs.map fun v => ⟨v.inputs.map (Verif.Partition.attrOf st.graph), v.outputs.map (Verif.Partition.attrOf st.graph)⟩)

/-- A nodeset (30) with the attributes 3 (inherited), 4 and 5 (synthesized), and its only member (40), whose copies of
these attributes are 13, 14 and 15.  In the member 14 is computed from 13.  There is a node that has a child of type 40
(not 30) and computes `child.13` from `child.15`. -/
def nodesetGraph : Graph :=
  { nodes := [(30, 3), (30, 4), (30, 5), (40, 13), (40, 14), (40, 15)]
    edge := fun i j => if (i, j) = (0, 3) ∨ (i, j) = (4, 1) ∨ (i, j) = (5, 2) then some .normal else
      if (i, j) = (3, 4) ∨ (i, j) = (5, 3) then some .induced else none
    edges := [] }

/-- The graph of the member. -/
def memberGraph : Graph :=
  { nodes := [(40, 13), (40, 14), (40, 15)]
    edge := fun i j => if (i, j) = (0, 1) then some .normal else if (i, j) = (2, 0) then some .induced else none
    edges := [] }

/-- A node (10) with a child (20) of the nodeset: `child.3 = constant`, `0 = f(child.4)`. -/
def envN : Env :=
  { g := { nodes := [(10, 0), (20, 3), (20, 4), (20, 5)]
           edge := fun i j => if (i, j) = (2, 0) then some .normal else
             if (i, j) = (1, 2) ∨ (i, j) = (1, 0) then some .induced else none
           edges := [] }
    self := 10
    children := [20]
    typeOf := fun n => if n = 20 then 30 else n
    syn := fun a => a != 3 && a != 13
    members := fun t => if t = 30 then some [40] else none
    visits := fun t => if t = 10 then some [⟨[], [0]⟩] else if t = 30 then some [⟨[3], [4, 5]⟩]
      else if t = 40 then some [⟨[], [15]⟩, ⟨[13], [14]⟩] else none }

/-- C35 is false for nodesets: the visits of a nodeset and of its members are computed separately and need not agree.
Here the nodeset has one visit that yields 4, the member has two and yields its copy 14 of that attribute in the second
one, but the parent, which evaluates 0 from `child.4`, makes only the first visit of the member. -/
theorem C35_nodeset_false :
    visitsOf nodesetGraph 30 = .ok [⟨[3], [4, 5]⟩] ∧ visitsOf memberGraph 40 = .ok [⟨[], [15]⟩, ⟨[13], [14]⟩] ∧
    generate_visits envN 20 = .ok [[.eval 1, .visit 20 0 [(40, some 0)], .eval 0]] ∧
    DependsOn envN.g 2 0 ∧ At envN 20 4 2 ∧ ((envN.visits 40).bind (·[0]?)).map (·.outputs) = some [15] := by
  refine ⟨by decide, by decide, by decide, ⟨by decide, by decide, Or.inl rfl⟩, rfl, rfl⟩

end Verif.Props
