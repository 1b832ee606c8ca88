import Verif.Lemmas.EvaluatorOne
import Verif.Lemmas.EvaluatorSolve
import Verif.Props.Evaluate

/-!
# C63: the generated evaluator solves the equations

From the specification to the attributes of a tree: the scheduler makes a plan, the back end generates visit functions and
`CCNevaluateAttributes` from the plan, and calling it for a tree gives every attribute the value that its equation says.
-/

namespace Verif.Props
open Verif.Str Verif.Ids Verif.Induce Verif.Graph Verif.Schedule Verif.Visits Verif.Evaluator
open Verif.Spec.Induce Verif.Spec.AttrTree Verif.Spec.Evaluate Verif.Spec.Evaluator
open Verif.Evaluate (attrIn_mem)

/-- No tree of a specification that has a plan is circular. -/
theorem plan_acyclic {S : Spec} (h : SpecOk S) {order : List (Nat × List Graph) → List (Nat × List Graph)}
    (ho : ∀ l, (order l).Perm l) {fuel max : Nat} {P : Plan} (hP : SAVast fuel max order S = .ok (some P)) :
    ∀ T, Fits S T → ¬ T.Circular := by
  obtain ⟨st, N, hr, hc⟩ := C58_acyclic_partial S h order ho
  have hP := (SAVast_le (show fuel ≤ fuel + N by omega) max order S).ok hP
  refine hc ?_
  cases he : st.errors with
  | zero => rfl
  | succ e =>
    simp only [SAVast, hr (fuel + N) (by omega), Res.bind_ok, he] at hP
    cases hP

/-- C63, partial.  For a specification that passed the earlier checks, in which no equation uses an attribute twice or for
itself or an inherited attribute of a child: if the scheduler makes a plan, the visits of the members of nodesets fit those of the
nodeset, and the visits can be generated, then the back end reports no error, and `CCNevaluateAttributes` computes, for every tree
of the grammar with mandatory children at whose root an evaluation can start, for all functions of the user and all values of the
attributes that are not computed, the one solution of the equations of the tree.

Missing: `Agree`, `Generable` and `UsesNoInherited` are not checked by the program, and there are specifications for which they do
not hold (`C59_nodeset_false`, `C55_compile_false`, `C63_inherited_false`).  `C63_oneVisit` says when the first two do. -/
theorem C63_evaluates_partial (D : Names) (S : Spec) (h : SpecOk S) (q : Equipped S) (hf : Filled S)
    (order : List (Nat × List Graph) → List (Nat × List Graph)) (ho : ∀ l, (order l).Perm l) (fuel max : Nat) (P : Plan)
    (hP : SAVast fuel max order S = .ok (some P)) (ha : Agree S P) (hN : Named D S) (hC : Classic S) (hu : UsesNoInherited S)
    (h1 : OneEach S) (hg : Generable D S P) :
    ∃ prog, generate D S P = .ok (0, prog) ∧
      ∀ (V : Type) (user : CStr → List V → V) (T : Tree) (s : Store V), Fits S T → Complete D T → CanStart P T → Given T s →
        ∃ z, CCNevaluateAttributes ⟨D, S, prog, user⟩ T s = .ok z ∧ Solution D S user T s z ∧
          ∀ z', Solution D S user T s z' → z' = z := by
  obtain ⟨En, Sq, St, Vs, prog, h2, w⟩ := setup h q hf order ho hP ha hN hC hu hg
  refine ⟨prog, h2, fun V user T s hT hc hs hgv => ?_⟩
  obtain ⟨z, hz⟩ := solve w user h1 hT (plan_acyclic h ho hP T hT) hs hgv
  refine ⟨z, evaluate w user hT hc hs hz, hz, fun z' hz' => ?_⟩
  have e1 := evaluate w user hT hc hs hz
  have e2 := evaluate w user hT hc hs hz'
  rw [e1] at e2
  cases e2
  rfl

/-- One visit of each type: the visits of nodesets fit, and can be generated. -/
theorem oneVisit_generable (D : Names) (S : Spec) (h : SpecOk S) (q : Equipped S) (hf : Filled S) (hv : OneVisit S)
    (order : List (Nat × List Graph) → List (Nat × List Graph)) (ho : ∀ l, (order l).Perm l) (fuel max : Nat) (P : Plan)
    (hP : SAVast fuel max order S = .ok (some P)) (hN : Named D S) (hC : Classic S) (h1 : OneEach S) (hp : Plain D S P) :
    Agree S P ∧ Generable D S P := by
  obtain ⟨En, Sq, St, Vs, w⟩ := schedule_spec h q hf order ho hP
  have one : ∀ t, One S t := fun t p o _ x y hx hy => hv p o x (attrIn_mem hx) y (attrIn_mem hy)
  have cov : Covers S := by
    intro s hs m hm b hb hi
    obtain ⟨a, a1, a2, a3, _⟩ := hp.exact s hs m hm b hb (Or.inl hi)
    exact ⟨a, a1, a3.trans hi, a2⟩
  obtain ⟨ha, hn⟩ := w.single h.toChecked one cov
  exact ⟨ha, generable ⟨h.toChecked, q, w, one, w.world h.toChecked q ha hn, hN, hC.args, h1, hp⟩⟩

/-- C63 without conditions on what the scheduler and the generator do, but for `even`: if in no production an inherited attribute
of a node or child depends on a synthesized attribute of the same node or child, and the specification is plain, then the
generated evaluator solves the equations of every tree. -/
theorem C63_oneVisit (D : Names) (S : Spec) (h : SpecOk S) (q : Equipped S) (hf : Filled S) (hv : OneVisit S)
    (order : List (Nat × List Graph) → List (Nat × List Graph)) (ho : ∀ l, (order l).Perm l) (fuel max : Nat) (P : Plan)
    (hP : SAVast fuel max order S = .ok (some P)) (hN : Named D S) (hC : Classic S) (hu : UsesNoInherited S)
    (h1 : OneEach S) (hp : Plain D S P) :
    ∃ prog, generate D S P = .ok (0, prog) ∧
      ∀ (V : Type) (user : CStr → List V → V) (T : Tree) (s : Store V), Fits S T → Complete D T → CanStart P T → Given T s →
        ∃ z, CCNevaluateAttributes ⟨D, S, prog, user⟩ T s = .ok z ∧ Solution D S user T s z ∧
          ∀ z', Solution D S user T s z' → z' = z := by
  obtain ⟨ha, hg⟩ := oneVisit_generable D S h q hf hv order ho fuel max P hP hN hC h1 hp
  exact C63_evaluates_partial D S h q hf order ho fuel max P hP ha hN hC hu h1 hg

/-- C63: an evaluation does not start at a node without visits or with inherited attributes. -/
theorem C63_refused (D : Names) (S : Spec) (h : SpecOk S) (q : Equipped S) (hf : Filled S)
    (order : List (Nat × List Graph) → List (Nat × List Graph)) (ho : ∀ l, (order l).Perm l) (fuel max : Nat) (P : Plan)
    (hP : SAVast fuel max order S = .ok (some P)) (ha : Agree S P) (hN : Named D S) (hC : Classic S) (hu : UsesNoInherited S)
    (hg : Generable D S P) :
    ∃ prog, generate D S P = .ok (0, prog) ∧
      ∀ (V : Type) (user : CStr → List V → V) (n : INode) (kids : Nat → Tree) (s : Store V), n ∈ S.nodes →
        ¬ CanStart P (.node n kids) → CCNevaluateAttributes ⟨D, S, prog, user⟩ (.node n kids) s =
          .abort "CCNevaluateAttributes called with node of invalid node type" := by
  obtain ⟨En, Sq, St, Vs, prog, h2, w⟩ := setup h q hf order ho hP ha hN hC hu hg
  refine ⟨prog, h2, fun V user n kids s hn hs => refused w user hn ?_ s⟩
  rintro ⟨vs, e1, e2, e3⟩
  refine hs ⟨by rw [e1]; simpa using e2, fun x hx => ?_⟩
  cases hi : x.inh with
  | false => rfl
  | true =>
    obtain ⟨k, v, hk, hm⟩ := (w.world.all n.addr vs e1 x (Evaluate.own_attrIn hn hx)).1 hi
    rw [e3 v (List.mem_of_getElem? hk)] at hm
    cases hm

/-! ## Samples -/

/-- A name. -/
def evId (s : CStr) : Id := ⟨s, s.map Spec.Str.lowerB, s.map Spec.Str.upperB⟩

/-- Names of the sample types, children and attributes; the child 6 is optional. -/
def evNames : Names where
  type t := evId [110, 97 + UInt8.ofNat (t % 10)]
  child c := evId [99, 97 + UInt8.ofNat (c % 10)]
  attr a := if a = 40 then evId [114] else evId (sampleNames (a % 10))
  mandatory c := decide (c ≠ 6)
  ctype _ := [105, 110, 116]

/-- The root: it has a child of the nodeset and an optional one of type `B`. -/
def evRoot : INode := ⟨4, [⟨40, [114], false, true⟩], [⟨5, 3⟩, ⟨6, 2⟩],
  [⟨⟨some 5, sampleAttr 30 0⟩, []⟩, ⟨⟨some 5, sampleAttr 30 1⟩, []⟩,
   ⟨⟨some 6, sampleAttr 20 0⟩, []⟩, ⟨⟨some 6, sampleAttr 20 1⟩, []⟩,
   ⟨⟨none, ⟨40, [114], false, true⟩⟩, [⟨some 5, sampleAttr 30 3⟩, ⟨some 6, sampleAttr 20 3⟩]⟩]⟩

/-- The grammar of the sample. -/
def evGrammar : Spec := ⟨[sampleNodeA, sampleNodeB, evRoot], [sampleSetX]⟩

/-! ### Deciding the hypotheses -/

/-- The attributes with variables, as a list. -/
def varKeys (D : Names) (S : Spec) (n : INode) : List Spec.VisitGen.Key :=
  (n.attrs.filter fun x => x.inh || x.syn).map (fun x => (none, x.name)) ++
  n.children.flatMap fun c =>
    (S.nodes.flatMap fun m => if m.addr = c.type then m.attrs else []) ++ (S.sets.flatMap fun s => if s.addr = c.type then s.attrs else [])
    |>.map fun x => (some (D.child c.addr).lwr, x.name)

theorem varKey_mem {D : Names} {S : Spec} {n : INode} {k} (h : VarKey D S n k) : k ∈ varKeys D S n := by
  unfold varKeys
  cases h with
  | own hx hk =>
    exact List.mem_append_left _ (List.mem_map.2 ⟨_, List.mem_filter.2 ⟨hx, by simpa using hk⟩, rfl⟩)
  | child hc hx hk =>
    refine List.mem_append_right _ (List.mem_flatMap.2 ⟨_, hc, List.mem_map.2 ⟨_, List.mem_append.2 ?_, rfl⟩⟩)
    rcases hx with ⟨m, hm, e, hx⟩ | ⟨s, hs, e, hx⟩
    · exact Or.inl (List.mem_flatMap.2 ⟨m, hm, by rw [if_pos e]; exact hx⟩)
    · exact Or.inr (List.mem_flatMap.2 ⟨s, hs, by rw [if_pos e]; exact hx⟩)

/-- `Plain`, for samples whose members of nodesets have visits. -/
theorem plain_of {D : Names} {S : Spec} {P : Plan}
    (h1 : ∀ n ∈ S.nodes, ∀ k ∈ varKeys D S n, ∀ k' ∈ varKeys D S n, Spec.VisitGen.keyText k = Spec.VisitGen.keyText k' → k = k')
    (h2 : ∀ n ∈ S.nodes, ∀ k ∈ varKeys D S n,
      Spec.VisitGen.keyText k ≠ [118, 105, 115, 105, 116, 95, 111, 117, 116, 112, 117, 116])
    (h3 : ∀ n ∈ S.nodes, ∀ c ∈ n.children, (D.child c.addr).lwr ≠ [116, 104, 105, 115])
    (h4 : ∀ n ∈ S.nodes, n.children.length < 64)
    (h5 : ∀ s ∈ S.sets, ∀ m ∈ s.members, ∀ b ∈ m.attrs, (b.inh ∨ b.syn) →
      ∃ a ∈ s.attrs, a.name = b.name ∧ a.inh = b.inh ∧ a.syn = b.syn)
    (h6 : ∀ n ∈ S.nodes, ∀ c ∈ n.children, ∀ d ∈ n.children, c ≠ d → D.mandatory c.addr = true → D.mandatory d.addr = true →
      ∀ m ∈ S.nodes, Only S c.type m → Only S d.type m → (m.attrs.filter (·.syn)).length ≤ 1)
    (h7 : ∀ s ∈ S.sets, ∀ m ∈ s.members, P.visits m.addr ≠ some []) : Plain D S P :=
  ⟨fun n hn k k' hk hk' e => h1 n hn k (varKey_mem hk) k' (varKey_mem hk') e, fun n hn k hk => h2 n hn k (varKey_mem hk), h3, h4, h5,
    h6, fun s hs m hm e => (h7 s hs m hm e).elim⟩

/-- If all attributes are computed, nothing is to be given. -/
theorem given_of {V : Type} {S : Spec} (h : ∀ n ∈ S.nodes, ∀ x ∈ n.attrs, x.inh ∨ x.syn) {T : Tree} (hT : Fits S T)
    (s : Store V) : Given T s := by
  intro v hv hn
  refine (hn ?_).elim
  clear hn
  induction hv with
  | root hx => exact .root hx (h _ hT.1 _ hx)
  | deeper hc _ ih => exact .deeper hc (ih (hT.2 _ hc).2)

theorem evNames_named (S : Spec) (h1 : ∀ x ∈ attributes S, (evNames.attr x.addr).lwr = x.name)
    (h2 : ∀ n ∈ S.nodes, ∀ m ∈ S.nodes, (evNames.type n.addr).lwr = (evNames.type m.addr).lwr → n = m)
    (h3 : ∀ n ∈ S.nodes, ∀ c ∈ n.children, ∀ d ∈ n.children, (evNames.child c.addr).lwr = (evNames.child d.addr).lwr → c = d)
    (h4 : ∀ n ∈ S.nodes, ∀ c ∈ n.children, c.addr < 2 ^ 64) : Named evNames S := by
  refine ⟨h1, fun a => ?_, fun c => ⟨rfl, rfl⟩, fun t => ⟨rfl, rfl⟩, fun a => ?_, h2, h3, h4⟩
  · show Spec.Ids.WfId (if a = 40 then evId [114] else evId (sampleNames (a % 10)))
    split <;> exact ⟨rfl, rfl⟩
  · have h : ∀ k < 10, (40 : UInt8) ∉ (evId [110, 97 + UInt8.ofNat k]).upr ∧ (40 : UInt8) ∉ (evId (sampleNames k)).upr ∧
        (40 : UInt8) ∉ (evId [99, 97 + UInt8.ofNat k]).upr := by decide
    obtain ⟨a1, a2, a3⟩ := h (a % 10) (Nat.mod_lt _ (by decide))
    refine ⟨a1, ?_, a3⟩
    show (40 : UInt8) ∉ (if a = 40 then evId [114] else evId (sampleNames (a % 10))).upr
    split
    · decide
    · exact a2

/-- The visits of types. -/
def planVisits (l : List Nat) : Res (Option Plan) → Option (List (Option (List AVisit)))
  | .ok (some P) => some (l.map P.visits)
  | _ => none

theorem planVisits_some {l : List Nat} {r : Res (Option Plan)} {x} (h : planVisits l r = some x) :
    ∃ P, r = .ok (some P) ∧ l.map P.visits = x := by
  unfold planVisits at h
  split at h
  · cases h; exact ⟨_, rfl, rfl⟩
  · cases h

/-! ### A specification for which the evaluator is generated -/

theorem evGrammar_ok : SpecOk evGrammar := by
  refine ⟨⟨?_, ?_, ?_, ?_, ?_, ?_, ?_, ?_, ?_, ?_, ?_⟩, ?_, ?_⟩ <;> decide

theorem evGrammar_equipped : Equipped evGrammar := by apply equipped_of <;> decide

theorem evGrammar_oneVisit : OneVisit evGrammar :=
  topDown_one evGrammar_ok.toChecked evGrammar_equipped (by unfold TopDown; decide)

theorem evGrammar_named : Named evNames evGrammar := by apply evNames_named <;> decide

theorem evGrammar_classic : Classic evGrammar := by constructor <;> decide

theorem evGrammar_each : OneEach evGrammar := by unfold OneEach; decide

theorem evGrammar_plan : ∃ P, SAVast 60 100 List.reverse evGrammar = .ok (some P) ∧ Plain evNames evGrammar P ∧
    P.visits 4 = some [⟨[], [40]⟩] := by
  obtain ⟨P, hP, he⟩ := planVisits_some (l := [1, 2, 4]) (r := SAVast 60 100 List.reverse evGrammar)
    (x := [some [⟨[10, 11], [12, 13]⟩], some [⟨[20, 21], [22, 23]⟩], some [⟨[], [40]⟩]]) (by decide +kernel)
  simp only [List.map_cons, List.map_nil, List.cons.injEq, and_true] at he
  obtain ⟨a1, b1, c1⟩ := he
  refine ⟨P, hP, ?_, c1⟩
  apply plain_of <;> try decide
  · unfold Only; decide
  · intro s hs m hm
    have : s = sampleSetX := by simpa [evGrammar] using hs
    subst this
    have hm : m = sampleNodeA ∨ m = sampleNodeB := by simpa [sampleSetX] using hm
    rcases hm with rfl | rfl
    · rw [show sampleNodeA.addr = 1 from rfl, a1]; decide
    · rw [show sampleNodeB.addr = 2 from rfl, b1]; decide

/-- The child 5 is a `B`, the optional child is missing. -/
def evTree : Tree := .node evRoot fun c => if c = 5 then .node sampleNodeB fun _ => .null else .null

theorem evTree_fits : Fits evGrammar evTree := by
  refine ⟨by decide, fun c hc => ?_⟩
  have : c = ⟨5, 3⟩ ∨ c = ⟨6, 2⟩ := by simpa [evRoot] using hc
  rcases this with rfl | rfl
  · exact ⟨Or.inr ⟨sampleSetX, by decide, by decide, by decide⟩, by decide, fun c hc => by cases hc⟩
  · exact ⟨trivial, trivial⟩

theorem evTree_complete : Complete evNames evTree := by
  intro c hc
  have : c = ⟨5, 3⟩ ∨ c = ⟨6, 2⟩ := by simpa [evRoot] using hc
  rcases this with rfl | rfl
  · exact ⟨(fun _ e => by cases e), fun c hc => by cases hc⟩
  · exact ⟨(fun e => by cases e), trivial⟩

/-- How an evaluation by the generated program ends that is aborted, with the number of errors of the generator. -/
def outcome (D : Names) (S : Spec) (T : Tree) : Option (Nat × String) :=
  match SAVast 60 100 List.reverse S with
  | .ok (some P) =>
    match generate D S P with
    | .ok (k, prog) =>
      match CCNevaluateAttributes (V := Nat) ⟨D, S, prog, fun _ _ => 0⟩ T fun _ => none with
      | .abort why => some (k, why)
      | _ => none
    | _ => none
  | _ => none

theorem outcome_some {D : Names} {S : Spec} {T : Tree} {P : Plan} {k : Nat} {why : String}
    (hP : SAVast 60 100 List.reverse S = .ok (some P)) (h : outcome D S T = some (k, why)) :
    ∃ prog, generate D S P = .ok (k, prog) ∧
      CCNevaluateAttributes (V := Nat) ⟨D, S, prog, fun _ _ => 0⟩ T (fun _ => none) = .abort why := by
  unfold outcome at h
  rw [hP] at h
  simp only at h
  split at h
  · next k' prog hg =>
    split at h
    · next w hw =>
      cases h
      exact ⟨prog, hg, hw⟩
    · cases h
  · cases h

/-- The values of attributes after an evaluation. -/
def valuesAfter (D : Names) (S : Spec) (T : Tree) (user : CStr → List Nat → Nat) (l : List Vertex) : Option (Nat × List (Option Nat)) :=
  match SAVast 60 100 List.reverse S with
  | .ok (some P) =>
    match generate D S P with
    | .ok (k, prog) =>
      match CCNevaluateAttributes (V := Nat) ⟨D, S, prog, user⟩ T fun _ => none with
      | .ok z => some (k, l.map z)
      | _ => none
    | _ => none
  | _ => none

/-- The hypotheses of `C63_oneVisit` hold for a grammar with a nodeset and an optional child, and for a tree of it. -/
example : SpecOk evGrammar ∧ Equipped evGrammar ∧ Filled evGrammar ∧ OneVisit evGrammar ∧ Named evNames evGrammar ∧
    Classic evGrammar ∧ UsesNoInherited evGrammar ∧ OneEach evGrammar ∧
    ∃ P, SAVast 60 100 List.reverse evGrammar = .ok (some P) ∧ Plain evNames evGrammar P ∧ Fits evGrammar evTree ∧
      Complete evNames evTree ∧ CanStart P evTree ∧ Given (V := Nat) evTree fun _ => none := by
  obtain ⟨P, h1, h2, h3⟩ := evGrammar_plan
  refine ⟨evGrammar_ok, evGrammar_equipped, by unfold Filled; decide, evGrammar_oneVisit, evGrammar_named, evGrammar_classic,
    by unfold UsesNoInherited; decide, evGrammar_each, P, h1, h2, evTree_fits, evTree_complete, ⟨?_, by decide⟩,
    given_of (S := evGrammar) (by decide) evTree_fits _⟩
  rw [show evRoot.addr = 4 from rfl, h3]
  decide

/-- The hypotheses of `C63_evaluates_partial` and `C63_refused`, for the same grammar; the evaluation cannot start at a `B`. -/
example : ∃ P, SAVast 60 100 List.reverse evGrammar = .ok (some P) ∧ Agree evGrammar P ∧ Generable evNames evGrammar P ∧
    CanStart P evTree ∧ ¬ CanStart P (.node sampleNodeB fun _ => .null) := by
  obtain ⟨P, h1, h2, h3⟩ := evGrammar_plan
  obtain ⟨ha, hg⟩ := oneVisit_generable evNames evGrammar evGrammar_ok evGrammar_equipped (by unfold Filled; decide)
    evGrammar_oneVisit List.reverse (fun l => l.reverse_perm) 60 100 P h1 evGrammar_named evGrammar_classic evGrammar_each h2
  refine ⟨P, h1, ha, hg, ⟨?_, by decide⟩, fun h => absurd (h.2 (sampleAttr 20 0) (by decide)) (by decide)⟩
  rw [show evRoot.addr = 4 from rfl, h3]
  decide

/-- The attributes of the tree, with functions that compute numbers. -/
example : valuesAfter evNames evGrammar evTree (fun fn xs => fn.length + 100 * xs.length + 1000 * xs.sum)
    [([], 40), ([5], 20), ([5], 21), ([5], 22), ([5], 23), ([6], 20)] =
    some (0, [some 14115121, some 14, some 14, some 14, some 14115, none]) := by decide +kernel

/-- A tree of the grammar of C57, which has two visits. -/
example : valuesAfter evNames sampleGrammar (.node sampleRoot fun _ => .node sampleNodeB fun _ => .null)
    (fun fn xs => fn.length + 100 * xs.length + 1000 * xs.sum) [([5], 20), ([5], 21), ([5], 22), ([5], 23)] =
    some (0, [some 14, some 14114, some 14, some 14114115]) := by decide +kernel

/-! ## What is false -/

theorem downGrammar_named : Named evNames downGrammar := by apply evNames_named <;> decide

theorem downGrammar_plan : ∃ P, SAVast 60 100 List.reverse downGrammar = .ok (some P) ∧ Plain evNames downGrammar P ∧
    P.visits 4 = some [⟨[], [40]⟩] := by
  obtain ⟨P, hP, he⟩ := planVisits_some (l := [1, 2, 4]) (r := SAVast 60 100 List.reverse downGrammar)
    (x := [some [⟨[10, 11], [12, 13]⟩], some [⟨[20, 21], [22, 23]⟩], some [⟨[], [40]⟩]]) (by decide +kernel)
  simp only [List.map_cons, List.map_nil, List.cons.injEq, and_true] at he
  obtain ⟨a1, b1, c1⟩ := he
  refine ⟨P, hP, ?_, c1⟩
  apply plain_of <;> try decide
  · unfold Only; decide
  · intro s hs m hm
    have : s = sampleSetX := by simpa [downGrammar] using hs
    subst this
    have hm : m = sampleNodeA ∨ m = sampleNodeB := by simpa [sampleSetX] using hm
    rcases hm with rfl | rfl
    · rw [show sampleNodeA.addr = 1 from rfl, a1]; decide
    · rw [show sampleNodeB.addr = 2 from rfl, b1]; decide

/-- A tree of that grammar. -/
def downTree : Tree := .node downRoot fun _ => .node sampleNodeB fun _ => .null

theorem downTree_fits : Fits downGrammar downTree := by
  refine ⟨by decide, fun c hc => ?_⟩
  have : c = ⟨5, 3⟩ := by simpa [downRoot] using hc
  subst this
  exact ⟨Or.inr ⟨sampleSetX, by decide, by decide, by decide⟩, by decide, fun c hc => by cases hc⟩

/-- C63 is false for equations that use an inherited attribute of a child, which the manual allows
(`docs/source/dsl_syntax.rst:199`): the value is read from the child (`cocogen/dynamic_backend/gen_visit_source.c:242-254`), where
only the visit that follows stores it, and not from the local variable, which the commented code (line 256) used.  All other
hypotheses of `C63_oneVisit` hold, the scheduler makes a plan and the generator reports nothing, but the generated program aborts. -/
theorem C63_inherited_false : ∃ (D : Names) (S : Spec) (P : Plan) (T : Tree) (prog : Prog), SpecOk S ∧ Equipped S ∧ Filled S ∧
    OneVisit S ∧ Named D S ∧ Classic S ∧ OneEach S ∧ SAVast 60 100 List.reverse S = .ok (some P) ∧ Plain D S P ∧
    Fits S T ∧ Complete D T ∧ CanStart P T ∧ Given (V := Nat) T (fun _ => none) ∧ generate D S P = .ok (0, prog) ∧
    CCNevaluateAttributes (V := Nat) ⟨D, S, prog, fun _ _ => 0⟩ T (fun _ => none) = .abort "CCNaccesserror" := by
  obtain ⟨P, h1, h2, h3⟩ := downGrammar_plan
  obtain ⟨prog, h4, h5⟩ := outcome_some (T := downTree) (k := 0) (why := "CCNaccesserror") (D := evNames) h1 (by decide +kernel)
  refine ⟨evNames, downGrammar, P, downTree, prog, downGrammar_ok, downGrammar_equipped, by unfold Filled; decide,
    topDown_one downGrammar_ok.toChecked downGrammar_equipped (by unfold TopDown; decide), downGrammar_named,
    by constructor <;> decide, by unfold OneEach; decide, h1, h2, downTree_fits, ?_, ⟨?_, by decide⟩,
    given_of (S := downGrammar) (by decide) downTree_fits _, h4, h5⟩
  · intro c hc
    exact ⟨(fun _ e => by cases e), fun c hc => by cases hc⟩
  · rw [show downRoot.addr = 4 from rfl, h3]
    decide

/-- A type without attributes and children. -/
def bareNode : INode := ⟨7, [], [], []⟩

/-- The grammar, with such a type. -/
def bareGrammar : Spec := ⟨[sampleNodeA, sampleNodeB, evRoot, bareNode], [sampleSetX]⟩

theorem bareGrammar_ok : SpecOk bareGrammar := by
  refine ⟨⟨?_, ?_, ?_, ?_, ?_, ?_, ?_, ?_, ?_, ?_, ?_⟩, ?_, ?_⟩ <;> decide

theorem bareGrammar_equipped : Equipped bareGrammar := by apply equipped_of <;> decide

theorem bareGrammar_plan : ∃ P, SAVast 60 100 List.reverse bareGrammar = .ok (some P) ∧ Plain evNames bareGrammar P := by
  obtain ⟨P, hP, he⟩ := planVisits_some (l := [1, 2]) (r := SAVast 60 100 List.reverse bareGrammar)
    (x := [some [⟨[10, 11], [12, 13]⟩], some [⟨[20, 21], [22, 23]⟩]]) (by decide +kernel)
  simp only [List.map_cons, List.map_nil, List.cons.injEq, and_true] at he
  obtain ⟨a1, b1⟩ := he
  refine ⟨P, hP, ?_⟩
  apply plain_of <;> try decide
  · unfold Only; decide
  · intro s hs m hm
    have : s = sampleSetX := by simpa [bareGrammar] using hs
    subst this
    have hm : m = sampleNodeA ∨ m = sampleNodeB := by simpa [sampleSetX] using hm
    rcases hm with rfl | rfl
    · rw [show sampleNodeA.addr = 1 from rfl, a1]; decide
    · rw [show sampleNodeB.addr = 2 from rfl, b1]; decide

/-- C63 is false for trees that have nothing to compute: the attributes solve the equations as they are, and the root has no
inherited attributes, but `CCNevaluateAttributes` has no case for its type (`cocogen/dynamic_backend/gen_ag_source.c:101-108`) and
ends the program.  All hypotheses of `C63_oneVisit` hold but for the first part of `CanStart`. -/
theorem C63_start_false : ∃ (D : Names) (S : Spec) (P : Plan) (n : INode) (kids : Nat → Tree) (prog : Prog), SpecOk S ∧
    Equipped S ∧ Filled S ∧ OneVisit S ∧ Named D S ∧ Classic S ∧ UsesNoInherited S ∧ OneEach S ∧
    SAVast 60 100 List.reverse S = .ok (some P) ∧ Plain D S P ∧ Fits S (.node n kids) ∧ Complete D (.node n kids) ∧
    (∀ x ∈ n.attrs, x.inh = false) ∧ Given (V := Nat) (.node n kids) (fun _ => none) ∧
    Solution (V := Nat) D S (fun _ _ => 0) (.node n kids) (fun _ => none) (fun _ => none) ∧ generate D S P = .ok (0, prog) ∧
    CCNevaluateAttributes (V := Nat) ⟨D, S, prog, fun _ _ => 0⟩ (.node n kids) (fun _ => none) =
      .abort "CCNevaluateAttributes called with node of invalid node type" := by
  obtain ⟨P, h1, h2⟩ := bareGrammar_plan
  obtain ⟨prog, h4, h5⟩ := outcome_some (T := .node bareNode fun _ => .null) (k := 0)
    (why := "CCNevaluateAttributes called with node of invalid node type") (D := evNames) h1 (by decide +kernel)
  have ft : Fits bareGrammar (.node bareNode fun _ => .null) := ⟨by decide, fun c hc => by cases hc⟩
  refine ⟨evNames, bareGrammar, P, bareNode, fun _ => .null, prog, bareGrammar_ok, bareGrammar_equipped,
    by unfold Filled; decide, topDown_one bareGrammar_ok.toChecked bareGrammar_equipped (by unfold TopDown; decide),
    by apply evNames_named <;> decide, by constructor <;> decide, by unfold UsesNoInherited; decide, by unfold OneEach; decide,
    h1, h2, ft, (fun c hc => by cases hc), by decide, given_of (S := bareGrammar) (by decide) ft _, ?_, h4, h5⟩
  refine ⟨⟨(fun q hq => by cases hq), (fun c hc => by cases hc)⟩, fun v hv => ?_, fun _ _ => rfl⟩
  cases hv with
  | root hx => cases hx
  | deeper hc => cases hc

end Verif.Props
