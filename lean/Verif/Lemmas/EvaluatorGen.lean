import Verif.Lemmas.Evaluator

/-!
# Lemmas about the generated evaluator: what is generated
-/

namespace Verif.Evaluator
open Verif.Str Verif.Ids Verif.Induce Verif.Schedule Verif.Visits Verif.Spec.Induce Verif.Spec.AttrTree Verif.Spec.Evaluate
open Verif.Spec.Evaluator Verif.AttrTree Verif.Evaluate
open Verif.Spec.Visits (At Step Runs VisitOf Alternatives withInputs)
open Verif.Spec.VisitGen (SeqOk)

/-! ## Sequences -/

theorem alts_ok {D : Names} {S : Spec} {P : Plan} : ∀ {l : List (Nat × Option Nat)},
    (∀ t i, (t, some i) ∈ l → ∃ ws v, P.visits t = some ws ∧ ws[i]? = some v) → ∃ as, toAlts D S P l = .ok as
  | [], _ => ⟨[], rfl⟩
  | (t, none) :: rest, h => by
    obtain ⟨as, ha⟩ := alts_ok (D := D) (S := S) (l := rest) fun t i hm => h t i (List.mem_cons_of_mem _ hm)
    exact ⟨.dummy (D.type t) :: as, by rw [toAlts, ha]; rfl⟩
  | (t, some i) :: rest, h => by
    obtain ⟨as, ha⟩ := alts_ok (D := D) (S := S) (l := rest) fun t i hm => h t i (List.mem_cons_of_mem _ hm)
    obtain ⟨ws, v, h1, h2⟩ := h t i List.mem_cons_self
    exact ⟨.visit (toVisit D S t i v) :: as, by simp only [toAlts, stub, h1, h2, Option.map_some, ha, Res.bind_ok]⟩

/-- The alternative for a node type. -/
theorem alts_find {D : Names} {S : Spec} (N : Named D S) {P : Plan} {m : INode} (hm : m ∈ S.nodes) :
    ∀ {l : List (Nat × Option Nat)} {as : List VisitGen.Alt}, toAlts D S P l = .ok as →
    (∀ x ∈ l, ∃ n ∈ S.nodes, n.addr = x.1) →
    (l.lookup m.addr = some none →
      as.find? (fun x => Spec.VisitGen.typeOf x == VisitGen.ntText (D.type m.addr)) = some (.dummy (D.type m.addr))) ∧
    (∀ i, l.lookup m.addr = some (some i) → ∃ ws v, P.visits m.addr = some ws ∧ ws[i]? = some v ∧
      as.find? (fun x => Spec.VisitGen.typeOf x == VisitGen.ntText (D.type m.addr)) = some (.visit (toVisit D S m.addr i v)))
  | [], _, _, _ => ⟨(fun h => by cases h), (fun i h => by cases h)⟩
  | (t, o) :: rest, as, h, ht => by
    obtain ⟨n, hn, e⟩ := ht _ List.mem_cons_self
    have e : n.addr = t := e
    have hne : m.addr ≠ t → ((([78, 84, 95] ++ (D.type t).upr : CStr) == VisitGen.ntText (D.type m.addr)) = false) := by
      intro hmt
      rw [beq_eq_false_iff_ne]
      intro e1
      have e1 := List.append_cancel_left e1
      have := N.types n hn m hm (by rw [e]; exact (Spec.NodeGen.upr_iff (N.wfType _) (N.wfType _)).1 e1)
      subst this
      exact hmt e
    cases o with
    | none =>
      rw [toAlts] at h
      obtain ⟨as', h1, h2⟩ := Res.bind_eq_ok.1 h
      cases h2
      obtain ⟨i1, i2⟩ := alts_find N hm h1 fun x hx => ht x (List.mem_cons_of_mem _ hx)
      by_cases hmt : m.addr = t
      · subst hmt
        refine ⟨fun _ => ?_, fun i hi => ?_⟩
        · simp [Spec.VisitGen.typeOf, VisitGen.ntText]
        · simp at hi
      · rw [List.lookup_cons, beq_false_of_ne hmt, List.find?_cons]
        simp only [Spec.VisitGen.typeOf, hne hmt]
        exact ⟨i1, i2⟩
    | some i =>
      rw [toAlts] at h
      cases hst : stub D S P t i with
      | none => rw [hst] at h; cases h
      | some v =>
        simp only [hst] at h
        obtain ⟨as', h1, h2⟩ := Res.bind_eq_ok.1 h
        cases h2
        obtain ⟨i1, i2⟩ := alts_find N hm h1 fun x hx => ht x (List.mem_cons_of_mem _ hx)
        have hst' : ∃ ws w, P.visits t = some ws ∧ ws[i]? = some w ∧ v = toVisit D S t i w := by
          unfold stub at hst
          cases hw : P.visits t with
          | none => rw [hw] at hst; cases hst
          | some ws =>
            rw [hw] at hst
            simp only [Option.map_eq_some_iff] at hst
            obtain ⟨w, h3, h4⟩ := hst
            exact ⟨ws, w, rfl, h3, h4.symm⟩
        obtain ⟨ws, w, h3, h4, rfl⟩ := hst'
        by_cases hmt : m.addr = t
        · subst hmt
          refine ⟨fun hi => ?_, fun i' hi => ?_⟩
          · simp at hi
          · simp only [List.lookup_cons, beq_self_eq_true, Option.some.injEq] at hi
            subst hi
            exact ⟨ws, w, h3, h4, by simp [Spec.VisitGen.typeOf, VisitGen.ntText, toVisit]⟩
        · rw [List.lookup_cons, beq_false_of_ne hmt, List.find?_cons]
          simp only [Spec.VisitGen.typeOf, toVisit, hne hmt]
          exact ⟨i1, i2⟩

theorem childAt_ok {n : INode} {S : Spec} (h : Checked S) (hn : n ∈ S.nodes) {c : Child} (hc : c ∈ n.children) :
    childAt n c.addr = .ok c := by
  unfold childAt
  rw [find_unique hc (by simp) fun y hy e => child_inj h hn hn hy hc (by simpa using e)]

theorem alternatives_ok {e : Env} {P : Plan} (hv : e.visits = P.visits) {c k : Nat} {v : AVisit} {alts : List (Nat × Option Nat)}
    (h1 : VisitOf e c k v) (h2 : Alternatives e c k alts) {t i : Nat} (hm : (t, some i) ∈ alts) :
    i = k ∧ ∃ ws v, P.visits t = some ws ∧ ws[i]? = some v := by
  unfold Alternatives at h2
  cases hms : e.members (e.typeOf c) with
  | none =>
    rw [hms] at h2
    simp only at h2
    subst h2
    simp only [List.mem_singleton, Prod.mk.injEq, Option.some.injEq] at hm
    obtain ⟨rfl, rfl⟩ := hm
    obtain ⟨vs, h3, h4⟩ := h1
    rw [hv] at h3
    exact ⟨rfl, vs, v, h3, h4⟩
  | some ms =>
    rw [hms] at h2
    simp only at h2
    obtain ⟨vs, h3, h4, h5⟩ := h2.2 t _ hm
    rw [hv] at h3
    have hlt : k < vs.length := by
      apply Decidable.byContradiction
      intro hlt
      have := h5.2 (by omega)
      cases this
    have := h4.2 hlt
    simp only [Option.some.injEq] at this
    subst this
    exact ⟨rfl, vs, _, h3, List.getElem?_eq_getElem hlt⟩

/-- The AST for a sequence can be made. -/
theorem elems_ok {D : Names} {S : Spec} (h : Checked S) {P : Plan} {n : INode} (hn : n ∈ S.nodes) {e : Env} {seqs st vs}
    (f : NodeFact S P n e seqs st vs) {A B : Spec.Visits.Known} {evs : List Ev} (r : Runs e A evs B) :
    ∃ es, toElems D S P n (evs.map (act e.g)) = .ok es := by
  induction r with
  | nil => exact ⟨[], rfl⟩
  | @cons A T U ev evs st _ ih =>
    obtain ⟨es, ih⟩ := ih
    cases st with
    | @eval i o a hat ho hd hnew =>
      refine ⟨.eval (evalRef D S n ((e.g.nodes[i]?).getD (0, 0))) :: es, ?_⟩
      rw [List.map_cons, act, toElems, ih]
      rfl
    | @visit c k alts v hc hv halt hne hpre hin hnew =>
      obtain ⟨ch, hch, rfl⟩ := (f.kids _).1 hc
      obtain ⟨as, ha⟩ := alts_ok (D := D) (S := S) (P := P) (l := alts) fun t i hm => (alternatives_ok f.vis hv halt hm).2
      refine ⟨.visit (toChild D ch) as :: es, ?_⟩
      rw [List.map_cons, act, toElems, childAt_ok h hn hch, ha, ih]
      rfl

/-! ## Visit functions -/

theorem visit_shape {n : EvalGen.Node} {v : VisitGen.Visit} {es : List VisitGen.Elem} {k : Nat} {f : VisitGen.Fn}
    (h : VisitGen.DGVSvisit n v es = .ok (k, f)) : f.name = VisitGen.visitName v ∧ f.ret = VisitGen.returnOf v := by
  rw [VisitGen.DGVSvisit] at h
  obtain ⟨⟨k', l⟩, _, h2⟩ := Res.bind_eq_ok.1 h
  cases h2
  exact ⟨rfl, rfl⟩

/-- `f` is the function for the visit `i` of a node. -/
def Made (D : Names) (S : Spec) (P : Plan) (n : INode) (i : Nat) (v : AVisit) (seq : List Act) (f : VisitGen.Fn) : Prop :=
  ∃ es, toElems D S P n seq = .ok es ∧ VisitGen.DGVSvisit (toNode D S n) (toVisit D S n.addr i v) es = .ok (0, f)

theorem made_unique {D : Names} {S : Spec} {P : Plan} {n : INode} {i : Nat} {v : AVisit} {seq : List Act} {f g : VisitGen.Fn}
    (h1 : Made D S P n i v seq f) (h2 : Made D S P n i v seq g) : f = g := by
  obtain ⟨es, a1, a2⟩ := h1
  obtain ⟨es', b1, b2⟩ := h2
  rw [a1] at b1
  cases b1
  rw [a2] at b2
  cases b2
  rfl

theorem genVisits_spec {D : Names} {S : Spec} {P : Plan} {n : INode} : ∀ {vs : List AVisit} {seqs : List (List Act)} {i : Nat},
    seqs.length = vs.length →
    (∀ (k : Nat) v seq, vs[k]? = some v → seqs[k]? = some seq → ∃ f, Made D S P n (i + k) v seq f) →
    ∃ l, genVisits D S P n i vs seqs = .ok (0, l) ∧
      (∀ (k : Nat) v seq, vs[k]? = some v → seqs[k]? = some seq → ∃ f ∈ l, Made D S P n (i + k) v seq f) ∧
      ∀ f ∈ l, ∃ (k : Nat) (v : AVisit) (seq : List Act), vs[k]? = some v ∧ seqs[k]? = some seq ∧ Made D S P n (i + k) v seq f
  | [], [], i, _, _ => ⟨[], rfl, (fun k v seq h => by simp at h), (fun f h => by cases h)⟩
  | v :: vs, seq :: seqs, i, hl, h => by
    obtain ⟨f, es, h1, h2⟩ := h 0 v seq rfl rfl
    obtain ⟨l, h3, h4, h5⟩ := genVisits_spec (D := D) (S := S) (P := P) (n := n) (vs := vs) (seqs := seqs) (i := i + 1)
      (by simpa using hl) fun k w sq e1 e2 => by
        have := h (k + 1) w sq e1 e2
        rwa [show i + (k + 1) = i + 1 + k by omega] at this
    refine ⟨f :: l, ?_, ?_, ?_⟩
    · rw [genVisits, h1]
      simp only [Res.bind_ok]
      rw [show i = i + 0 by omega, h2]
      simp only [Res.bind_ok]
      rw [show i + 0 + 1 = i + 1 by omega, h3]
      rfl
    · intro k w sq e1 e2
      cases k with
      | zero =>
        cases e1
        cases e2
        exact ⟨f, List.mem_cons_self, es, h1, h2⟩
      | succ k =>
        obtain ⟨g, g1, g2⟩ := h4 k w sq e1 e2
        rw [show i + 1 + k = i + (k + 1) by omega] at g2
        exact ⟨g, List.mem_cons_of_mem _ g1, g2⟩
    · intro g hg
      rcases List.mem_cons.1 hg with rfl | hg
      · exact ⟨0, v, seq, rfl, rfl, es, h1, h2⟩
      · obtain ⟨k, w, sq, e1, e2, e3⟩ := h5 g hg
        rw [show i + 1 + k = i + (k + 1) by omega] at e3
        exact ⟨k + 1, w, sq, e1, e2, e3⟩
  | [], _ :: _, _, hl, _ => by simp at hl
  | _ :: _, [], _, hl, _ => by simp at hl

theorem genNodes_spec {D : Names} {S : Spec} {P : Plan} {Vs : INode → List AVisit} {Q : INode → List (List Act)} :
    ∀ {ns : List INode}, (∀ n ∈ ns, P.visits n.addr = some (Vs n) ∧ P.seqs n.addr = some (Q n) ∧ (Q n).length = (Vs n).length ∧
      ∀ (k : Nat) v seq, (Vs n)[k]? = some v → (Q n)[k]? = some seq → ∃ f, Made D S P n k v seq f) →
    ∃ l, genNodes D S P ns = .ok (0, l) ∧
      (∀ n ∈ ns, ∀ (k : Nat) v seq, (Vs n)[k]? = some v → (Q n)[k]? = some seq → ∃ f ∈ l, Made D S P n k v seq f) ∧
      ∀ f ∈ l, ∃ n ∈ ns, ∃ (k : Nat) (v : AVisit) (seq : List Act), (Vs n)[k]? = some v ∧ (Q n)[k]? = some seq ∧
        Made D S P n k v seq f
  | [], _ => ⟨[], rfl, (fun n hn => by cases hn), (fun f h => by cases h)⟩
  | n :: ns, h => by
    obtain ⟨a1, a2, a3, a4⟩ := h n List.mem_cons_self
    obtain ⟨l, b1, b2, b3⟩ := genVisits_spec (D := D) (S := S) (P := P) (n := n) (i := 0) a3 (by
      intro k v seq e1 e2
      rw [Nat.zero_add]
      exact a4 k v seq e1 e2)
    obtain ⟨l', c1, c2, c3⟩ := genNodes_spec (D := D) (S := S) (P := P) (Vs := Vs) (Q := Q) (ns := ns)
      fun m hm => h m (List.mem_cons_of_mem _ hm)
    refine ⟨l ++ l', ?_, ?_, ?_⟩
    · rw [genNodes, a1, a2, Option.getD_some, Option.getD_some, b1]
      simp only [Res.bind_ok, c1]
    · intro m hm k v seq e1 e2
      rcases List.mem_cons.1 hm with rfl | hm
      · obtain ⟨f, f1, f2⟩ := b2 k v seq e1 e2
        rw [Nat.zero_add] at f2
        exact ⟨f, List.mem_append_left _ f1, f2⟩
      · obtain ⟨f, f1, f2⟩ := c2 m hm k v seq e1 e2
        exact ⟨f, List.mem_append_right _ f1, f2⟩
    · intro f hf
      rcases List.mem_append.1 hf with hf | hf
      · obtain ⟨k, v, seq, e1, e2, e3⟩ := b3 f hf
        rw [Nat.zero_add] at e3
        exact ⟨n, List.mem_cons_self, k, v, seq, e1, e2, e3⟩
      · obtain ⟨m, hm, rest⟩ := c3 f hf
        exact ⟨m, List.mem_cons_of_mem _ hm, rest⟩

/-! ## Starting -/

/-- The functions that are called for a node type. -/
def callsOf (D : Names) (S : Spec) (t i : Nat) : List AVisit → List CStr
  | [] => []
  | v :: rest => VisitGen.visitName (toVisit D S t i v) :: callsOf D S t (i + 1) rest

theorem hasInherited_false {vs : List AVisit} : has_inherited_attributes vs = false ↔ ∀ v ∈ vs, v.inputs = [] := by
  induction vs with
  | nil => simp [has_inherited_attributes]
  | cons v vs ih =>
    rw [has_inherited_attributes]
    cases hv : v.inputs with
    | nil => simp [hv, ih]
    | cons a as => simp [hv]

theorem starts_visit {D : Names} {S : Spec} {t : Nat} : ∀ {vs : List AVisit} {i : Nat}, (∀ v ∈ vs, v.inputs = []) →
    DGAGSvisit D S t i vs = .ok (callsOf D S t i vs)
  | [], _, _ => rfl
  | v :: vs, i, h => by
    rw [DGAGSvisit, h v List.mem_cons_self]
    simp only [starts_visit (i := i + 1) fun w hw => h w (List.mem_cons_of_mem _ hw), Res.bind_ok]
    rfl

/-- An evaluation can start at these node types. -/
def Starts (P : Plan) (n : INode) : Prop := ∃ vs, P.visits n.addr = some vs ∧ vs ≠ [] ∧ ∀ v ∈ vs, v.inputs = []

theorem create_spec {D : Names} {S : Spec} {P : Plan} : ∀ (ns : List INode),
    ∃ l, createFunctions D S P ns = .ok l ∧
      (∀ n ∈ ns, Starts P n → ⟨startName D n, callsOf D S n.addr 0 ((P.visits n.addr).getD [])⟩ ∈ l) ∧
      ∀ f ∈ l, ∃ n ∈ ns, f = ⟨startName D n, callsOf D S n.addr 0 ((P.visits n.addr).getD [])⟩
  | [] => ⟨[], rfl, (fun n hn => by cases hn), (fun f h => by cases h)⟩
  | n :: ns => by
    obtain ⟨l, h1, h2, h3⟩ := create_spec (D := D) (S := S) (P := P) ns
    have skip : createFunctions D S P (n :: ns) = createFunctions D S P ns → ¬ Starts P n →
        ∃ l, createFunctions D S P (n :: ns) = .ok l ∧
        (∀ m ∈ n :: ns, Starts P m → ⟨startName D m, callsOf D S m.addr 0 ((P.visits m.addr).getD [])⟩ ∈ l) ∧
        ∀ f ∈ l, ∃ m ∈ n :: ns, f = ⟨startName D m, callsOf D S m.addr 0 ((P.visits m.addr).getD [])⟩ := by
      intro e hs
      refine ⟨l, e.trans h1, ?_, ?_⟩
      · intro m hm hst
        rcases List.mem_cons.1 hm with rfl | hm
        · exact absurd hst hs
        · exact h2 m hm hst
      · intro f hf
        obtain ⟨m, hm, e⟩ := h3 f hf
        exact ⟨m, List.mem_cons_of_mem _ hm, e⟩
    cases hv : (P.visits n.addr).getD [] with
    | nil =>
      refine skip (by rw [createFunctions, hv]) ?_
      rintro ⟨vs, e1, e2, _⟩
      rw [e1] at hv
      exact e2 hv
    | cons v vs =>
      cases hi : has_inherited_attributes (v :: vs) with
      | true =>
        refine skip (by rw [createFunctions, hv]; simp only [hi]) ?_
        rintro ⟨vs', e1, _, e3⟩
        rw [e1] at hv
        simp only [Option.getD_some] at hv
        subst hv
        rw [hasInherited_false.2 e3] at hi
        cases hi
      | false =>
        refine ⟨⟨startName D n, callsOf D S n.addr 0 (v :: vs)⟩ :: l, ?_, ?_, ?_⟩
        · rw [createFunctions, hv]
          simp only [hi, starts_visit (hasInherited_false.1 hi), h1, Res.bind_ok]
        · intro m hm hst
          rcases List.mem_cons.1 hm with rfl | hm
          · rw [hv]; exact List.mem_cons_self
          · exact List.mem_cons_of_mem _ (h2 m hm hst)
        · intro f hf
          rcases List.mem_cons.1 hf with rfl | hf
          · exact ⟨n, List.mem_cons_self, by rw [hv]⟩
          · obtain ⟨m, hm, e⟩ := h3 f hf
            exact ⟨m, List.mem_cons_of_mem _ hm, e⟩

theorem cases_spec {D : Names} {P : Plan} : ∀ (ns : List INode),
    (∀ n ∈ ns, Starts P n → (VisitGen.ntText (D.type n.addr), startName D n) ∈ callFunctions D P ns) ∧
      ∀ f ∈ callFunctions D P ns, ∃ n ∈ ns, Starts P n ∧ f = (VisitGen.ntText (D.type n.addr), startName D n)
  | [] => ⟨(fun n hn => by cases hn), (fun f h => by cases h)⟩
  | n :: ns => by
    obtain ⟨h2, h3⟩ := cases_spec (D := D) (P := P) ns
    have skip : callFunctions D P (n :: ns) = callFunctions D P ns → ¬ Starts P n →
        (∀ m ∈ n :: ns, Starts P m → (VisitGen.ntText (D.type m.addr), startName D m) ∈ callFunctions D P (n :: ns)) ∧
        ∀ f ∈ callFunctions D P (n :: ns), ∃ m ∈ n :: ns, Starts P m ∧ f = (VisitGen.ntText (D.type m.addr), startName D m) := by
      intro e hs
      rw [e]
      refine ⟨?_, ?_⟩
      · intro m hm hst
        rcases List.mem_cons.1 hm with rfl | hm
        · exact absurd hst hs
        · exact h2 m hm hst
      · intro f hf
        obtain ⟨m, hm, e⟩ := h3 f hf
        exact ⟨m, List.mem_cons_of_mem _ hm, e⟩
    cases hv : (P.visits n.addr).getD [] with
    | nil =>
      refine skip (by rw [callFunctions, hv]) ?_
      rintro ⟨vs, e1, e2, _⟩
      rw [e1] at hv
      exact e2 hv
    | cons v vs =>
      have hP : P.visits n.addr = some (v :: vs) := by
        cases e : P.visits n.addr with
        | none => rw [e] at hv; cases hv
        | some w => rw [e] at hv; simp only [Option.getD_some] at hv; rw [hv]
      cases hi : has_inherited_attributes (v :: vs) with
      | true =>
        refine skip (by rw [callFunctions, hv]; simp only [hi]) ?_
        rintro ⟨vs', e1, _, e3⟩
        rw [hP] at e1
        cases e1
        rw [hasInherited_false.2 e3] at hi
        cases hi
      | false =>
        have e : callFunctions D P (n :: ns) = (VisitGen.ntText (D.type n.addr), startName D n) :: callFunctions D P ns := by
          rw [callFunctions, hv]
          simp only [hi]
        rw [e]
        refine ⟨?_, ?_⟩
        · intro m hm hst
          rcases List.mem_cons.1 hm with rfl | hm
          · exact List.mem_cons_self
          · exact List.mem_cons_of_mem _ (h2 m hm hst)
        · intro f hf
          rcases List.mem_cons.1 hf with rfl | hf
          · exact ⟨n, List.mem_cons_self, ⟨_, hP, by simp, hasInherited_false.1 hi⟩, rfl⟩
          · obtain ⟨m, hm, e⟩ := h3 f hf
            exact ⟨m, List.mem_cons_of_mem _ hm, e⟩

/-! ## The program -/

/-- What is known of the generated program. -/
structure Program (D : Names) (S : Spec) (P : Plan) (Vs : INode → List AVisit) (Q : INode → List (List Act)) (prog : Prog) : Prop where
  fn : ∀ n ∈ S.nodes, ∀ (i : Nat) v, (Vs n)[i]? = some v → ∃ seq es f, (Q n)[i]? = some seq ∧ toElems D S P n seq = .ok es ∧
    VisitGen.DGVSvisit (toNode D S n) (toVisit D S n.addr i v) es = .ok (0, f) ∧
    prog.fns.find? (fun f => f.name == VisitGen.visitName (toVisit D S n.addr i v)) = some f
  all : ∀ f ∈ prog.fns, ∃ v ∈ allVisits D S P, f.name = VisitGen.visitName v ∧ f.ret = VisitGen.returnOf v
  start : ∀ n ∈ S.nodes, Starts P n → ∃ x, prog.cases.find? (fun x => x.1 == VisitGen.ntText (D.type n.addr)) = some x ∧
    prog.starts.find? (fun f => f.name == x.2) = some ⟨x.2, callsOf D S n.addr 0 (Vs n)⟩
  none : ∀ n ∈ S.nodes, ¬ Starts P n → prog.cases.find? (fun x => x.1 == VisitGen.ntText (D.type n.addr)) = none

theorem allVisits_mem {D : Names} {S : Spec} {P : Plan} {n : INode} (hn : n ∈ S.nodes) {vs : List AVisit}
    (hv : P.visits n.addr = some vs) {i : Nat} {v : AVisit} (hi : vs[i]? = some v) : toVisit D S n.addr i v ∈ allVisits D S P := by
  refine List.mem_flatMap.2 ⟨n, hn, ?_⟩
  rw [hv, Option.getD_some, List.mem_mapIdx]
  obtain ⟨h1, h2⟩ := List.getElem?_eq_some_iff.1 hi
  exact ⟨i, h1, by rw [h2]⟩

theorem program {D : Names} {S : Spec} (h : Checked S) (N : Named D S) {P : Plan} {En : INode → Env} {Sq : INode → List (List Ev)}
    {St : INode → Nat → Spec.Visits.Known} {Vs : INode → List AVisit}
    (node : ∀ n ∈ S.nodes, NodeFact S P n (En n) (Sq n) (St n) (Vs n)) (g : Generable D S P) :
    ∃ prog, generate D S P = .ok (0, prog) ∧
      Program D S P Vs (fun n => (Sq n).map fun seq => seq.map (act (En n).g)) prog := by
  have made : ∀ n ∈ S.nodes, ∀ (k : Nat) v seq, (Vs n)[k]? = some v →
      ((Sq n).map fun seq => seq.map (act (En n).g))[k]? = some seq → ∃ f, Made D S P n k v seq f := by
    intro n hn k v seq h1 h2
    have f := node n hn
    have h2' := h2
    rw [List.getElem?_map, Option.map_eq_some_iff] at h2
    obtain ⟨evs, h2, rfl⟩ := h2
    obtain ⟨es, h3⟩ := elems_ok (D := D) h hn f (f.step k v evs h1 h2).1
    obtain ⟨fn, h4, _⟩ := VisitGen.fn_check (g n hn _ f.own _ f.plan k v _ h1 h2' es h3)
    exact ⟨fn, es, h3, h4⟩
  obtain ⟨l, a1, a2, a3⟩ := genNodes_spec (D := D) (S := S) (P := P) (Vs := Vs)
    (Q := fun n => (Sq n).map fun seq => seq.map (act (En n).g)) (ns := S.nodes)
    fun n hn => ⟨(node n hn).own, (node n hn).plan, by simpa using (node n hn).len, made n hn⟩
  obtain ⟨st, b1, b2, b3⟩ := create_spec (D := D) (S := S) (P := P) S.nodes
  have cs := cases_spec (D := D) (P := P) S.nodes
  refine ⟨⟨l, st, callFunctions D P S.nodes⟩, by rw [generate, a1]; simp only [Res.bind_ok, b1], ?_, ?_, ?_, ?_⟩
  · intro n hn i v hi
    have f := node n hn
    have hlt := (List.getElem?_eq_some_iff.1 hi).1
    obtain ⟨seq, hseq⟩ : ∃ seq, ((Sq n).map fun seq => seq.map (act (En n).g))[i]? = some seq :=
      ⟨_, List.getElem?_eq_getElem (by simpa [f.len] using hlt)⟩
    obtain ⟨fn, f1, es, f2, f3⟩ := a2 n hn i v seq hi hseq
    refine ⟨seq, es, fn, hseq, f2, f3, find_unique f1 (by simp [(visit_shape f3).1]) ?_⟩
    intro fn' hf' e
    have e : fn'.name = VisitGen.visitName (toVisit D S n.addr i v) := by simpa using e
    obtain ⟨n', hn', i', v', seq', c1, c2, hm⟩ := a3 fn' hf'
    have hm' := hm
    obtain ⟨es', _, c4⟩ := hm
    rw [(visit_shape c4).1] at e
    obtain ⟨e1, e2⟩ := VisitGen.visitName_inj e
    have e1 := N.types n' hn' n hn e1
    subst e1
    simp only [toVisit, Nat.add_right_cancel_iff] at e2
    subst e2
    rw [hi] at c1
    cases c1
    rw [hseq] at c2
    cases c2
    exact made_unique hm' ⟨es, f2, f3⟩
  · intro fn hf
    obtain ⟨n, hn, i, v, seq, c1, c2, es, c3, c4⟩ := a3 fn hf
    exact ⟨_, allVisits_mem hn (node n hn).own c1, visit_shape c4⟩
  · intro n hn hst
    refine ⟨(VisitGen.ntText (D.type n.addr), startName D n), ?_, ?_⟩
    · refine find_unique (cs.1 n hn hst) (by simp) ?_
      intro y hy e
      obtain ⟨m, hm, _, rfl⟩ := cs.2 y hy
      have e : VisitGen.ntText (D.type m.addr) = VisitGen.ntText (D.type n.addr) := by simpa using e
      have e := List.append_cancel_left e
      have := N.types m hm n hn ((Spec.NodeGen.upr_iff (N.wfType _) (N.wfType _)).1 e)
      rw [this]
    · have := b2 n hn hst
      rw [(node n hn).own, Option.getD_some] at this
      refine find_unique this (by simp) ?_
      intro y hy e
      obtain ⟨m, hm, rfl⟩ := b3 y hy
      have e : startName D m = startName D n := by simpa using e
      have e := List.append_cancel_left e
      have := N.types m hm n hn e
      subst this
      rw [(node m hm).own, Option.getD_some]
  · intro n hn hst
    rw [List.find?_eq_none]
    intro y hy e
    obtain ⟨m, hm, hs, rfl⟩ := cs.2 y hy
    have e : VisitGen.ntText (D.type m.addr) = VisitGen.ntText (D.type n.addr) := by simpa using e
    have e := List.append_cancel_left e
    have := N.types m hm n hn ((Spec.NodeGen.upr_iff (N.wfType _) (N.wfType _)).1 e)
    subst this
    exact hst hs

end Verif.Evaluator
