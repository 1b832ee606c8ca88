import Verif.Lemmas.VisitGen
import Verif.Props.EvalGen

/-!
# Lemmas on generated visit functions: running a sequence
-/

namespace Verif.VisitGen
open Verif.Str Verif.Ids Verif.EvalGen Verif.Spec.EvalGen Verif.Spec.VisitGen Verif.Spec.Ids

variable {V σ : Type}

theorem key_ne_outVar {a : ARef} (h : ∀ i, a.inode = some i → WfId i) (w : Visit) : keyText (keyOf a) ≠ outVar w := by
  cases hi : a.inode with
  | none =>
    intro e
    rw [keyOf, hi] at e
    unfold keyText outVar visitName at e
    simp at e
  | some i =>
    intro e
    refine childVar_ne_outVar (c := ⟨0, i, true⟩) (h i hi) a w ?_
    rw [keyOf, hi] at e
    exact e

theorem runStmts_append (W : World σ V) (l l' : List Stmt) (env : Env V) (s : σ) :
    runStmts W env s (l ++ l') = (runStmts W env s l >>= fun p => runStmts W p.1 p.2 l') := by
  induction l generalizing env s with
  | nil => rfl
  | cons x l ih =>
    simp only [List.cons_append, runStmts]
    cases runStmt W env s x with
    | ok p => simp only [Res.bind_ok, ih]
    | ub _ => rfl
    | abort _ => rfl
    | diverge => rfl

theorem decls_run (W : World σ V) (c : Child) (l : List ARef) (env : Env V) (s : σ) :
    ∃ env', runStmts W env s (l.map fun a => .simple (.decl a.type (childVar c a))) = .ok (env', s) ∧
      Keeps (· ∈ l.map (childVar c)) env env' ∧ ∀ x ∈ l.map (childVar c), x ∈ env'.map (·.1) := by
  induction l generalizing env with
  | nil => exact ⟨env, rfl, Keeps.refl _ _, by simp⟩
  | cons a l ih =>
    obtain ⟨env', h1, h2, h3⟩ := ih ((childVar c a, .unset) :: env)
    refine ⟨env', by rw [List.map_cons, runStmts]; exact h1, ?_, ?_⟩
    · refine (Keeps.declare env (N := (· ∈ (a :: l).map (childVar c))) (by simp) .unset).trans (h2.mono ?_)
      intro w hw
      exact List.mem_cons_of_mem _ hw
    · intro x hx
      rw [List.map_cons, List.mem_cons] at hx
      rcases hx with rfl | hx
      · exact h2.mem (by simp)
      · exact h3 x hx

theorem bind_id {α : Type} (y : Res α) : (y >>= fun p => .ok p) = y := by cases y <;> rfl

/-- The visit of a child. -/
theorem visit_sim {W : World σ V} {vs : List Visit} (hon : Honest vs W) (n : Node) {E : List ARef} {c : Child}
    (hc : WfId c.name) {v : Visit} {rest : List Alt}
    (h : ∀ w ∈ visitsOf (.visit v :: rest), CallOk vs E c v.outputs w)
    (hE : ∀ b ∈ E, keyText (keyOf b) ∉ v.outputs.map (childVar c) ∧ ∀ w, keyText (keyOf b) ≠ outVar w)
    (env : Env V) (K : Known V) (s : σ) (hi : Inv E env K) {l : List Stmt}
    (hl : seqVisit n c (.visit v :: rest) = .ok l) :
    Sim (fun p q => p.2 = q.2 ∧ Inv E p.1 q.1) (runStmts W env s l) (visitMeaning W n c (.visit v :: rest) K s) := by
  rw [visitMeaning_eq]
  rw [seqVisit, DGVSvisit_sequence_visit] at hl
  obtain ⟨b, hb, hl⟩ := Res.bind_eq_ok.1 hl
  have htype : typeAt W s (childText n c) = if W.isNull s (access n c) then .ub "NODE_TYPE(NULL)" else .ok (W.nodeType s (access n c)) := by
    rw [typeAt, childText_eq]
    cases W.isNull s (access n c) <;> rfl
  have hN : ∀ b ∈ E, ∀ w, ¬ (keyText (keyOf b) ∈ v.outputs.map (childVar c) ∨ keyText (keyOf b) = outVar w) := by
    rintro b hb w (h1 | h1)
    · exact (hE b hb).1 h1
    · exact (hE b hb).2 w h1
  obtain ⟨env1, hr1, hk1, hm1⟩ := decls_run W c v.outputs env s
  have hi1 : Inv E env1 K := hi.keeps hk1 (fun b hb h => (hE b hb).1 h) fun _ _ => rfl
  cases rest with
  | nil =>
    rw [visitBody] at hb
    obtain ⟨pl, hpl, hb⟩ := Res.bind_eq_ok.1 hb
    cases hb
    cases hmand : c.mandatory with
    | true =>
      obtain ⟨b', fs, hb', hf, hsim⟩ := call_sim hon n hc (d := true) (h v List.mem_cons_self)
        (fun b hb => ⟨(hE b hb).1, (hE b hb).2 v⟩) env K s hi (.inl ⟨rfl, rfl⟩)
      rw [hmand, print_visit_call, hb', hf] at hpl
      cases hpl
      simp only [hmand, visitDecls] at hl
      cases hl
      simp only [decide_not, decide_true, Bool.not_true, Bool.or_false, List.nil_append, runStmts, runStmt, runBody,
        runSimples, runSimple, htype, if_true]
      cases hnull : W.isNull s (access n c) with
      | true =>
        simp only [if_true, Res.bind_ub]
        exact .ub _
      | false =>
        simp only [Bool.false_eq_true, if_false, Res.bind_ok, List.find?_cons, List.find?_nil]
        by_cases e : W.nodeType s (access n c) = ntText v.inode
        · have e1 : (W.nodeType s (access n c) == ntText v.inode) = true := by simpa using e
          have e2 : (typeOf (.visit v) == W.nodeType s (access n c)) = true := by simp [e, typeOf, ntText]
          simp only [e1, e2, Res.bind_ok]
          rw [← bind_id (altMeaning _ _ _ _ _ _)]
          rw [runSimples] at hsim
          simp only [runSimple] at hsim
          exact hsim.bind fun p q hpq => .ok ⟨hpq.1, hpq.2.1⟩
        · have e1 : (W.nodeType s (access n c) == ntText v.inode) = false := by simpa using e
          have e2 : (typeOf (.visit v) == W.nodeType s (access n c)) = false := by
            rw [show typeOf (.visit v) = ntText v.inode from rfl]
            simpa using fun h => e h.symm
          simp only [e1, e2, Res.bind_abort]
          exact .abort _
    | false =>
      simp only [hmand, visitDecls] at hl
      cases hl
      simp only [decide_not, decide_true, Bool.not_true, Bool.not_false, Bool.or_true, Bool.false_eq_true, if_false]
      rw [runStmts_append, hr1, Res.bind_ok]
      simp only [runStmts, runStmt, childText_eq]
      cases hnull : W.isNull s (access n c) with
      | true =>
        simp only [if_true, Res.bind_ok]
        exact .ok ⟨rfl, hi1⟩
      | false =>
        obtain ⟨b', fs, hb', hf, hsim⟩ := call_sim hon n hc (d := false) (h v List.mem_cons_self)
          (fun b hb => ⟨(hE b hb).1, (hE b hb).2 v⟩) env1 K s hi1 (.inr ⟨rfl, hm1⟩)
        rw [hmand, print_visit_call, hb', hf] at hpl
        cases hpl
        simp only [Bool.false_eq_true, if_false, Res.bind_ok, List.find?_cons, List.find?_nil, runBody, runSimples,
          runSimple, htype, hnull]
        by_cases e : W.nodeType s (access n c) = ntText v.inode
        · have e1 : (W.nodeType s (access n c) == ntText v.inode) = true := by simpa using e
          have e2 : (typeOf (.visit v) == W.nodeType s (access n c)) = true := by simp [e, typeOf, ntText]
          simp only [e1, e2, Res.bind_ok]
          rw [← bind_id (altMeaning _ _ _ _ _ _)]
          rw [runSimples] at hsim
          simp only [runSimple] at hsim
          rw [show ∀ (x : Res (Env V × σ)) (f : Env V × σ → Res (Env V × σ)) (g : Env V × σ → Res (Env V × σ)),
            ((x >>= f) >>= g) = (x >>= fun p => f p >>= g) by intro x f g; cases x <;> rfl]
          refine hsim.bind fun p q hpq => ?_
          obtain ⟨env', s'⟩ := p
          obtain ⟨h3, h4, h5⟩ := hpq
          refine .ok ⟨h3, ?_⟩
          intro b'' hb''
          obtain ⟨x, h6, h7⟩ := h4 b'' hb''
          refine ⟨x, ?_, h7⟩
          rw [h5.leave.look (hN b'' hb'' v), ← h5.look (hN b'' hb'' v), h6]
        · have e1 : (W.nodeType s (access n c) == ntText v.inode) = false := by simpa using e
          have e2 : (typeOf (.visit v) == W.nodeType s (access n c)) = false := by
            rw [show typeOf (.visit v) = ntText v.inode from rfl]
            simpa using fun h => e h.symm
          simp only [e1, e2, Res.bind_abort]
          exact .abort _
  | cons x xs =>
    rw [visitBody] at hb
    obtain ⟨al, hal, hb⟩ := Res.bind_eq_ok.1 hb
    cases hb
    have hdecl : visitDecls c v (x :: xs) = v.outputs.map fun a => .simple (.decl a.type (childVar c a)) := by
      simp [visitDecls]
    cases hmand : c.mandatory with
    | true =>
      simp only [hmand, hdecl] at hl
      cases hl
      rw [runStmts_append, hr1, Res.bind_ok]
      simp only [runStmts, runStmt, runBody]
      cases hnull : W.isNull s (access n c) with
      | true =>
        rw [altLoop] at hal
        obtain ⟨pl, _, hal⟩ := Res.bind_eq_ok.1 hal
        obtain ⟨al', _, hal⟩ := Res.bind_eq_ok.1 hal
        cases hal
        simp only [runAlts, htype, hnull, if_true, Res.bind_ub]
        exact .ub _
      | false =>
        obtain ⟨al', h1, hsim⟩ := alts_sim hon n hc (.visit v :: x :: xs) h hE env1 K s hi1 hm1 hnull
        rw [hal] at h1
        cases h1
        rw [if_neg (by simp), ← bind_id (altMeaning _ _ _ _ _ _)]
        exact hsim.bind fun p q hpq => .ok ⟨hpq.1, hpq.2.1⟩
    | false =>
      simp only [hmand, hdecl] at hl
      cases hl
      rw [runStmts_append, hr1, Res.bind_ok]
      simp only [runStmts, runStmt, runBody, childText_eq]
      cases hnull : W.isNull s (access n c) with
      | true =>
        simp only [Bool.false_eq_true, if_false, if_true, Res.bind_ok]
        exact .ok ⟨rfl, hi1⟩
      | false =>
        obtain ⟨al', h1, hsim⟩ := alts_sim hon n hc (.visit v :: x :: xs) h hE env1 K s hi1 hm1 hnull
        rw [hal] at h1
        cases h1
        rw [if_neg (by simp), ← bind_id (altMeaning _ _ _ _ _ _)]
        simp only
        rw [show ∀ (x : Res (Env V × σ)) (f : Env V × σ → Res (Env V × σ)) (g : Env V × σ → Res (Env V × σ)),
            ((x >>= f) >>= g) = (x >>= fun p => f p >>= g) by intro x f g; cases x <;> rfl]
        rw [childText_eq] at hsim
        refine hsim.bind fun p q hpq => ?_
        obtain ⟨env', s'⟩ := p
        obtain ⟨h3, h4, w, h5⟩ := hpq
        refine .ok ⟨h3, ?_⟩
        intro b'' hb''
        obtain ⟨x, h6, h7⟩ := h4 b'' hb''
        refine ⟨x, ?_, h7⟩
        rw [h5.leave.look (hN b'' hb'' w), ← h5.look (hN b'' hb'' w), h6]

/-! ### Evaluations -/

theorem pick_chosen (isNull : CStr → Bool) (l : List Branch) (c : Call) (h : chosen isNull l = some c) :
    pick isNull l = .ok c := by
  induction l with
  | nil => cases h
  | cons b l ih =>
    unfold chosen at h
    unfold pick
    cases hg : b.guard with
    | none => rw [hg] at h; cases h; rfl
    | some g =>
      rw [hg] at h
      cases g with
      | nil => cases h
      | cons g gs =>
        simp only at h ⊢
        cases ha : (g :: gs).all isNull with
        | true => rw [ha] at h; cases h; rfl
        | false => rw [ha] at h; exact ih h

theorem readings_eq (W : World σ V) (s : σ) (l : List CStr) : readings W s l = allOk (l.map (W.reading s)) := by
  induction l with
  | nil => rfl
  | cons e l ih => simp only [readings, List.map_cons, allOk, ih]

theorem sameRef_iff (a b : ARef) : SameRef a b ↔ keyOf a = keyOf b := by
  unfold SameRef keyOf
  rw [Prod.mk.injEq]

theorem equationFor_ok {n : Node} {a : ARef} {e : Equation} (he : e ∈ n.equations) (ha : SameRef a e.rule)
    (hu : n.equations.Pairwise fun e f => ¬ SameRef e.rule f.rule) : equationFor n a = some e := by
  unfold equationFor
  revert he hu
  generalize n.equations = l
  intro he hu
  induction l with
  | nil => cases he
  | cons f l ih =>
    rw [List.pairwise_cons] at hu
    rw [List.find?_cons]
    rcases List.mem_cons.1 he with rfl | he
    · have : decide (keyOf e.rule = keyOf a) = true := by
        simpa using ((sameRef_iff _ _).1 ha).symm
      simp only [this]
    · have : decide (keyOf f.rule = keyOf a) = false := by
        simp only [decide_eq_false_iff_not]
        intro h
        exact hu.1 e he ((sameRef_iff _ _).2 (h.trans ((sameRef_iff _ _).1 ha)))
      simp only [this]
      exact ih he hu.2

theorem seqEval_ok {n : Node} {a : ARef} (hu : Unique n) (hd : Distinct n) (ha : EvalOk n a) :
    ∃ out e, seqEval n a = .ok (0, if a.inode = none then [.eval out, .set n.name.lwr a.iattr.lwr (keyText (keyOf a))] else [.eval out]) ∧
      out.var = keyText (keyOf a) ∧ equationFor n a = some e ∧
      ∀ isNull : CStr → Bool, pick isNull out.chain = .ok (wantedCall n e.rule e fun c => isNull (access n c)) := by
  obtain ⟨h1, _, e, he, hs, hr, hk⟩ := ha
  obtain ⟨out, h2, _, h3, h4, h5⟩ := Props.C36_calls_partial n a e he hs hu hr hd hk h1
  have hv : out.var = keyText (keyOf a) := by
    rw [h3, ← varText_key, varText_eq]
  refine ⟨out, e, ?_, hv, equationFor_ok he hs hu.1, fun isNull => pick_chosen _ _ _ (h5 isNull)⟩
  rw [seqEval, h2, Res.bind_ok]
  simp only [h4]
  by_cases hi : a.inode = none
  · simp only [hi, if_true, hv]
  · simp only [hi, if_false]

/-- The evaluation of an attribute. -/
theorem eval_sim (W : World σ V) {n : Node} (hu : Unique n) (hd : Distinct n) {a : ARef} (ha : EvalOk n a)
    {E : List ARef} (hE : ∀ b ∈ E, keyText (keyOf b) ≠ keyText (keyOf a)) (env : Env V) (K : Known V) (s : σ)
    (hi : Inv E env K) {k : Nat} {l : List Stmt} (hl : seqEval n a = .ok (k, l)) :
    k = 0 ∧ Sim (fun p q => p.2 = q.2 ∧ Inv (E ++ [a]) p.1 q.1) (runStmts W env s l) (evalMeaning W n a K s) := by
  obtain ⟨out, e, h1, h2, h3, h4⟩ := seqEval_ok hu hd ha
  rw [h1] at hl
  cases hl
  refine ⟨rfl, ?_⟩
  have hinv : ∀ x : V, Inv (E ++ [a]) ((out.var, .val x) :: env) (K.put (keyOf a) x) := by
    intro x b hb
    rcases List.mem_append.1 hb with hb | hb
    · obtain ⟨y, h5, h6⟩ := hi b hb
      refine ⟨y, ?_, ?_⟩
      · rw [look_cons, h2, if_neg (fun h => hE b hb h.symm), h5]
      · rw [Known.put, if_neg (fun h => hE b hb (by rw [h])), h6]
    · simp only [List.mem_singleton] at hb
      subst hb
      exact ⟨x, by rw [look_cons, h2, if_pos rfl], by rw [Known.put, if_pos rfl]⟩
  unfold evalMeaning
  rw [h3]
  dsimp only
  have hrun : ∀ tail, runStmts W env s (.eval out :: tail) =
      (allOk ((wantedCall n e.rule e fun c => W.isNull s (access n c)).args.map (W.reading s)) >>= fun xs =>
        W.evalFn (wantedCall n e.rule e fun c => W.isNull s (access n c)).fn xs s >>= fun p =>
          runStmts W ((out.var, .val p.1) :: env) p.2 tail) := by
    intro tail
    simp only [runStmts, runStmt, h4, Res.bind_ok, readings_eq]
    cases allOk ((wantedCall n e.rule e fun c => W.isNull s (access n c)).args.map (W.reading s)) with
    | ub _ => rfl
    | abort _ => rfl
    | diverge => rfl
    | ok xs =>
      simp only [Res.bind_ok]
      cases W.evalFn (wantedCall n e.rule e fun c => W.isNull s (access n c)).fn xs s with
      | ub _ => rfl
      | abort _ => rfl
      | diverge => rfl
      | ok p => rfl
  by_cases hn : a.inode = none
  · simp only [hn, if_true, hrun]
    refine (Sim.refl _).bind fun xs _ e => ?_
    subst e
    refine (Sim.refl _).bind fun p _ e => ?_
    subst e
    have hv : value ((out.var, Slot.val p.1) :: env) (keyText (keyOf a)) = .ok p.1 :=
      value_look (by rw [look_cons, h2, if_pos rfl])
    simp only [runStmts, runStmt, hv, Res.bind_ok]
    cases W.storing n.name.lwr a.iattr.lwr p.1 p.2 with
    | ub m => exact .ub m
    | abort m => exact .abort m
    | diverge => exact .diverge
    | ok s' => exact .ok ⟨rfl, hinv p.1⟩
  · simp only [hn, if_false, hrun]
    refine (Sim.refl _).bind fun xs _ e => ?_
    subst e
    refine (Sim.refl _).bind fun p _ e => ?_
    subst e
    exact .ok ⟨rfl, hinv p.1⟩

/-! ### The sequence -/

theorem evals_append (l l' : List Elem) : evals (l ++ l') = evals l ++ evals l' := by
  unfold evals; exact List.filterMap_append

theorem vars_eval {seq : List Elem} {a : ARef} (h : a ∈ evals seq) : keyText (keyOf a) ∈ seq.flatMap elemVars := by
  unfold evals at h
  obtain ⟨x, hx, e⟩ := List.mem_filterMap.1 h
  cases x with
  | visit c alts => cases e
  | eval b =>
    cases e
    exact List.mem_flatMap.2 ⟨_, hx, by simp [elemVars]⟩

theorem seqOk_evalKey {vs : List Visit} {n : Node} {v : Visit} {seq : List Elem} (h : SeqOk vs n v seq) {b : ARef}
    (hb : b ∈ evals seq) (w : Visit) : keyText (keyOf b) ≠ outVar w := key_ne_outVar (h.evalOk b hb).2.1 w

/-- What is needed for the visit of a child follows from the conditions on the sequence. -/
theorem seqOk_calls {vs : List Visit} {n : Node} {v : Visit} {seq : List Elem} (h : SeqOk vs n v seq)
    {pre post : List Elem} {c : Child} {alts : List Alt} (e : seq = pre ++ .visit c alts :: post) :
    WfId c.name ∧ ∃ w rest, alts = .visit w :: rest ∧ (∀ w' ∈ visitsOf alts, CallOk vs (evals pre) c w.outputs w') ∧
      ∀ b ∈ evals pre, keyText (keyOf b) ∉ w.outputs.map (childVar c) ∧ ∀ w', keyText (keyOf b) ≠ outVar w' := by
  have hmem : (c, alts) ∈ childVisits seq := by
    rw [e]
    exact List.mem_filterMap.2 ⟨.visit c alts, by simp, rfl⟩
  have hpre : ∀ b ∈ evals pre, b ∈ evals seq := fun b hb => by
    rw [e, evals_append]; exact List.mem_append_left _ hb
  obtain ⟨h1, ⟨w, rest, h2, h3⟩, h4⟩ := h.altsOk _ hmem
  refine ⟨h1, w, rest, h2, fun w' hw' => ⟨h4 w' hw', h.visits w' (h4 w' hw'), h3 w' hw', h.before pre c alts post e w' hw',
    fun b hb o ho => h.sep b (hpre b hb) _ hmem w' hw' o ho⟩, fun b hb => ⟨?_, seqOk_evalKey h (hpre b hb)⟩⟩
  intro hm
  have hn := h.names
  unfold variables at hn
  rw [e, List.flatMap_append, List.flatMap_cons] at hn
  have hn := (List.nodup_append.1 hn).2.1
  refine (List.nodup_append.1 hn).2.2 _ (vars_eval hb) _ (List.mem_append_left _ ?_) rfl
  dsimp only at h2
  rw [h2]
  exact hm

theorem seq_sim {W : World σ V} {vs : List Visit} (hon : Honest vs W) {n : Node} {v : Visit} {seq : List Elem}
    (h : SeqOk vs n v seq) (rest : List Elem) (pre : List Elem) (e : seq = pre ++ rest) (env : Env V) (K : Known V) (s : σ)
    (hi : Inv (evals pre) env K) {k : Nat} {l : List Stmt} (hl : sequence n rest = .ok (k, l)) :
    k = 0 ∧ Sim (fun p q => p.2 = q.2 ∧ Inv (evals seq) p.1 q.1) (runStmts W env s l) (seqMeaning W n rest K s) := by
  -- the induction goes over the rest and speaks of all points it is reached from
  have main : ∀ (rest pre : List Elem), seq = pre ++ rest → ∀ {k : Nat} {l : List Stmt}, sequence n rest = .ok (k, l) →
      k = 0 ∧ ∀ (env : Env V) (K : Known V) (s : σ), Inv (evals pre) env K →
        Sim (fun p q => p.2 = q.2 ∧ Inv (evals seq) p.1 q.1) (runStmts W env s l) (seqMeaning W n rest K s) := by
    intro rest
    induction rest with
    | nil =>
      intro pre e k l hl
      cases hl
      refine ⟨rfl, fun env K s hi => .ok ⟨rfl, ?_⟩⟩
      rw [e, List.append_nil]
      exact hi
    | cons x rest ih =>
      intro pre e k l hl
      have e' : seq = (pre ++ [x]) ++ rest := by rw [e]; simp
      cases x with
      | eval a =>
        rw [sequence] at hl
        obtain ⟨⟨k1, l1⟩, h1, hl⟩ := Res.bind_eq_ok.1 hl
        obtain ⟨⟨k2, l2⟩, h2, hl⟩ := Res.bind_eq_ok.1 hl
        cases hl
        obtain ⟨rfl, ih'⟩ := ih (pre ++ [.eval a]) e' h2
        have ha : a ∈ evals seq := by
          rw [e, evals_append]; exact List.mem_append_right _ (by simp [evals])
        have hE : ∀ b ∈ evals pre, keyText (keyOf b) ≠ keyText (keyOf a) := by
          intro b hb
          have hn := h.names
          unfold variables at hn
          rw [e, List.flatMap_append, List.flatMap_cons] at hn
          have hn := (List.nodup_append.1 hn).2.1
          exact (List.nodup_append.1 hn).2.2 _ (vars_eval hb) _ (List.mem_append_left _ (by simp [elemVars]))
        have hsplit : evals (pre ++ [.eval a]) = evals pre ++ [a] := by rw [evals_append]; rfl
        have h0 : k1 = 0 := by
          obtain ⟨out, eq, h3, _⟩ := seqEval_ok h.unique h.distinct (h.evalOk a ha)
          rw [h3] at h1
          cases h1
          rfl
        subst h0
        refine ⟨rfl, fun env K s hi => ?_⟩
        rw [runStmts_append, seqMeaning]
        refine (eval_sim W h.unique h.distinct (h.evalOk a ha) hE env K s hi h1).2.bind fun p q hpq => ?_
        obtain ⟨env', s'⟩ := p
        obtain ⟨K', s''⟩ := q
        obtain ⟨h4, h5⟩ := hpq
        dsimp only at h4 h5
        subst h4
        exact ih' env' K' s' (hsplit ▸ h5)
      | visit c alts =>
        rw [sequence] at hl
        obtain ⟨l1, h1, hl⟩ := Res.bind_eq_ok.1 hl
        obtain ⟨⟨k2, l2⟩, h2, hl⟩ := Res.bind_eq_ok.1 hl
        cases hl
        obtain ⟨rfl, ih'⟩ := ih (pre ++ [.visit c alts]) e' h2
        have hsplit : evals (pre ++ [.visit c alts]) = evals pre := by rw [evals_append]; exact List.append_nil _
        obtain ⟨hc, w, rest', rfl, h3, h4⟩ := seqOk_calls h e
        refine ⟨rfl, fun env K s hi => ?_⟩
        rw [runStmts_append, seqMeaning]
        refine (visit_sim hon n hc h3 h4 env K s hi h1).bind fun p q hpq => ?_
        obtain ⟨env', s'⟩ := p
        obtain ⟨K', s''⟩ := q
        obtain ⟨h5, h6⟩ := hpq
        dsimp only at h5 h6
        subst h5
        exact ih' env' K' s' (hsplit ▸ h6)
  obtain ⟨h1, h2⟩ := main rest pre e hl
  exact ⟨h1, h2 env K s hi⟩

/-! ### The function -/

theorem params_run (ps : List ARef) (args : List V) (hlen : args.length = ps.length) (env : Env V)
    (hn : (ps.map varText).Nodup) :
    ∃ env', runParams env (ps.map argument) args = .ok env' ∧
      (∀ p ∈ ps.zip args, look env' (varText p.1) = some (varText p.1, .val p.2)) ∧
      ∀ w, w ∉ ps.map varText → look env' w = look env w := by
  induction ps generalizing args env with
  | nil =>
    cases args with
    | nil => exact ⟨env, rfl, by simp, fun _ _ => rfl⟩
    | cons _ _ => cases hlen
  | cons a ps ih =>
    cases args with
    | nil => cases hlen
    | cons x args =>
      rw [List.map_cons, List.nodup_cons] at hn
      obtain ⟨env', h1, h2, h3⟩ := ih args (by simpa using hlen) ((varText a, .val x) :: env) hn.2
      refine ⟨env', h1, ?_, ?_⟩
      · intro p hp
        rw [List.zip_cons_cons, List.mem_cons] at hp
        rcases hp with rfl | hp
        · rw [h3 _ hn.1, look_cons, if_pos rfl]
        · exact h2 p hp
      · intro w hw
        rw [List.map_cons, List.mem_cons, not_or] at hw
        rw [h3 w hw.2, look_cons, if_neg (fun e => hw.1 e.symm)]

theorem sets_run (W : World σ V) (n : Node) (ps : List ARef) (args : List V) (hlen : args.length = ps.length)
    (env : Env V) (s : σ) (h : ∀ p ∈ ps.zip args, look env (varText p.1) = some (varText p.1, .val p.2)) :
    runStmts W env s (ps.map fun a => .set n.name.lwr a.iattr.lwr (varText a)) =
      (storeAll W n ps args s >>= fun s => .ok (env, s)) := by
  induction ps generalizing args s with
  | nil =>
    cases args with
    | nil => rfl
    | cons _ _ => cases hlen
  | cons a ps ih =>
    cases args with
    | nil => cases hlen
    | cons x args =>
      simp only [List.map_cons, runStmts, runStmt, storeAll]
      rw [value_look (h (a, x) (by simp)), Res.bind_ok]
      cases W.storing n.name.lwr a.iattr.lwr x s with
      | ub _ => rfl
      | abort _ => rfl
      | diverge => rfl
      | ok s' =>
        simp only [Res.bind_ok]
        exact ih args (by simpa using hlen) s' (fun p hp => h p (by simp [hp]))

theorem outputs_known {E : List ARef} {env : Env V} {K : Known V} (h : Inv E env K) (l : List ARef)
    (hl : ∀ a ∈ l, ∃ b ∈ E, keyOf b = keyOf a) :
    ∃ ys, allOk (l.map fun a => need K (keyOf a)) = .ok ys ∧ (∀ a, l = [a] → ∃ y, ys = [y] ∧ value env (varText a) = .ok y) ∧
      retFields env (l.map fun a => (varText a, varText a)) = .ok ((l.map varText).zip ys) ∧ ys.length = l.length := by
  induction l with
  | nil => exact ⟨[], rfl, by simp, rfl, rfl⟩
  | cons a l ih =>
    obtain ⟨ys, h1, _, h2, h3⟩ := ih (fun b hb => hl b (List.mem_cons_of_mem _ hb))
    obtain ⟨b, hb, e⟩ := hl a List.mem_cons_self
    obtain ⟨y, h4, h5⟩ := h b hb
    rw [e] at h4 h5
    have hv : value env (varText a) = .ok y := by rw [varText_key]; exact value_look h4
    refine ⟨y :: ys, ?_, ?_, ?_, by simp [h3]⟩
    · rw [List.map_cons, allOk, need, h5, h1]; rfl
    · intro a' ha'
      cases ha'
      cases ys with
      | nil => exact ⟨y, rfl, hv⟩
      | cons _ _ => cases h3
    · rw [List.map_cons, retFields, hv, Res.bind_ok, h2]; rfl

theorem ret_run {E : List ARef} {env : Env V} {K : Known V} (h : Inv E env K) {v : Visit} (hv : VisitOk v)
    (hl : ∀ a ∈ v.outputs, ∃ b ∈ E, keyOf b = keyOf a) :
    ∃ ys r, allOk (v.outputs.map fun a => need K (keyOf a)) = .ok ys ∧ runRet env (returnOf v) = .ok r ∧
      unpack v.outputs r = some ys := by
  obtain ⟨ys, h1, h2, h3, h4⟩ := outputs_known h v.outputs hl
  match ho : v.outputs with
  | [] =>
    rw [ho] at h1 h4
    refine ⟨ys, .void, h1, by rw [returnOf, ho]; rfl, ?_⟩
    cases ys with
    | nil => rfl
    | cons _ _ => cases h4
  | [a] =>
    obtain ⟨y, rfl, h5⟩ := h2 a ho
    refine ⟨[y], .one y, ho ▸ h1, ?_, rfl⟩
    rw [returnOf, ho]
    simp only [runRet, h5, Res.bind_ok]
  | a :: b :: os =>
    refine ⟨ys, .struct ((v.outputs.map varText).zip ys), ho ▸ h1, ?_, ?_⟩
    · rw [returnOf, ho]
      simp only [runRet]
      rw [← ho, h3, Res.bind_ok]
    · have e1 : ((v.outputs.map varText).zip ys).map (·.1) = v.outputs.map (fun a => keyText (none, a.iattr.lwr)) := by
        rw [List.map_fst_zip (by simp [h4])]
        exact List.map_congr_left fun a ha => varText_own (hv.1 a (List.mem_append_right _ ha))
      have e2 : ((v.outputs.map varText).zip ys).map (·.2) = ys := List.map_snd_zip (by simp [h4])
      rw [ho] at e1 e2
      rw [unpack, ho, if_pos e1, e2]

/-- The whole function. -/
theorem fn_sim {W : World σ V} {vs : List Visit} (hon : Honest vs W) {n : Node} {v : Visit} {seq : List Elem}
    (h : SeqOk vs n v seq) {k : Nat} {f : Fn} (hf : DGVSvisit n v seq = .ok (k, f)) (args : List V)
    (hlen : args.length = v.inputs.length) (s : σ) :
    k = 0 ∧ Sim (fun p q => p.2 = q.2 ∧ unpack v.outputs p.1 = some q.1) (runFn W f args s) (visitRun W n v seq args s) := by
  rw [DGVSvisit] at hf
  obtain ⟨⟨k', l⟩, h1, hf⟩ := Res.bind_eq_ok.1 hf
  cases hf
  have hn : (v.inputs.map varText).Nodup := by
    have := h.names
    unfold variables at this
    have := (List.nodup_append.1 this).1
    rwa [show v.inputs.map varText = v.inputs.map (fun a => keyText (keyOf a)) from
      List.map_congr_left fun a _ => varText_key a]
  obtain ⟨env0, h2, h3, _⟩ := params_run v.inputs args hlen [] hn
  have key := fun K s => seq_sim hon h seq [] rfl env0 K s (by intro b hb; cases hb) h1
  have k0 : k = 0 := (key (fun _ => none) s).1
  refine ⟨k0, ?_⟩
  unfold runFn visitRun
  simp only [h2, Res.bind_ok]
  rw [runStmts_append, sets_run W n v.inputs args hlen env0 s h3]
  have assoc : ∀ {α β γ : Type} (x : Res α) (f : α → Res β) (g : β → Res γ),
      ((x >>= f) >>= g) = (x >>= fun a => f a >>= g) := by intro α β γ x f g; cases x <;> rfl
  rw [assoc, assoc]
  refine (Sim.refl _).bind fun s' _ e => ?_
  subst e
  simp only [Res.bind_ok]
  refine (key _ s').2.bind fun p q hpq => ?_
  obtain ⟨env', t⟩ := p
  obtain ⟨K', t'⟩ := q
  obtain ⟨e, hinv⟩ := hpq
  dsimp only at e hinv
  subst e
  obtain ⟨ys, r, h4, h5, h6⟩ := ret_run hinv (h.visits v h.mem) h.outs
  simp only [h4, h5, Res.bind_ok]
  exact .ok ⟨rfl, h6⟩

end Verif.VisitGen
