import Verif.Lemmas.EvalGen
import Verif.Props.Ids

/-!
# Property C36: evaluation functions and missing children
-/

namespace Verif.Props
open Verif.Str Verif.Ids Verif.HT Verif.EvalGen Verif.Spec.EvalGen Verif.Spec.Ids Verif.Spec.Str

theorem fnName_congr {n : Node} {a b : ARef} (h : SameRef a b) (l : List Child) : fnName n a l = fnName n b l := by
  obtain ⟨h1, h2⟩ := h
  simp only [fnName, owner, h1, h2]

theorem name_eq_iff {a b : ARef} (ha : ∀ i, a.inode = some i → i.lwr ≠ [116, 104, 105, 115])
    (hb : ∀ i, b.inode = some i → i.lwr ≠ [116, 104, 105, 115]) :
    (get_node_name_this a = get_node_name_this b ∧ a.iattr.lwr = b.iattr.lwr) ↔ SameRef a b := by
  unfold SameRef get_node_name_this
  cases hx : a.inode with
  | none =>
    cases hy : b.inode with
    | none => simp
    | some j =>
      have := hb j hy
      simp [Ne.symm this]
  | some i =>
    have hi := ha i hx
    cases hy : b.inode with
    | none => simp [hi]
    | some j => simp

theorem get_equation_ok {a : ARef} {e : Equation} (l : List Equation) (he : e ∈ l)
    (hp : l.Pairwise fun e f => ¬ SameRef e.rule f.rule)
    (ht : ∀ e ∈ l, ∀ i, e.rule.inode = some i → i.lwr ≠ [116, 104, 105, 115]) (ha : SameRef a e.rule) :
    get_equation a l = some e := by
  have hta : ∀ i, a.inode = some i → i.lwr ≠ [116, 104, 105, 115] := by
    intro i hi
    have h1 := ha.1
    rw [hi] at h1
    cases hr : e.rule.inode with
    | none => rw [hr] at h1; simp at h1
    | some j =>
      rw [hr] at h1
      simp at h1
      rw [h1]; exact ht e he j hr
  induction l with
  | nil => simp at he
  | cons f l ih =>
    rw [List.pairwise_cons] at hp
    have hiff := name_eq_iff hta (ht f (by simp))
    have htest : (STReq (some (get_node_name_this a)) (some (get_node_name_this f.rule)) &&
        STReq (some a.iattr.lwr) (some f.rule.iattr.lwr)) = true ↔ SameRef a f.rule := by
      rw [← hiff]; simp [STReq, strcmpEq]
    simp only [List.mem_cons] at he
    rcases he with rfl | he
    · simp only [get_equation, htest.2 ha]
    · have hnot : (STReq (some (get_node_name_this a)) (some (get_node_name_this f.rule)) &&
        STReq (some a.iattr.lwr) (some f.rule.iattr.lwr)) = false := by
        rw [Bool.eq_false_iff, Ne, htest]
        intro hs
        exact hp.1 e he ⟨hs.1.symm.trans ha.1, hs.2.symm.trans ha.2⟩
      simp only [get_equation, hnot]
      exact ih he hp.2 (fun e he => ht e (by simp [he]))

/-! ### Sample node: `n` with optional children `b`, `c`, a mandatory `d`, and `this.x = f(c.v, this.y, b.v, c.w, d.v)` -/

/-- A reference of the sample. -/
def sref (inode : Option CStr) (attr : CStr) : ARef := ⟨inode.map mkId, mkId attr, mkId [116], [105, 110, 116], true⟩

/-- The equation of the sample. -/
def sEq : Equation :=
  ⟨sref none [120], [sref (some [99]) [118], sref none [121], sref (some [66]) [118], sref (some [99]) [119],
    sref (some [100]) [118]]⟩

/-- The node of the sample. -/
def sNode : Node :=
  ⟨mkId [78], [⟨64, mkId [98], false⟩, ⟨32, mkId [99], false⟩, ⟨96, mkId [100], true⟩],
    [⟨sref (some [98]) [120], []⟩, sEq]⟩

theorem sNode_ok : Resolved sNode sEq ∧ Distinct sNode ∧ Unique sNode ∧ (optionals sNode sEq).length = 2 := by
  refine ⟨?_, ?_, ⟨?_, ?_⟩, by decide⟩
  · intro a ha i hi
    simp only [sEq, List.mem_cons, List.not_mem_nil, or_false] at ha
    rcases ha with rfl | rfl | rfl | rfl | rfl <;>
      simp only [sref, Option.map_none, Option.map_some, Option.some.injEq, reduceCtorEq] at hi <;> subst hi <;> decide
  · unfold Distinct; decide
  · unfold SameRef; decide
  · intro e he i hi
    simp only [sNode, List.mem_cons, List.not_mem_nil, or_false] at he
    rcases he with rfl | rfl
    · simp only [sref, Option.map_some, Option.some.injEq] at hi; subst hi; decide
    · simp [sEq, sref] at hi

/-! ### Calls -/

/-- C36, partial: the code generated for an attribute chooses, for every pattern of missing children, the call of the
function whose name lists exactly the missing optional children the equation depends on, and passes exactly the arguments
that do not belong to them.  The value goes to the variable of the attribute and, for an attribute of the node itself, is
stored.  Missing: children spelt like `this` up to case, for which the claim is false (`C36_this_false`). -/
theorem C36_calls_partial (n : Node) (a : ARef) (e : Equation) (he : e ∈ n.equations) (ha : SameRef a e.rule)
    (hu : Unique n) (hr : Resolved n e) (hd : Distinct n) (hk : (optionals n e).length < 64)
    (hs : a.inode = none → a.syn = true) :
    ∃ out, DGVSvisit_sequence_eval n a = .ok (some out) ∧ out.type = a.type ∧
      out.var = owner a ++ [95] ++ a.iattr.lwr ∧ out.store = (if a.inode = none then some out.var else none) ∧
      ∀ isNull : CStr → Bool,
        chosen isNull out.chain = some (wantedCall n e.rule e fun c => isNull (access n c)) := by
  obtain ⟨l, h1, h2, h3⟩ := chainOf_ok hr hd a hk
  have hst : storeOf a = .ok (if a.inode = none then some (varText a) else none) := by
    unfold storeOf
    cases hi : a.inode with
    | none => simp [hs hi]
    | some i => simp
  refine ⟨⟨a.type, varText a, l, if a.inode = none then some (varText a) else none⟩, ?_, rfl, varText_eq a, rfl, ?_⟩
  · simp only [DGVSvisit_sequence_eval, get_equation_ok n.equations he hu.1 hu.2 ha, h1, hst, Res.bind_ok]
  · intro isNull
    rw [h3]
    simp only [wantedCall, fnName_congr ha]

example : sEq ∈ sNode.equations ∧ SameRef (sref none [120]) sEq.rule ∧ Unique sNode ∧ Resolved sNode sEq ∧
    Distinct sNode ∧ (optionals sNode sEq).length < 64 ∧ ((sref none [120]).inode = none → (sref none [120]).syn = true) ∧
    (wantedCall sNode sEq.rule sEq fun c => access sNode c == [78, 95, 67, 40, 110, 111, 100, 101, 41]) =
      ⟨[69, 86, 65, 76, 110, 95, 116, 104, 105, 115, 95, 120, 95, 99, 95, 78, 85, 76, 76],
        [[78, 95, 89, 40, 110, 111, 100, 101, 41],
          [84, 95, 86, 40, 78, 95, 66, 40, 110, 111, 100, 101, 41, 41],
          [84, 95, 86, 40, 78, 95, 68, 40, 110, 111, 100, 101, 41, 41]]⟩ :=
  ⟨by decide, ⟨rfl, rfl⟩, sNode_ok.2.2.1, sNode_ok.1, sNode_ok.2.1, by decide, fun _ => rfl, by decide⟩

/-- C36 is false: if a child is spelt like the keyword `this` up to case, the function of that child's equation is called
for the attribute of the node itself. -/
theorem C36_this_false : ∃ (n : Node) (a : ARef) (e : Equation) (out : Out) (isNull : CStr → Bool),
    e ∈ n.equations ∧ a = e.rule ∧ (n.equations.Pairwise fun e f => ¬ SameRef e.rule f.rule) ∧ Resolved n e ∧ Distinct n ∧
    DGVSvisit_sequence_eval n a = .ok (some out) ∧
    chosen isNull out.chain ≠ some (wantedCall n e.rule e fun c => isNull (access n c)) :=
  ⟨⟨mkId [78], [⟨64, mkId [84, 104, 105, 115], true⟩],
      [⟨sref (some [84, 104, 105, 115]) [120], []⟩, ⟨sref none [120], [sref none [121]]⟩]⟩,
    sref none [120], ⟨sref none [120], [sref none [121]]⟩, _, fun _ => false, by decide, rfl,
    by unfold SameRef; decide, by
      intro a ha i hi
      simp only [List.mem_cons, List.not_mem_nil, or_false] at ha
      subst ha
      simp [sref] at hi, by unfold Distinct; decide, rfl, by decide⟩

/-! ### Declarations -/

/-- The declaration that belongs to a pattern of missing children. -/
def wantedProto (n : Node) (e : Equation) (m : Child → Bool) : Proto :=
  ⟨e.rule.type, (wantedCall n e.rule e m).fn, if e.args = [] then none else some (wantedParams n e m)⟩

/-- C36: the header declares, for an equation that depends on `k` optional children, `2^k` functions: exactly those that
belong to patterns of missing children, with a parameter for every argument that is passed. -/
theorem C36_declared (n : Node) (e : Equation) (hr : Resolved n e) (hd : Distinct n)
    (hk : (optionals n e).length < 64) :
    ∃ l, DGEFequation n e = .ok l ∧ l.length = 2 ^ (optionals n e).length ∧ ∀ d, d ∈ l ↔ ∃ m, d = wantedProto n e m := by
  refine decls_ok hr hd hk (declOf n e) (wantedProto n e) ?_ ?_
  · intro t ks m f hp
    have hs := hp.suffix (optionals n e) (fun _ h => h)
    have hps := hp.params hr hd e.args (fun _ h => h)
    unfold declOf
    rw [hs]
    simp only [Res.bind_ok, evalName_eq, wantedProto, wantedCall, wantedParams]
    cases ha : e.args with
    | nil => simp
    | cons x xs =>
      rw [ha] at hps
      simp [hps]
  · intro m m' h
    simp only [wantedProto, wantedCall_congr h, wantedParams_congr h]

example : Resolved sNode sEq ∧ Distinct sNode ∧ (optionals sNode sEq).length = 2 ∧
    (wantedProto sNode sEq fun _ => true).params = some [([105, 110, 116], [116, 104, 105, 115, 95, 121]),
      ([105, 110, 116], [100, 95, 118])] := ⟨sNode_ok.1, sNode_ok.2.1, sNode_ok.2.2.2, by decide⟩

/-- C36: the file for the user defines functions with the same names, types and parameters. -/
theorem C36_defined (n : Node) (e : Equation) (hr : Resolved n e) (hd : Distinct n)
    (hk : (optionals n e).length < 64) :
    ∃ l, DUGEequation n e = .ok l ∧ l.length = 2 ^ (optionals n e).length ∧
      ∀ d, d ∈ l ↔ ∃ m, d = ⟨e.rule.type, (wantedCall n e.rule e m).fn, some (wantedParams n e m)⟩ := by
  refine decls_ok hr hd hk (defnOf n e)
    (fun m => ⟨e.rule.type, (wantedCall n e.rule e m).fn, some (wantedParams n e m)⟩) ?_ ?_
  · intro t ks m f hp
    have hs := hp.suffix (optionals n e) (fun _ h => h)
    have hps := hp.params hr hd e.args (fun _ h => h)
    unfold defnOf
    rw [hs, hps]
    simp only [Res.bind_ok, evalName_eq, wantedCall, wantedParams]
  · intro m m' h
    simp only [wantedCall_congr h, wantedParams_congr h]

example : Resolved sNode sEq ∧ Distinct sNode ∧ (optionals sNode sEq).length < 64 :=
  ⟨sNode_ok.1, sNode_ok.2.1, by decide⟩

/-- C36: every call of the chain is of a declared function, with as many arguments as it has parameters. -/
theorem C36_call_declared (n : Node) (a : ARef) (e : Equation) (he : e ∈ n.equations) (ha : SameRef a e.rule)
    (hu : Unique n) (hr : Resolved n e) (hd : Distinct n) (hk : (optionals n e).length < 64)
    (hs : a.inode = none → a.syn = true) (isNull : CStr → Bool) :
    ∃ out call decls d, DGVSvisit_sequence_eval n a = .ok (some out) ∧ chosen isNull out.chain = some call ∧
      DGEFequation n e = .ok decls ∧ d ∈ decls ∧ d.fn = call.fn ∧ (d.params.getD []).length = call.args.length := by
  obtain ⟨out, h1, _, _, _, h2⟩ := C36_calls_partial n a e he ha hu hr hd hk hs
  obtain ⟨l, h3, _, h4⟩ := C36_declared n e hr hd hk
  refine ⟨out, _, l, wantedProto n e fun c => isNull (access n c), h1, h2 isNull, h3, (h4 _).2 ⟨_, rfl⟩, rfl, ?_⟩
  simp only [wantedProto, wantedCall, wantedParams]
  by_cases h : e.args = []
  · simp [h]
  · simp [h]

example : sEq ∈ sNode.equations ∧ Unique sNode ∧ Resolved sNode sEq ∧ Distinct sNode :=
  ⟨by decide, sNode_ok.2.2.1, sNode_ok.1, sNode_ok.2.1⟩

/-! ### Names -/

theorem split_at (x : UInt8) (a b c d : List UInt8) (ha : x ∉ a) (hc : x ∉ c) (h : a ++ x :: b = c ++ x :: d) :
    a = c ∧ b = d := by
  induction a generalizing c with
  | nil =>
    cases c with
    | nil => simpa using h
    | cons y c => simp at h; simp [h.1] at hc
  | cons z a ih =>
    cases c with
    | nil => simp at h; simp [h.1] at ha
    | cons y c =>
      simp only [List.cons_append, List.cons.injEq] at h
      simp only [List.mem_cons, not_or] at ha hc
      obtain ⟨h1, h2⟩ := ih c ha.2 hc.2 h.2
      exact ⟨by rw [h.1, h1], h2⟩

theorem lower_no_N (s : CStr) : (78 : UInt8) ∉ s.map lowerB := by
  intro h
  obtain ⟨b, _, hb⟩ := List.mem_map.1 h
  have : ∀ b : UInt8, lowerB b ≠ 78 := by
    intro b hb
    unfold lowerB at hb
    split at hb
    · rename_i hh
      have h1 := hh.1
      have h2 := hh.2
      rw [UInt8.le_iff_toNat_le] at h1 h2
      have h3 := congrArg UInt8.toNat hb
      rw [UInt8.toNat_add] at h3
      simp at h1 h2 h3
      omega
    · rename_i hh
      subst hb
      exact hh (by decide)
  exact this b hb

theorem suffix_inj (l : List Child) : ∀ l' : List Child, (∀ c ∈ l, WfId c.name) → (∀ c ∈ l', WfId c.name) →
    (l.flatMap fun c => [95] ++ c.name.lwr ++ [95, 78, 85, 76, 76]) =
      (l'.flatMap fun c => [95] ++ c.name.lwr ++ [95, 78, 85, 76, 76]) →
    l.map (fun c => c.name.lwr) = l'.map fun c => c.name.lwr := by
  induction l with
  | nil =>
    intro l' _ _ h
    cases l' with
    | nil => rfl
    | cons c l' => simp at h
  | cons c l ih =>
    intro l' hw hw' h
    cases l' with
    | nil => simp at h
    | cons d l' =>
      have hc := (hw c (by simp)).1
      have hd := (hw' d (by simp)).1
      simp only [List.flatMap_cons, List.append_assoc, List.cons_append, List.nil_append, List.cons.injEq, true_and] at h
      have key : ∀ (s : CStr) (r : List UInt8), s ++ 95 :: 78 :: r = (s ++ [95]) ++ 78 :: r := by simp
      rw [key, key] at h
      obtain ⟨h1, h2⟩ := split_at 78 _ _ _ _ (by
        rw [hc, List.mem_append]
        rintro (h | h)
        · exact lower_no_N _ h
        · simp at h) (by
        rw [hd, List.mem_append]
        rintro (h | h)
        · exact lower_no_N _ h
        · simp at h) h
      have h1 : c.name.lwr = d.name.lwr := List.append_cancel_right h1
      simp only [List.cons.injEq, true_and] at h2
      simp only [List.map_cons, h1, ih l' (fun c hc => hw c (by simp [hc])) (fun c hc => hw' c (by simp [hc])) h2]

/-- C36: the functions of one equation have different names: the name tells which children are missing. -/
theorem C36_distinct (n : Node) (e : Equation) (hw : ∀ c ∈ n.children, WfId c.name)
    (hn : ∀ c ∈ n.children, ∀ d ∈ n.children, c.name.lwr = d.name.lwr → c = d) (m m' : Child → Bool)
    (h : (wantedCall n e.rule e m).fn = (wantedCall n e.rule e m').fn) :
    ∀ c ∈ optionals n e, m c = m' c := by
  simp only [wantedCall, fnName] at h
  have h := List.append_cancel_left h
  have h := suffix_inj _ _ (fun c hc => hw c (optionals_mem (List.mem_filter.1 hc).1).1)
    (fun c hc => hw c (optionals_mem (List.mem_filter.1 hc).1).1) h
  have one : ∀ m m' : Child → Bool, ((optionals n e).filter m).map (fun c => c.name.lwr) =
      ((optionals n e).filter m').map (fun c => c.name.lwr) → ∀ c ∈ optionals n e, m c = true → m' c = true := by
    intro m m' h c hc hm
    have h1 : c.name.lwr ∈ ((optionals n e).filter m).map fun c => c.name.lwr :=
      List.mem_map.2 ⟨c, List.mem_filter.2 ⟨hc, hm⟩, rfl⟩
    rw [h] at h1
    obtain ⟨d, hd, hdc⟩ := List.mem_map.1 h1
    obtain ⟨hd1, hd2⟩ := List.mem_filter.1 hd
    have := hn d (optionals_mem hd1).1 c (optionals_mem hc).1 hdc
    exact this ▸ hd2
  intro c hc
  cases h1 : m c with
  | true => exact (one m m' h c hc h1).symm
  | false =>
    cases h2 : m' c with
    | false => rfl
    | true => rw [one m' m h.symm c hc h2] at h1; exact absurd h1 (by simp)

example : (∀ c ∈ sNode.children, WfId c.name) ∧
    (∀ c ∈ sNode.children, ∀ d ∈ sNode.children, c.name.lwr = d.name.lwr → c = d) ∧
    ¬ ∀ c ∈ optionals sNode sEq, (fun c : Child => c.addr == 32) c = (fun _ => false) c := by
  refine ⟨?_, by decide, by decide⟩
  intro c hc
  simp only [sNode, List.mem_cons, List.not_mem_nil, or_false] at hc
  rcases hc with rfl | rfl | rfl <;> exact ⟨rfl, rfl⟩

/-- C36: names of functions of different equations can be equal: `b.c_d` and `b_c.d` of a node `a` share the function
`EVALa_b_c_d`, declared with different parameters. -/
theorem C36_names_false : ∃ (n : Node) (e f : Equation) (le lf : List Proto) (d d' : Proto),
    e ∈ n.equations ∧ f ∈ n.equations ∧ ¬ SameRef e.rule f.rule ∧ Unique n ∧ Distinct n ∧
    DGEFequation n e = .ok le ∧ DGEFequation n f = .ok lf ∧ d ∈ le ∧ d' ∈ lf ∧ d.fn = d'.fn ∧ d.params ≠ d'.params :=
  ⟨⟨mkId [97], [⟨64, mkId [98], true⟩, ⟨32, mkId [98, 95, 99], true⟩],
      [⟨sref (some [98]) [99, 95, 100], []⟩, ⟨sref (some [98, 95, 99]) [100], [sref none [121]]⟩]⟩,
    ⟨sref (some [98]) [99, 95, 100], []⟩, ⟨sref (some [98, 95, 99]) [100], [sref none [121]]⟩,
    _, _, ⟨[105, 110, 116], [69, 86, 65, 76, 97, 95, 98, 95, 99, 95, 100], none⟩,
    ⟨[105, 110, 116], [69, 86, 65, 76, 97, 95, 98, 95, 99, 95, 100], some [([105, 110, 116], [116, 104, 105, 115, 95, 121])]⟩,
    by decide, by decide, by unfold SameRef; decide, ⟨by unfold SameRef; decide, by
      intro e he i hi
      simp only [List.mem_cons, List.not_mem_nil, or_false] at he
      rcases he with rfl | rfl <;> simp only [sref, Option.map_some, Option.some.injEq] at hi <;> subst hi <;> decide⟩,
    by unfold Distinct; decide, rfl, rfl, by decide, by decide, rfl, by decide⟩

/-! ### Too many children -/

/-- C36: with 64 optional children or more, the generator runs into undefined behaviour. -/
theorem C36_too_many (n : Node) (a : ARef) (e : Equation) (hr : Resolved n e) (hd : Distinct n)
    (hk : 64 ≤ (optionals n e).length) (hl : (optionals n e).length < 2 ^ 64) :
    (chainOf n a e).isUB = true ∧ (DGEFequation n e).isUB = true ∧ (DUGEequation n e).isUB = true := by
  obtain ⟨t, ks, hc, hm, _, hlen⟩ := collect_ok hr hd hl
  have hcount := hm.toNat
  have hcomb : combinations t = .ub "shift by the word size or more" := by
    have h : ¬ ks.length < 64 := by omega
    simp only [combinations, hcount, h, decide_false]
  have h0 : (HTelementCount t == 0) = false := by
    rw [Bool.eq_false_iff, Ne, beq_iff_eq]
    intro h
    rw [h] at hcount
    have : (0 : UInt64).toNat = 0 := rfl
    omega
  refine ⟨?_, ?_, ?_⟩
  · simp only [chainOf, hc, Res.bind_ok, h0, hcomb, Res.bind_ub, Res.isUB]
  · simp only [DGEFequation, hc, Res.bind_ok, hcomb, Res.bind_ub, Res.isUB]
  · simp only [DUGEequation, hc, Res.bind_ok, hcomb, Res.bind_ub, Res.isUB]

/-- A node with 64 optional children and an equation that depends on all of them. -/
def bigEq : Equation := ⟨sref none [120], (List.range 64).map fun i => sref (some [UInt8.ofNat i]) [118]⟩

/-- The node of `bigEq`. -/
def bigNode : Node := ⟨mkId [78], (List.range 64).map fun i => ⟨UInt64.ofNat i, mkId [UInt8.ofNat i], false⟩, [bigEq]⟩

example : Resolved bigNode bigEq ∧ Distinct bigNode ∧ 64 ≤ (optionals bigNode bigEq).length ∧
    (optionals bigNode bigEq).length < 2 ^ 64 := by
  refine ⟨?_, by unfold Distinct; decide +kernel, by decide +kernel, by decide +kernel⟩
  intro a ha i hi
  obtain ⟨k, hk, rfl⟩ := List.mem_map.1 ha
  simp only [sref, Option.map_some, Option.some.injEq] at hi
  exact ⟨_, List.mem_map.2 ⟨k, hk, rfl⟩, by rw [← hi]⟩

end Verif.Props
