import Verif.Lemmas.VisitGenRun

/-!
# Lemmas on generated visit functions: what a C compiler accepts
-/

namespace Verif.VisitGen
open Verif.Str Verif.Ids Verif.EvalGen Verif.Spec.EvalGen Verif.Spec.VisitGen Verif.Spec.Ids

/-! ### Names of visits -/

theorem digit_byte {c : Char} (h : c.isDigit = true) :
    (UInt8.ofNat c.toNat) ≠ 95 ∧ Char.ofNat (UInt8.ofNat c.toNat).toNat = c := by
  have h1 : 48 ≤ c.toNat ∧ c.toNat ≤ 57 := by
    simp only [Char.isDigit, Bool.and_eq_true, decide_eq_true_eq] at h
    have a := h.1
    have b := h.2
    simp only [UInt32.le_iff_toNat_le] at a b
    exact ⟨a, b⟩
  have h2 : (UInt8.ofNat c.toNat).toNat = c.toNat := by
    rw [UInt8.toNat_ofNat']
    omega
  refine ⟨fun e => ?_, by rw [h2, Char.ofNat_toNat]⟩
  have := congrArg UInt8.toNat e
  rw [h2] at this
  have h3 : (95 : UInt8).toNat = 95 := rfl
  omega

theorem decNat_inj {a b : Nat} (h : Cti.decNat a = Cti.decNat b) : a = b := by
  have inv : ∀ n, (Cti.decNat n).map (fun x => Char.ofNat x.toNat) = Nat.toDigits 10 n := by
    intro n
    unfold Cti.decNat
    rw [List.map_map]
    conv => rhs; rw [← List.map_id (Nat.toDigits 10 n)]
    exact List.map_congr_left fun c hc => (digit_byte (Nat.isDigit_of_mem_toDigits (by omega) (by omega) hc)).2
  have : Nat.toDigits 10 a = Nat.toDigits 10 b := by rw [← inv, ← inv, h]
  rw [← Nat.ofDigitChars_ten_toDigits (n := a), this, Nat.ofDigitChars_ten_toDigits]

theorem decNat_no_underscore (n : Nat) : (95 : UInt8) ∉ Cti.decNat n := by
  intro h
  unfold Cti.decNat at h
  obtain ⟨c, hc, e⟩ := List.mem_map.1 h
  exact (digit_byte (Nat.isDigit_of_mem_toDigits (by omega) (by omega) hc)).1 e

theorem visitName_inj {v w : Visit} (h : visitName v = visitName w) : v.inode.lwr = w.inode.lwr ∧ v.index = w.index := by
  unfold visitName at h
  rw [List.append_assoc, List.append_assoc, List.append_assoc, List.append_assoc] at h
  have h := List.append_cancel_left h
  have hr := congrArg List.reverse h
  simp only [List.reverse_append, List.reverse_cons, List.nil_append, List.append_assoc,
    List.cons_append] at hr
  have := Props.split_at 95 _ _ _ _ (by simpa using decNat_no_underscore v.index)
    (by simpa using decNat_no_underscore w.index) hr
  exact ⟨List.reverse_inj.1 this.2, decNat_inj (List.reverse_inj.1 this.1)⟩

theorem outTag_inj {v w : Visit} (h : outTag v = outTag w) : visitName v = visitName w := List.append_cancel_right h

theorem outVar_inj {v w : Visit} (h : outVar v = outVar w) : visitName v = visitName w := List.append_cancel_right h

theorem visit_unique {vs : List Visit} (ha : Apart vs) {v w : Visit} (hv : v ∈ vs) (hw : w ∈ vs)
    (h : visitName v = visitName w) : v = w := by
  obtain ⟨h1, h2⟩ := visitName_inj h
  unfold Apart at ha
  induction vs with
  | nil => cases hv
  | cons x vs ih =>
    rw [List.pairwise_cons] at ha
    rcases List.mem_cons.1 hv with ev | hv' <;> rcases List.mem_cons.1 hw with ew | hw'
    · rw [ev, ew]
    · exact absurd (ev ▸ h2) (ha.1 w hw' (ev ▸ h1))
    · exact absurd (ew ▸ h2.symm) (ha.1 v hv' (ew ▸ h1.symm))
    · exact ih ha.2 hv' hw'

theorem lookupDecl_ok {vs : List Visit} (ha : Apart vs) {v : Visit} (hv : v ∈ vs) :
    lookupDecl (vs.map DGVFvisit) (visitName v) = .ok (DGVFvisit v) := by
  unfold lookupDecl
  cases h : (vs.map DGVFvisit).find? fun d => d.name == visitName v with
  | none =>
    rw [List.find?_eq_none] at h
    exact absurd (by simp [DGVFvisit]) (h _ (List.mem_map_of_mem hv))
  | some d =>
    have h1 := List.find?_some h
    obtain ⟨w, hw, rfl⟩ := List.mem_map.1 (List.mem_of_find?_eq_some h)
    have : visitName w = visitName v := by simpa [DGVFvisit] using h1
    rw [visit_unique ha hw hv this]

theorem lookupStruct_ok {vs : List Visit} (ha : Apart vs) {v : Visit} (hv : v ∈ vs) (hl : 2 ≤ v.outputs.length) :
    lookupStruct (vs.map DGVFvisit) (outTag v) = .ok (DGVFvisit v) := by
  have ht : (DGVFvisit v).type = .struct (outTag v) := by
    unfold DGVFvisit returnType
    match ho : v.outputs with
    | [] => rw [ho] at hl; simp at hl
    | [a] => rw [ho] at hl; simp at hl
    | _ :: _ :: _ => rfl
  unfold lookupStruct
  cases h : (vs.map DGVFvisit).find? fun d => d.type == .struct (outTag v) with
  | none =>
    rw [List.find?_eq_none] at h
    exact absurd (by simp [ht]) (h _ (List.mem_map_of_mem hv))
  | some d =>
    have h1 := List.find?_some h
    obtain ⟨w, hw, rfl⟩ := List.mem_map.1 (List.mem_of_find?_eq_some h)
    have h2 : (DGVFvisit w).type = .struct (outTag v) := by simpa using h1
    have h3 : outTag w = outTag v := by
      unfold DGVFvisit returnType at h2
      match ho : w.outputs with
      | [] => rw [ho] at h2; cases h2
      | [a] => rw [ho] at h2; cases h2
      | _ :: _ :: _ =>
        rw [ho] at h2
        simp only at h2
        exact RType.struct.inj h2
    rw [visit_unique ha hw hv (outTag_inj h3)]

/-! ### Variables in scope -/

theorem usable_cons (x : CStr × Option CStr) (s : Scope) (v : CStr) :
    usable (x :: s) v = if x.1 = v then .ok x.2 else usable s v := by
  unfold usable
  rw [List.find?_cons]
  by_cases h : x.1 = v
  · simp [h]
  · have : (x.1 == v) = false := by simpa using h
    simp [h, this]

theorem usableAll_ok {s : Scope} (l : List CStr) (h : ∀ v ∈ l, usable s v = .ok none) : usableAll s l = .ok () := by
  induction l with
  | nil => rfl
  | cons v l ih => rw [usableAll, h v List.mem_cons_self, Res.bind_ok, ih (fun w hw => h w (List.mem_cons_of_mem _ hw))]

theorem declare_ok {here : Scope} {v : CStr} (h : ∀ x ∈ here, x.1 ≠ v) (tag : Option CStr) :
    declare here v tag = .ok ((v, tag) :: here) := by
  unfold declare
  have : (here.any fun x => x.1 == v) = false := by
    rw [List.any_eq_false]
    intro x hx
    simpa using h x hx
  rw [this]

/-- The variables of the outermost block: `A` for attributes, and the structures of the visits `S`. -/
structure Scoped (A : List CStr) (S : List Visit) (here : Scope) : Prop where
  only : ∀ x ∈ here, (x.1 ∈ A ∧ x.2 = none) ∨ ∃ w ∈ S, x.1 = outVar w
  all : ∀ t ∈ A, t ∈ here.map (·.1)

theorem Scoped.usable {A : List CStr} {S : List Visit} {here : Scope} (h : Scoped A S here) {t : CStr} (ht : t ∈ A)
    (ho : ∀ w, t ≠ outVar w) : usable here t = .ok none := by
  unfold VisitGen.usable
  cases hf : here.find? fun x => x.1 == t with
  | none =>
    rw [List.find?_eq_none] at hf
    obtain ⟨x, hx, e⟩ := List.mem_map.1 (h.all t ht)
    exact absurd (by simpa using e) (hf x hx)
  | some x =>
    have e : x.1 = t := by simpa using List.find?_some hf
    rcases h.only x (List.mem_of_find?_eq_some hf) with h1 | ⟨w, _, h1⟩
    · rw [← h1.2]
    · exact absurd (e.symm.trans h1) (ho w)

theorem Scoped.fresh {A : List CStr} {S : List Visit} {here : Scope} (h : Scoped A S here) {t : CStr} (ht : t ∉ A)
    (ho : ∀ w ∈ S, t ≠ outVar w) : ∀ x ∈ here, x.1 ≠ t := by
  intro x hx e
  rcases h.only x hx with h1 | ⟨w, hw, h1⟩
  · exact ht (e ▸ h1.1)
  · exact ho w hw (e.symm.trans h1)

theorem Scoped.var {A : List CStr} {S : List Visit} {here : Scope} (h : Scoped A S here) (t : CStr) :
    Scoped (A ++ [t]) S ((t, none) :: here) := by
  refine ⟨fun x hx => ?_, fun u hu => ?_⟩
  · rcases List.mem_cons.1 hx with rfl | hx
    · exact .inl ⟨by simp, rfl⟩
    · exact (h.only x hx).imp_left fun h1 => ⟨List.mem_append_left _ h1.1, h1.2⟩
  · rw [List.mem_append, List.mem_singleton] at hu
    rw [List.map_cons, List.mem_cons]
    rcases hu with hu | rfl
    · exact .inr (h.all u hu)
    · exact .inl rfl

theorem Scoped.struct {A : List CStr} {S : List Visit} {here : Scope} (h : Scoped A S here) (w : Visit)
    (tag : Option CStr) : Scoped A (S ++ [w]) ((outVar w, tag) :: here) := by
  refine ⟨fun x hx => ?_, fun u hu => List.mem_cons_of_mem _ (h.all u hu)⟩
  rcases List.mem_cons.1 hx with rfl | hx
  · exact .inr ⟨w, by simp, rfl⟩
  · exact (h.only x hx).imp_right fun ⟨w', h1, h2⟩ => ⟨w', List.mem_append_left _ h1, h2⟩

/-! ### Calls -/

theorem field_decl {w : Visit} (hl : 2 ≤ w.outputs.length) {a : ARef} (ha : a ∈ w.outputs) :
    ((DGVFvisit w).fields.any fun f => f.2 == varText a) = true := by
  unfold DGVFvisit declFields
  match ho : w.outputs with
  | [] => rw [ho] at hl; simp at hl
  | [a] => rw [ho] at hl; simp at hl
  | x :: y :: l =>
    rw [List.any_eq_true]
    refine ⟨argument a, ?_, by simp [argument]⟩
    exact List.mem_map_of_mem (f := argument) (ho ▸ ha)

theorem params_len (w : Visit) : (w.inputs.map f).length = (DGVFvisit w).params.length := by simp [DGVFvisit]

/-- In a block of its own, with the variables declared outside. -/
theorem call_check_in {vs : List Visit} (ha : Apart vs) {c : Child} {w : Visit} (hw : w ∈ vs) (hc : WfId c.name)
    {outputs : List ARef} (hne : w.outputs ≠ [] → outputs ≠ []) (expr : CStr) (outer : Scope)
    (hin : ∀ x ∈ w.inputs.map (childVar c), usable outer x = .ok none)
    (hout : ∀ x ∈ outputs.map (childVar c), usable outer x = .ok none) :
    ∃ b fs here, bindOf c w outputs false = .ok b ∧ manyFields c w outputs false = .ok fs ∧
      checkSimples (vs.map DGVFvisit) outer [] (.call b (visitName w) expr (w.inputs.map (childVar c)) :: fs) = .ok here := by
  have hlen : ((w.inputs.map (childVar c)).length == (DGVFvisit w).params.length) = true := by simp [DGVFvisit]
  match ho : w.outputs with
  | [] =>
    refine ⟨.none, [], [], by rw [bindOf, ho], by rw [manyFields, ho], ?_⟩
    simp only [checkSimples, checkSimple, lookupDecl_ok ha hw, Res.bind_ok, bindDeclare, bindFits, List.nil_append,
      usableAll_ok _ hin, hlen]
  | [o] =>
    have hne' := hne (by rw [ho]; simp)
    have ht : (DGVFvisit w).type = .one o.type := by simp [DGVFvisit, returnType, ho]
    cases hd : outputs.any fun c => o.iattr.lwr == c.iattr.lwr with
    | false =>
      refine ⟨.none, [], [], by rw [bindOf, ho]; simp only [is_desired_ok hne', hd, Res.bind_ok], by rw [manyFields, ho], ?_⟩
      simp only [checkSimples, checkSimple, lookupDecl_ok ha hw, Res.bind_ok, bindDeclare, bindFits, List.nil_append,
        usableAll_ok _ hin, hlen]
    | true =>
      refine ⟨.var none (childVar c o), [], [], by rw [bindOf, ho]; simp only [is_desired_ok hne', hd, Res.bind_ok, declType],
        by rw [manyFields, ho], ?_⟩
      simp only [checkSimples, checkSimple, lookupDecl_ok ha hw, Res.bind_ok, bindDeclare, bindFits, List.nil_append,
        usableAll_ok _ hin, hlen, hout _ (desired_var hd), ht]
  | o :: o' :: os =>
    have hne' := hne (by rw [ho]; simp)
    have hl2 : 2 ≤ w.outputs.length := by rw [ho]; simp
    have ht : (DGVFvisit w).type = .struct (outTag w) := by simp [DGVFvisit, returnType, ho]
    have hskip : ∀ x, usable outer x = .ok none → (∃ a, x = childVar c a) →
        usable ([(outVar w, some (outTag w))] ++ outer) x = .ok none := by
      rintro x hx ⟨a, rfl⟩
      rw [List.cons_append, usable_cons, if_neg (fun e => childVar_ne_outVar hc a w e.symm)]
      exact hx
    have hin' : ∀ x ∈ w.inputs.map (childVar c), usable ([(outVar w, some (outTag w))] ++ outer) x = .ok none := by
      intro x hx
      obtain ⟨a, _, e⟩ := List.mem_map.1 hx
      exact hskip x (hin x hx) ⟨a, e.symm⟩
    have hfields : ∀ l : List ARef, (∀ a ∈ l, a ∈ w.outputs ∧ des outputs a = true) →
        checkSimples (vs.map DGVFvisit) outer [(outVar w, some (outTag w))]
          (l.map fun a => .field (declType false a) (childVar c a) (outVar w) (varText a)) =
            .ok [(outVar w, some (outTag w))] := by
      intro l hl
      induction l with
      | nil => rfl
      | cons a l ih =>
        obtain ⟨h1, h2⟩ := hl a List.mem_cons_self
        have h3 := hskip _ (hout _ (desired_var (c := c) h2)) ⟨a, rfl⟩
        have h4 : usable ([(outVar w, some (outTag w))] ++ outer) (outVar w) = .ok (some (outTag w)) := by
          rw [List.cons_append, usable_cons, if_pos rfl]
        simp only [List.map_cons, checkSimples, checkSimple, fieldDeclare, declType, Res.bind_ok, h3, h4,
          lookupStruct_ok ha hw hl2, field_decl hl2 h1]
        exact ih (fun b hb => hl b (List.mem_cons_of_mem _ hb))
    refine ⟨.struct (outTag w) (outVar w), _, [(outVar w, some (outTag w))], by rw [bindOf, ho],
      by rw [manyFields, ho]; exact fieldsOf_ok c w hne' false _, ?_⟩
    have hdecl : declare [] (outVar w) (some (outTag w)) = .ok [(outVar w, some (outTag w))] := rfl
    simp only [checkSimples, checkSimple, lookupDecl_ok ha hw, Res.bind_ok, bindDeclare, hdecl, bindFits, ht,
      beq_self_eq_true, usableAll_ok _ hin', hlen]
    refine hfields _ fun a h => ?_
    rw [← ho] at h
    exact List.mem_filter.1 h

/-- In the outermost block, with the declaration of the variables. -/
theorem call_check_out {vs : List Visit} (ha : Apart vs) {c : Child} {w : Visit} (hw : w ∈ vs) (hc : WfId c.name)
    (expr : CStr) {A : List CStr} {S : List Visit} {here : Scope} (hs : Scoped A S here)
    (hin : ∀ x ∈ w.inputs.map (childVar c), x ∈ A) (hnew : ∀ x ∈ w.outputs.map (childVar c), x ∉ A)
    (hnod : (w.outputs.map (childVar c)).Nodup) (hS : 2 ≤ w.outputs.length → ∀ w' ∈ S, outVar w ≠ outVar w')
    (hA : ∀ t ∈ A, ∀ w', t ≠ outVar w') :
    ∃ b fs here', bindOf c w w.outputs true = .ok b ∧ manyFields c w w.outputs true = .ok fs ∧
      checkSimples (vs.map DGVFvisit) [] here (.call b (visitName w) expr (w.inputs.map (childVar c)) :: fs) = .ok here' ∧
      Scoped (A ++ w.outputs.map (childVar c)) (S ++ if 2 ≤ w.outputs.length then [w] else []) here' := by
  have hlen : ((w.inputs.map (childVar c)).length == (DGVFvisit w).params.length) = true := by simp [DGVFvisit]
  have use : ∀ {A' : List CStr} {S' : List Visit} {here' : Scope}, Scoped A' S' here' → (∀ x ∈ A, x ∈ A') →
      usableAll (here' ++ []) (w.inputs.map (childVar c)) = .ok () := by
    intro A' S' here' h1 h2
    rw [List.append_nil]
    exact usableAll_ok _ fun x hx => h1.usable (h2 x (hin x hx)) (hA x (hin x hx))
  match ho : w.outputs with
  | [] =>
    refine ⟨.none, [], here, by rw [bindOf, ho], by rw [manyFields, ho], ?_, by simpa using hs⟩
    simp only [checkSimples, checkSimple, lookupDecl_ok ha hw, Res.bind_ok, bindDeclare, bindFits, use hs (fun _ h => h), hlen]
  | [o] =>
    have ht : (DGVFvisit w).type = .one o.type := by simp [DGVFvisit, returnType, ho]
    have hs' := hs.var (childVar c o)
    refine ⟨.var (some o.type) (childVar c o), [], (childVar c o, none) :: here, by rw [bindOf, ho]; rfl,
      by rw [manyFields, ho], ?_, by simpa using hs'⟩
    have hfresh := hs.fresh (hnew (childVar c o) (by rw [ho]; simp)) (fun w' _ => childVar_ne_outVar hc o w')
    have hu : usable ((childVar c o, none) :: here ++ []) (childVar c o) = .ok none := by
      rw [List.cons_append, usable_cons, if_pos rfl]
    simp only [checkSimples, checkSimple, lookupDecl_ok ha hw, Res.bind_ok, bindDeclare, declare_ok hfresh, bindFits, hu, ht,
      use hs' (fun _ h => List.mem_append_left _ h), hlen]
  | o :: o' :: os =>
    have hl2 : 2 ≤ w.outputs.length := by rw [ho]; simp
    have hne : w.outputs ≠ [] := by rw [ho]; simp
    have ht : (DGVFvisit w).type = .struct (outTag w) := by simp [DGVFvisit, returnType, ho]
    have hs' := hs.struct w (some (outTag w))
    have hfresh := hs.fresh (fun h => hA _ h w rfl) (hS hl2)
    have hall : w.outputs.filter (des w.outputs) = w.outputs := by
      rw [List.filter_eq_self]
      intro a ha'
      exact desired_self ha'
    have hfields : ∀ (l pre : List ARef) (here' : Scope), w.outputs = pre ++ l →
        Scoped (A ++ pre.map (childVar c)) (S ++ [w]) here' → usable here' (outVar w) = .ok (some (outTag w)) →
        ∃ here'', checkSimples (vs.map DGVFvisit) [] here'
            (l.map fun a => .field (declType true a) (childVar c a) (outVar w) (varText a)) = .ok here'' ∧
          Scoped (A ++ w.outputs.map (childVar c)) (S ++ [w]) here'' := by
      intro l
      induction l with
      | nil =>
        intro pre here' e h1 _
        rw [e, List.append_nil]
        exact ⟨here', rfl, h1⟩
      | cons a l ih =>
        intro pre here' e h1 h2
        have hmem : a ∈ w.outputs := by rw [e]; simp
        have hnot : childVar c a ∉ A ++ pre.map (childVar c) := by
          rw [List.mem_append, not_or]
          refine ⟨hnew _ (List.mem_map_of_mem hmem), fun hm => ?_⟩
          rw [e, List.map_append, List.map_cons] at hnod
          exact (List.nodup_append.1 hnod).2.2 _ hm _ List.mem_cons_self rfl
        have hfr := h1.fresh hnot (fun w' _ => childVar_ne_outVar hc a w')
        have hu1 : usable ((childVar c a, none) :: here' ++ []) (childVar c a) = .ok none := by
          rw [List.cons_append, usable_cons, if_pos rfl]
        have hu2 : usable ((childVar c a, none) :: here' ++ []) (outVar w) = .ok (some (outTag w)) := by
          rw [List.append_nil, usable_cons, if_neg (childVar_ne_outVar hc a w), h2]
        simp only [List.map_cons, checkSimples, checkSimple, fieldDeclare, declType, declare_ok hfr, Res.bind_ok, hu1, hu2,
          lookupStruct_ok ha hw hl2, field_decl hl2 hmem]
        refine ih (pre ++ [a]) _ (by rw [e]; simp) ?_ (by rw [List.append_nil] at hu2; exact hu2)
        have := h1.var (childVar c a)
        rwa [List.append_assoc, ← List.map_singleton (f := childVar c), ← List.map_append] at this
    obtain ⟨here'', h3, h4⟩ := hfields w.outputs [] ((outVar w, some (outTag w)) :: here) rfl (by simpa using hs')
      (by rw [usable_cons, if_pos rfl])
    refine ⟨.struct (outTag w) (outVar w), _, here'', by rw [bindOf, ho],
      by rw [manyFields, ho]; exact fieldsOf_ok c w (by rw [← ho]; exact hne) true _, ?_, by rw [if_pos (by simp), ← ho]; exact h4⟩
    simp only [checkSimples, checkSimple, lookupDecl_ok ha hw, Res.bind_ok, bindDeclare, declare_ok hfresh, bindFits, ht,
      beq_self_eq_true, use hs' (fun _ h => h), hlen]
    rw [← ho, hall]
    exact h3

/-! ### Visits of children -/

theorem checkStmts_append (h : List Decl) (l l' : List Stmt) (here : Scope) :
    checkStmts h here (l ++ l') = (checkStmts h here l >>= fun here => checkStmts h here l') := by
  induction l generalizing here with
  | nil => rfl
  | cons x l ih =>
    simp only [List.cons_append, checkStmts]
    cases checkStmt h here x with
    | ok here' => simp only [Res.bind_ok, ih]
    | ub w => rfl
    | abort w => rfl
    | diverge => rfl

theorem decls_check (h : List Decl) {c : Child} (hc : WfId c.name) (l : List ARef) {A : List CStr} {S : List Visit}
    {here : Scope} (hs : Scoped A S here) (hnew : ∀ x ∈ l.map (childVar c), x ∉ A) (hnod : (l.map (childVar c)).Nodup) :
    ∃ here', checkStmts h here (l.map fun a => .simple (.decl a.type (childVar c a))) = .ok here' ∧
      Scoped (A ++ l.map (childVar c)) S here' := by
  induction l generalizing A here with
  | nil => exact ⟨here, rfl, by simpa using hs⟩
  | cons a l ih =>
    rw [List.map_cons, List.nodup_cons] at hnod
    have hfr := hs.fresh (hnew _ (by simp)) (fun w' _ => childVar_ne_outVar hc a w')
    obtain ⟨here', h1, h2⟩ := ih (hs.var (childVar c a)) (by
      intro x hx hm
      rw [List.mem_append, List.mem_singleton] at hm
      rcases hm with hm | rfl
      · exact hnew x (List.mem_cons_of_mem _ hx) hm
      · exact hnod.1 hx) hnod.2
    refine ⟨here', ?_, by rw [List.append_assoc] at h2; exact h2⟩
    simp only [List.map_cons, checkStmts, checkStmt, checkSimple, declare_ok hfr, Res.bind_ok, h1]

theorem alts_check {vs : List Visit} (ha : Apart vs) (n : Node) {c : Child} (hc : WfId c.name) {outputs : List ARef}
    (outer : Scope) (alts : List Alt) (hmem : ∀ w ∈ visitsOf alts, w ∈ vs)
    (hne : ∀ w ∈ visitsOf alts, w.outputs ≠ [] → outputs ≠ [])
    (hin : ∀ w ∈ visitsOf alts, ∀ x ∈ w.inputs.map (childVar c), usable outer x = .ok none)
    (hout : ∀ x ∈ outputs.map (childVar c), usable outer x = .ok none) :
    ∃ l, altLoop n c outputs alts = .ok l ∧ checkAlts (vs.map DGVFvisit) outer l = .ok () := by
  induction alts with
  | nil => exact ⟨[], rfl, rfl⟩
  | cons x alts ih =>
    cases x with
    | dummy i =>
      obtain ⟨l, h1, h2⟩ := ih hmem hne hin
      exact ⟨(ntText i, []) :: l, by simp only [altLoop, h1, Res.bind_ok], by
        simp only [checkAlts, checkSimples, Res.bind_ok, h2]⟩
    | visit w =>
      have hsub : ∀ w' ∈ visitsOf alts, w' ∈ visitsOf (.visit w :: alts) := fun w' h => by
        unfold visitsOf at *
        rw [List.filterMap_cons]
        exact List.mem_cons_of_mem _ h
      have hw : w ∈ visitsOf (.visit w :: alts) := by
        unfold visitsOf
        rw [List.filterMap_cons]
        exact List.mem_cons_self
      obtain ⟨l, h1, h2⟩ := ih (fun w' h => hmem w' (hsub w' h)) (fun w' h => hne w' (hsub w' h))
        (fun w' h => hin w' (hsub w' h))
      obtain ⟨b, fs, here, h3, h4, h5⟩ := call_check_in ha (hmem w hw) hc (hne w hw) (childText n c) outer (hin w hw) hout
      exact ⟨_, by simp only [altLoop, print_visit_call, h3, h4, h1, Res.bind_ok]; rfl, by
        simp only [checkAlts, h5, Res.bind_ok, h2]⟩

theorem visit_check {vs : List Visit} (ha : Apart vs) (n : Node) {c : Child} (hc : WfId c.name) {v : Visit}
    {rest : List Alt} {A : List CStr} {S : List Visit} {here : Scope} (hs : Scoped A S here)
    (hmem : ∀ w ∈ visitsOf (.visit v :: rest), w ∈ vs)
    (hne : ∀ w ∈ visitsOf (.visit v :: rest), w.outputs ≠ [] → v.outputs ≠ [])
    (hin : ∀ w ∈ visitsOf (.visit v :: rest), ∀ x ∈ w.inputs.map (childVar c), x ∈ A)
    (hnew : ∀ x ∈ v.outputs.map (childVar c), x ∉ A) (hnod : (v.outputs.map (childVar c)).Nodup)
    (hS : ∀ w ∈ structs [.visit c (.visit v :: rest)], ∀ w' ∈ S, outVar w ≠ outVar w')
    (hA : ∀ t ∈ A, ∀ w', t ≠ outVar w') :
    ∃ l here', seqVisit n c (.visit v :: rest) = .ok l ∧ checkStmts (vs.map DGVFvisit) here l = .ok here' ∧
      Scoped (A ++ v.outputs.map (childVar c)) (S ++ structs [.visit c (.visit v :: rest)]) here' := by
  have hv : v ∈ visitsOf (.visit v :: rest) := by
    unfold visitsOf
    rw [List.filterMap_cons]
    exact List.mem_cons_self
  obtain ⟨here1, hd1, hd2⟩ := decls_check (vs.map DGVFvisit) hc v.outputs hs hnew hnod
  have huse : ∀ x ∈ A ++ v.outputs.map (childVar c), usable here1 x = .ok none := by
    intro x hx
    refine hd2.usable hx fun w' => ?_
    rcases List.mem_append.1 hx with hx | hx
    · exact hA x hx w'
    · obtain ⟨a, _, rfl⟩ := List.mem_map.1 hx
      exact childVar_ne_outVar hc a w'
  have hin1 : ∀ w ∈ visitsOf (.visit v :: rest), ∀ x ∈ w.inputs.map (childVar c), usable here1 x = .ok none :=
    fun w hw x hx => huse x (List.mem_append_left _ (hin w hw x hx))
  have hout1 : ∀ x ∈ v.outputs.map (childVar c), usable here1 x = .ok none :=
    fun x hx => huse x (List.mem_append_right _ hx)
  cases rest with
  | nil =>
    cases hm : c.mandatory with
    | true =>
      have hst : structs [.visit c [.visit v]] = if 2 ≤ v.outputs.length then [v] else [] := by
        unfold structs
        by_cases h2 : 2 ≤ v.outputs.length <;> simp [hm, h2]
      obtain ⟨b, fs, here', h1, h2, h3, h4⟩ := call_check_out ha (hmem v hv) hc (childText n c) hs (hin v hv) hnew hnod
        (fun h2 => hS v (by rw [hst, if_pos h2]; simp)) hA
      refine ⟨_, here', by simp only [seqVisit, DGVSvisit_sequence_visit, visitBody, print_visit_call, hm, h1, h2, Res.bind_ok]; rfl,
        ?_, by rw [hst]; exact h4⟩
      have hvd : visitDecls c v [] = [] := by simp [visitDecls, hm]
      simp only [hvd, List.nil_append, checkStmts, checkStmt, checkBody]
      rw [checkSimples, checkSimple, Res.bind_ok, h3, Res.bind_ok]
    | false =>
      have hst : structs [.visit c [.visit v]] = [] := by
        unfold structs
        simp [hm]
      obtain ⟨b, fs, here', h1, h2, h3⟩ := call_check_in ha (hmem v hv) hc (fun h => h) (childText n c) here1 (hin1 v hv) hout1
      refine ⟨_, here1, by simp only [seqVisit, DGVSvisit_sequence_visit, visitBody, print_visit_call, hm, h1, h2, Res.bind_ok]; rfl,
        ?_, by rw [hst, List.append_nil]; exact hd2⟩
      have hvd : visitDecls c v [] = v.outputs.map fun a => .simple (.decl a.type (childVar c a)) := by simp [visitDecls, hm]
      rw [checkStmts_append, hvd, hd1, Res.bind_ok]
      simp only [checkStmts, checkStmt, checkBody]
      rw [checkSimples, checkSimple, Res.bind_ok, h3]
      rfl
  | cons x rest =>
    have hst : structs [.visit c (.visit v :: x :: rest)] = [] := by
      unfold structs
      simp
    have hvd : visitDecls c v (x :: rest) = v.outputs.map fun a => .simple (.decl a.type (childVar c a)) := by simp [visitDecls]
    obtain ⟨l, h1, h2⟩ := alts_check ha n hc here1 (.visit v :: x :: rest) hmem hne hin1 hout1
    cases hm : c.mandatory with
    | true =>
      refine ⟨_, here1, by simp only [seqVisit, DGVSvisit_sequence_visit, visitBody, hm, h1, Res.bind_ok]; rfl,
        ?_, by rw [hst, List.append_nil]; exact hd2⟩
      rw [checkStmts_append, hvd, hd1, Res.bind_ok]
      simp only [checkStmts, checkStmt, checkBody, List.append_nil, h2, Res.bind_ok]
    | false =>
      refine ⟨_, here1, by simp only [seqVisit, DGVSvisit_sequence_visit, visitBody, hm, h1, Res.bind_ok]; rfl,
        ?_, by rw [hst, List.append_nil]; exact hd2⟩
      rw [checkStmts_append, hvd, hd1, Res.bind_ok]
      simp only [checkStmts, checkStmt, checkBody, List.nil_append, h2, Res.bind_ok]

/-! ### Sequences and functions -/

/-- The parameter for the node. -/
abbrev nodeVar : CStr := [110, 111, 100, 101]

theorem key_ne_node (k : Key) : keyText k ≠ nodeVar := by
  intro e
  have : (95 : UInt8) ∈ keyText k := by simp [keyText]
  rw [e] at this
  exact absurd this (by decide)

theorem node_ne_outVar (w : Visit) : nodeVar ≠ outVar w := by
  intro e
  have : (95 : UInt8) ∈ outVar w := by simp [outVar, visitName]
  rw [← e] at this
  exact absurd this (by decide)

theorem structs_append (l l' : List Elem) : structs (l ++ l') = structs l ++ structs l' := by
  unfold structs; exact List.filterMap_append

theorem elem_ne_outVar {vs : List Visit} {n : Node} {v : Visit} {seq : List Elem} (h : SeqOk vs n v seq) :
    ∀ t ∈ seq.flatMap elemVars, ∀ w, t ≠ outVar w := by
  intro t ht w
  obtain ⟨x, hx, ht⟩ := List.mem_flatMap.1 ht
  match x, hx, ht with
  | .eval a, hx, ht =>
    rw [elemVars, List.mem_singleton] at ht
    rw [ht]
    exact seqOk_evalKey h (List.mem_filterMap.2 ⟨_, hx, rfl⟩) w
  | .visit c (.visit u :: rest), hx, ht =>
    obtain ⟨a, _, rfl⟩ := List.mem_map.1 ht
    exact childVar_ne_outVar (h.altsOk _ (List.mem_filterMap.2 ⟨_, hx, rfl⟩)).1 a w
  | .visit c (.dummy i :: rest), hx, ht => cases ht
  | .visit c [], hx, ht => cases ht

theorem inputs_ne_outVar {v : Visit} (h : VisitOk v) : ∀ t ∈ v.inputs.map (fun a => keyText (keyOf a)), ∀ w, t ≠ outVar w := by
  intro t ht w
  obtain ⟨a, ha, rfl⟩ := List.mem_map.1 ht
  refine key_ne_outVar (fun i hi => ?_) w
  rw [h.1 a (List.mem_append_left _ ha)] at hi
  cases hi

theorem seq_check {vs : List Visit} {n : Node} {v : Visit} {seq : List Elem} (h : SeqOk vs n v seq) (rest pre : List Elem)
    (e : seq = pre ++ rest) (here : Scope)
    (hs : Scoped (nodeVar :: v.inputs.map (fun a => keyText (keyOf a)) ++ pre.flatMap elemVars) (structs pre) here) :
    ∃ l here', sequence n rest = .ok (0, l) ∧ checkStmts (vs.map DGVFvisit) here l = .ok here' ∧
      Scoped (nodeVar :: v.inputs.map (fun a => keyText (keyOf a)) ++ seq.flatMap elemVars) (structs seq) here' := by
  induction rest generalizing pre here with
  | nil =>
    rw [List.append_nil] at e
    subst e
    exact ⟨[], here, rfl, rfl, hs⟩
  | cons x rest ih =>
    have e' : seq = (pre ++ [x]) ++ rest := by rw [e]; simp
    have hnames := h.names
    have hA : ∀ t ∈ nodeVar :: v.inputs.map (fun a => keyText (keyOf a)) ++ pre.flatMap elemVars, ∀ w', t ≠ outVar w' := by
      intro t ht w'
      rw [List.cons_append, List.mem_cons, List.mem_append] at ht
      rcases ht with rfl | ht | ht
      · exact node_ne_outVar w'
      · exact inputs_ne_outVar (h.visits v h.mem) t ht w'
      · exact elem_ne_outVar h t (by rw [e, List.flatMap_append]; exact List.mem_append_left _ ht) w'
    have hfresh : ∀ t ∈ elemVars x, t ≠ nodeVar → t ∉ nodeVar :: v.inputs.map (fun a => keyText (keyOf a)) ++ pre.flatMap elemVars := by
      intro t ht hn hm
      unfold variables at hnames
      rw [e, List.flatMap_append, List.flatMap_cons, ← List.append_assoc] at hnames
      rw [List.cons_append, List.mem_cons] at hm
      exact (List.nodup_append.1 hnames).2.2 t (hm.resolve_left hn) t (List.mem_append_left _ ht) rfl
    cases x with
    | eval a =>
      have haE : a ∈ evals seq := by rw [e]; exact List.mem_filterMap.2 ⟨.eval a, by simp, rfl⟩
      obtain ⟨out, eq, h1, h2, -, -⟩ := seqEval_ok h.unique h.distinct (h.evalOk a haE)
      have hfr := hs.fresh (hfresh (keyText (keyOf a)) (by simp [elemVars]) (key_ne_node _))
        (fun w' _ => seqOk_evalKey h haE w')
      have hs' := hs.var (keyText (keyOf a))
      obtain ⟨l, here', h3, h4, h5⟩ := ih (pre ++ [.eval a]) e' ((keyText (keyOf a), none) :: here) (by
        rw [List.flatMap_append, structs_append]
        simpa [elemVars, structs] using hs')
      refine ⟨_, here', by simp only [sequence, h1, h3, Res.bind_ok]; rfl, ?_, h5⟩
      rw [checkStmts_append]
      split
      · simp only [checkStmts, checkStmt, h2, declare_ok hfr, Res.bind_ok, usable_cons, if_pos, h4]
      · simp only [checkStmts, checkStmt, h2, declare_ok hfr, Res.bind_ok, h4]
    | visit c alts =>
      obtain ⟨hc, w, ws, rfl, hcall, -⟩ := seqOk_calls h e
      have hnod : (w.outputs.map (childVar c)).Nodup := by
        unfold variables at hnames
        rw [e, List.flatMap_append, List.flatMap_cons, ← List.append_assoc] at hnames
        exact (List.nodup_append.1 (List.nodup_append.1 hnames).2.1).1
      obtain ⟨l, here1, h1, h2, h3⟩ := visit_check h.apart n hc (v := w) (rest := ws) hs (fun w' hw' => (hcall w' hw').mem)
        (fun w' hw' => (hcall w' hw').ne)
        (by
          intro w' hw' t ht
          obtain ⟨a, ha, rfl⟩ := List.mem_map.1 ht
          obtain ⟨b, hb, hk⟩ := (hcall w' hw').ins a ha
          rw [childVar_key, ← hk]
          exact List.mem_append_right _ (vars_eval hb))
        (by
          intro t ht
          obtain ⟨a, ha, rfl⟩ := List.mem_map.1 ht
          exact hfresh _ (List.mem_map.2 ⟨a, ha, rfl⟩) (by rw [childVar_key]; exact key_ne_node _))
        hnod
        (by
          intro u hu u' hu' ev
          have honce := h.once
          rw [e, structs_append] at honce
          have hu2 : u ∈ structs (.visit c (.visit w :: ws) :: rest) := by
            rw [show (Elem.visit c (.visit w :: ws) :: rest) = [.visit c (.visit w :: ws)] ++ rest from rfl, structs_append]
            exact List.mem_append_left _ hu
          obtain ⟨n1, n2⟩ := visitName_inj (outVar_inj ev)
          exact (List.pairwise_append.1 honce).2.2 u' hu' u hu2 n1.symm n2.symm)
        hA
      obtain ⟨l', here', h4, h5, h6⟩ := ih (pre ++ [.visit c (.visit w :: ws)]) e' here1 (by
        rw [List.flatMap_append, structs_append, ← List.append_assoc]
        have : [Elem.visit c (.visit w :: ws)].flatMap elemVars = w.outputs.map (childVar c) := by simp [elemVars, childVar_key]
        rw [this]
        exact h3)
      exact ⟨l ++ l', here', by simp only [sequence, h1, h4, Res.bind_ok], by
        rw [checkStmts_append, h2, Res.bind_ok, h5], h6⟩

theorem params_check (ps : List ARef) {A : List CStr} {here : Scope} (hs : Scoped A [] here)
    (hnew : ∀ x ∈ ps.map varText, x ∉ A) (hnod : (ps.map varText).Nodup) :
    ∃ here', checkParams here (ps.map argument) = .ok here' ∧ Scoped (A ++ ps.map varText) [] here' := by
  induction ps generalizing A here with
  | nil => exact ⟨here, rfl, by simpa using hs⟩
  | cons a ps ih =>
    rw [List.map_cons, List.nodup_cons] at hnod
    have hfr := hs.fresh (hnew (varText a) (by simp)) (fun w' hw' => by cases hw')
    obtain ⟨here', h1, h2⟩ := ih (hs.var (varText a)) (by
      intro x hx hm
      rw [List.mem_append, List.mem_singleton] at hm
      rcases hm with hm | rfl
      · exact hnew x (List.mem_cons_of_mem _ hx) hm
      · exact hnod.1 hx) hnod.2
    refine ⟨here', ?_, by rw [List.append_assoc] at h2; exact h2⟩
    simp only [List.map_cons, checkParams, argument, declare_ok hfr, Res.bind_ok]
    exact h1

theorem sets_check (h : List Decl) (n : Node) (ps : List ARef) (here : Scope)
    (hu : ∀ a ∈ ps, usable here (varText a) = .ok none) :
    checkStmts h here (ps.map fun a => .set n.name.lwr a.iattr.lwr (varText a)) = .ok here := by
  induction ps with
  | nil => rfl
  | cons a ps ih =>
    simp only [List.map_cons, checkStmts, checkStmt, hu a List.mem_cons_self, Res.bind_ok]
    exact ih (fun b hb => hu b (List.mem_cons_of_mem _ hb))

theorem checkFields_ok (d : Decl) (here : Scope) (l : List ARef) (hu : ∀ a ∈ l, usable here (varText a) = .ok none)
    (hf : ∀ a ∈ l, (d.fields.any fun f => f.2 == varText a) = true) :
    checkFields d here (l.map fun a => (varText a, varText a)) = .ok () := by
  induction l with
  | nil => rfl
  | cons a l ih =>
    simp only [List.map_cons, checkFields, hu a List.mem_cons_self, hf a List.mem_cons_self, Res.bind_ok]
    exact ih (fun b hb => hu b (List.mem_cons_of_mem _ hb)) (fun b hb => hf b (List.mem_cons_of_mem _ hb))

/-- The function of a visit is generated without an error, and a C compiler accepts it. -/
theorem fn_check {vs : List Visit} {n : Node} {v : Visit} {seq : List Elem} (h : SeqOk vs n v seq) :
    ∃ f, DGVSvisit n v seq = .ok (0, f) ∧ compile (vs.map DGVFvisit) f = .ok () := by
  have hvt : ∀ l : List ARef, l.map varText = l.map fun a => keyText (keyOf a) := fun l =>
    List.map_congr_left fun a _ => varText_key a
  have hnames := h.names
  unfold variables at hnames
  obtain ⟨here1, h1, h2⟩ := params_check v.inputs (A := [nodeVar]) (here := [(nodeVar, none)])
    ⟨by simp, by simp⟩
    (by
      intro x hx hm
      rw [List.mem_singleton] at hm
      obtain ⟨a, _, rfl⟩ := List.mem_map.1 hx
      rw [varText_key] at hm
      exact key_ne_node _ hm)
    (by rw [hvt]; exact (List.nodup_append.1 hnames).1)
  rw [hvt] at h2
  obtain ⟨l, here2, h3, h4, h5⟩ := seq_check h seq [] rfl here1 (by simpa [structs] using h2)
  have hu1 : ∀ a ∈ v.inputs, usable here1 (varText a) = .ok none := by
    intro a ha
    rw [varText_key]
    have hm : keyText (keyOf a) ∈ v.inputs.map fun a => keyText (keyOf a) := List.mem_map.2 ⟨a, ha, rfl⟩
    exact h2.usable (List.mem_append_right _ hm) (inputs_ne_outVar (h.visits v h.mem) _ hm)
  have hu2 : ∀ a ∈ v.outputs, varText a ∈ seq.flatMap elemVars := by
    intro a ha
    obtain ⟨b, hb, hk⟩ := h.outs a ha
    rw [varText_key, ← hk]
    exact vars_eval hb
  have hu3 : ∀ a ∈ v.outputs, usable here2 (varText a) = .ok none := fun a ha =>
    h5.usable (List.mem_append_right _ (hu2 a ha)) (elem_ne_outVar h _ (hu2 a ha))
  refine ⟨_, by simp only [DGVSvisit, h3, Res.bind_ok]; rfl, ?_⟩
  have hhead : ((DGVFvisit v).type == returnType v && ((DGVFvisit v).params.map (·.1) == (v.inputs.map argument).map (·.1))) = true := by
    simp [DGVFvisit]
  have hret : checkRet (vs.map DGVFvisit) here2 (returnOf v) = .ok () := by
    unfold returnOf
    match ho : v.outputs with
    | [] => rfl
    | [a] => simp only [checkRet, hu3 a (by rw [ho]; simp), Res.bind_ok]
    | o :: o' :: os =>
      have hl2 : 2 ≤ v.outputs.length := by rw [ho]; simp
      have hnot := h.result hl2
      have hfr : ∀ x ∈ here2, x.1 ≠ visit_output := by
        refine h5.fresh (fun hm => ?_) (fun w _ e => ?_)
        · rw [List.cons_append, List.mem_cons] at hm
          rcases hm with hm | hm
          · exact absurd hm (by decide)
          · exact hnot hm
        · exact absurd (congrArg List.head? e) (by simp [visit_output, outVar, visitName])
      simp only [checkRet, declare_ok hfr, Res.bind_ok, lookupStruct_ok h.apart h.mem hl2]
      rw [← ho]
      refine checkFields_ok _ _ _ (fun a ha => ?_) (fun a ha => field_decl hl2 ha)
      rw [usable_cons, if_neg]
      · exact hu3 a ha
      · intro e
        have e' : visit_output = varText a := e
        have hm := hu2 a ha
        rw [← e'] at hm
        exact hnot (List.mem_append_right _ hm)
  simp only [compile, lookupDecl_ok h.apart h.mem, checkHead, hhead, Res.bind_ok]
  rw [show checkParams [([110, 111, 100, 101], none)] (v.inputs.map argument) = .ok here1 from h1]
  simp only [Res.bind_ok, checkStmts_append, sets_check _ n v.inputs here1 hu1, h4, hret]

end Verif.VisitGen
