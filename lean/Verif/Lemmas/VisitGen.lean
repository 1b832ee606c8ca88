import Verif.Spec.VisitGen
import Verif.Lemmas.EvalGen
import Verif.Lemmas.Str

/-!
# Lemmas on generated visit functions: names, variables, running
-/

namespace Verif.VisitGen
open Verif.Str Verif.Ids Verif.EvalGen Verif.Spec.EvalGen Verif.Spec.VisitGen Verif.Spec.Ids

/-! ### Outcomes that correspond -/

/-- Both end in the same way, and what they give is related. -/
inductive Sim {α β : Type} (R : α → β → Prop) : Res α → Res β → Prop where
  | ok {a b} (h : R a b) : Sim R (.ok a) (.ok b)
  | ub (w) : Sim R (.ub w) (.ub w)
  | abort (w) : Sim R (.abort w) (.abort w)
  | diverge : Sim R .diverge .diverge

theorem Sim.bind {α β γ δ : Type} {R : α → β → Prop} {Q : γ → δ → Prop} {x : Res α} {y : Res β} {f : α → Res γ}
    {g : β → Res δ} (h : Sim R x y) (hf : ∀ a b, R a b → Sim Q (f a) (g b)) : Sim Q (x >>= f) (y >>= g) := by
  cases h with
  | ok h => exact hf _ _ h
  | ub w => exact .ub w
  | abort w => exact .abort w
  | diverge => exact .diverge

theorem Sim.mono {α β : Type} {R Q : α → β → Prop} {x : Res α} {y : Res β} (h : Sim R x y) (hf : ∀ a b, R a b → Q a b) :
    Sim Q x y := by
  cases h with
  | ok h => exact .ok (hf _ _ h)
  | ub w => exact .ub w
  | abort w => exact .abort w
  | diverge => exact .diverge

theorem Sim.refl {α : Type} (x : Res α) : Sim (fun a b => a = b) x x := by
  cases x with
  | ok a => exact .ok rfl
  | ub w => exact .ub w
  | abort w => exact .abort w
  | diverge => exact .diverge

/-! ### Names -/

theorem varText_key (a : ARef) : varText a = keyText (keyOf a) := by
  unfold varText keyText keyOf get_node_name_this
  cases a.inode <;> rfl

theorem childVar_key (c : Child) (a : ARef) : childVar c a = keyText (childKey c a) := rfl

theorem varText_own {a : ARef} (h : a.inode = none) : varText a = keyText (none, a.iattr.lwr) := by
  rw [varText_key, keyOf, h]; rfl

theorem visitName_eq (v : Visit) : visitName v = fnOf v := rfl

theorem lower_no_C (l : List UInt8) : (67 : UInt8) ∉ l.map Spec.Str.lowerB := by
  intro h
  obtain ⟨x, _, hx⟩ := List.mem_map.1 h
  have : ∀ x : UInt8, Spec.Str.lowerB x ≠ 67 := by
    intro x
    revert x
    exact u8_forall (by decide +kernel)
  exact this x hx

/-- The variables of children and of the node do not begin like the names of visits. -/
theorem childVar_ne_outVar {c : Child} (hc : WfId c.name) (a : ARef) (w : Visit) : childVar c a ≠ outVar w := by
  intro h
  unfold childVar outVar visitName at h
  cases hl : c.name.lwr with
  | nil => rw [hl] at h; simp at h
  | cons x xs =>
    rw [hl] at h
    simp only [List.cons_append, List.cons.injEq] at h
    have := lower_no_C c.name.orig
    rw [← hc.1, hl, h.1] at this
    exact this List.mem_cons_self

/-! ### Variables -/

variable {V σ : Type}

/-- The innermost variable of a name. -/
def look (env : Env V) (w : CStr) : Option (CStr × Slot V) := env.find? fun x => x.1 == w

theorem look_cons (x : CStr × Slot V) (env : Env V) (w : CStr) :
    look (x :: env) w = if x.1 = w then some x else look env w := by
  unfold look
  rw [List.find?_cons]
  by_cases h : x.1 = w
  · simp [h]
  · have : (x.1 == w) = false := by simpa using h
    simp [h, this]

theorem look_append (ex env : Env V) (w : CStr) (h : ∀ x ∈ ex, x.1 ≠ w) : look (ex ++ env) w = look env w := by
  induction ex with
  | nil => rfl
  | cons x ex ih =>
    rw [List.cons_append, look_cons, if_neg (h x List.mem_cons_self), ih (fun y hy => h y (List.mem_cons_of_mem _ hy))]

/-- From one point to a later one, only variables of `N` were changed or added. -/
def Keeps (N : CStr → Prop) (env env' : Env V) : Prop :=
  ∃ ex base, env' = ex ++ base ∧ base.map (·.1) = env.map (·.1) ∧ (∀ x ∈ ex, N x.1) ∧
    ∀ w, ¬ N w → look base w = look env w

theorem Keeps.refl (N : CStr → Prop) (env : Env V) : Keeps N env env :=
  ⟨[], env, rfl, rfl, by simp, fun _ _ => rfl⟩

theorem Keeps.look {N : CStr → Prop} {env env' : Env V} (h : Keeps N env env') {w : CStr} (hw : ¬ N w) :
    look env' w = look env w := by
  obtain ⟨ex, base, rfl, _, h2, h3⟩ := h
  rw [look_append _ _ w (fun x hx e => hw (e ▸ h2 x hx)), h3 w hw]

theorem Keeps.mem {N : CStr → Prop} {env env' : Env V} (h : Keeps N env env') {w : CStr} (hw : w ∈ env.map (·.1)) :
    w ∈ env'.map (·.1) := by
  obtain ⟨ex, base, rfl, h1, _, _⟩ := h
  rw [List.map_append, List.mem_append, h1]
  exact .inr hw

theorem Keeps.trans {N : CStr → Prop} {e1 e2 e3 : Env V} (h : Keeps N e1 e2) (h' : Keeps N e2 e3) : Keeps N e1 e3 := by
  obtain ⟨ex, base, rfl, h1, h2, h3⟩ := h
  obtain ⟨ex', base', rfl, h1', h2', h3'⟩ := h'
  have hsplit : base' = base'.take ex.length ++ base'.drop ex.length := (List.take_append_drop _ _).symm
  have hlen : base'.length = ex.length + base.length := by
    have := congrArg List.length h1'
    simpa using this
  rw [List.map_append] at h1'
  have hm : (base'.take ex.length).map (·.1) = ex.map (·.1) ∧ (base'.drop ex.length).map (·.1) = base.map (·.1) := by
    rw [hsplit, List.map_append] at h1'
    exact List.append_inj h1' (by simp [hlen])
  have hN : ∀ x ∈ base'.take ex.length, N x.1 := by
    intro x hx
    have : x.1 ∈ ex.map (·.1) := hm.1 ▸ List.mem_map_of_mem hx
    obtain ⟨y, hy, e⟩ := List.mem_map.1 this
    exact e ▸ h2 y hy
  refine ⟨ex' ++ base'.take ex.length, base'.drop ex.length, by rw [List.append_assoc, ← hsplit], hm.2.trans h1, ?_, ?_⟩
  · intro x hx
    rcases List.mem_append.1 hx with h | h
    · exact h2' x h
    · exact hN x h
  · intro w hw
    have a : VisitGen.look base' w = VisitGen.look (base'.drop ex.length) w := by
      conv => lhs; rw [hsplit]
      exact look_append _ _ _ (fun x hx e => hw (e ▸ hN x hx))
    rw [← a, h3' w hw, look_append _ _ w (fun x hx e => hw (e ▸ h2 x hx)), h3 w hw]

theorem Keeps.mono {N M : CStr → Prop} {e1 e2 : Env V} (h : Keeps N e1 e2) (hm : ∀ w, N w → M w) : Keeps M e1 e2 := by
  obtain ⟨ex, base, h0, h1, h2, h3⟩ := h
  exact ⟨ex, base, h0, h1, fun x hx => hm _ (h2 x hx), fun w hw => h3 w (fun h => hw (hm w h))⟩

theorem Keeps.declare {N : CStr → Prop} (env : Env V) {v : CStr} (hv : N v) (x : Slot V) : Keeps N env ((v, x) :: env) :=
  ⟨[(v, x)], env, rfl, rfl, by simpa using hv, fun _ _ => rfl⟩

theorem Keeps.leave {N : CStr → Prop} {env env' : Env V} (h : Keeps N env env') : Keeps N env (leave env env') := by
  obtain ⟨ex, base, rfl, h1, _, h3⟩ := h
  have hl : base.length = env.length := by simpa using congrArg List.length h1
  have : VisitGen.leave env (ex ++ base) = base := by
    unfold VisitGen.leave
    rw [List.length_append, hl, Nat.add_sub_cancel, List.drop_left]
  rw [this]
  exact ⟨[], base, rfl, h1, by simp, h3⟩

theorem assign_ok (v : CStr) (x : Slot V) (env : Env V) (h : v ∈ env.map (·.1)) :
    ∃ env', assign v x env = .ok env' ∧ env'.map (·.1) = env.map (·.1) ∧ look env' v = some (v, x) ∧
      ∀ w, w ≠ v → look env' w = look env w := by
  induction env with
  | nil => simp at h
  | cons p env ih =>
    obtain ⟨w, y⟩ := p
    by_cases e : w = v
    · subst e
      refine ⟨(w, x) :: env, ?_, rfl, ?_, ?_⟩
      · simp [assign]
      · rw [look_cons, if_pos rfl]
      · intro u hu
        rw [look_cons, look_cons, if_neg (fun h => hu h.symm), if_neg (fun h => hu h.symm)]
    · have hv : v ∈ env.map (·.1) := by
        simp only [List.map_cons, List.mem_cons] at h
        exact h.resolve_left (fun h => e h.symm)
      obtain ⟨env', h1, h2, h3, h4⟩ := ih hv
      have eb : (w == v) = false := by simpa using e
      refine ⟨(w, y) :: env', ?_, by simp [h2], ?_, ?_⟩
      · simp [assign, eb, h1]
      · rw [look_cons, if_neg e, h3]
      · intro u hu
        rw [look_cons, look_cons]
        split
        · rfl
        · exact h4 u hu

theorem Keeps.assign {N : CStr → Prop} {env env' : Env V} {v : CStr} (hv : N v) (hn : env'.map (·.1) = env.map (·.1))
    (h : ∀ w, w ≠ v → VisitGen.look env' w = VisitGen.look env w) : Keeps N env env' :=
  ⟨[], env', rfl, hn, by simp, fun w hw => h w (fun e => hw (e ▸ hv))⟩

theorem value_look {env : Env V} {v : CStr} {x : V} (h : look env v = some (v, .val x)) : value env v = .ok x := by
  unfold value
  unfold look at h
  rw [h]

/-! ### Calls of visit functions -/

theorem value_congr {env env' : Env V} {v : CStr} (h : look env' v = look env v) : value env' v = value env v := by
  unfold value
  unfold look at h
  rw [h]

theorem values_congr {env env' : Env V} (l : List CStr) (h : ∀ v ∈ l, look env' v = look env v) :
    values env' l = values env l := by
  induction l with
  | nil => rfl
  | cons v l ih =>
    simp only [values, value_congr (h v List.mem_cons_self), ih (fun w hw => h w (List.mem_cons_of_mem _ hw))]

theorem is_desired_ok {a : ARef} {outputs : List ARef} (h : outputs ≠ []) :
    is_desired a outputs = .ok (outputs.any fun c => a.iattr.lwr == c.iattr.lwr) := by
  cases outputs with
  | nil => exact absurd rfl h
  | cons x xs =>
    unfold is_desired
    simp only [STReq, strcmpEq]

theorem desired_var {c : Child} {a : ARef} {outputs : List ARef}
    (h : (outputs.any fun c => a.iattr.lwr == c.iattr.lwr) = true) : childVar c a ∈ outputs.map (childVar c) := by
  obtain ⟨b, hb, e⟩ := List.any_eq_true.1 h
  refine List.mem_map.2 ⟨b, hb, ?_⟩
  unfold childVar
  rw [show b.iattr.lwr = a.iattr.lwr by simpa using (beq_iff_eq.1 e).symm]

theorem desired_self {a : ARef} {outputs : List ARef} (h : a ∈ outputs) :
    (outputs.any fun c => a.iattr.lwr == c.iattr.lwr) = true := List.any_eq_true.2 ⟨a, h, by simp⟩

/-- Whether an output is among those that are declared. -/
def des (outputs : List ARef) (a : ARef) : Bool := outputs.any fun c => a.iattr.lwr == c.iattr.lwr

theorem fieldsOf_ok (c : Child) (w : Visit) {outputs : List ARef} (h : outputs ≠ []) (d : Bool) (l : List ARef) :
    fieldsOf c w outputs d l =
      .ok ((l.filter (des outputs)).map fun a => .field (declType d a) (childVar c a) (outVar w) (varText a)) := by
  induction l with
  | nil => rfl
  | cons a l ih =>
    simp only [fieldsOf, is_desired_ok h, ih, Res.bind_ok]
    rw [List.filter_cons, des]
    cases (outputs.any fun c => a.iattr.lwr == c.iattr.lwr) <;> rfl

theorem fields_run (W : World σ V) {c : Child} {w : Visit} (hc : WfId c.name) {outputs : List ARef} (d : Bool)
    (fs : List (CStr × V)) (l : List ARef) (hl : ∀ a ∈ l, des outputs a = true)
    (hm : ∀ a ∈ l, ∃ x, fs.find? (fun f => f.1 == varText a) = some x) (env : Env V) (s : σ)
    (hs : look env (outVar w) = some (outVar w, .struct fs))
    (hd : d = true ∨ ∀ x ∈ outputs.map (childVar c), x ∈ env.map (·.1)) :
    ∃ env', runSimples W env s (l.map fun a => .field (declType d a) (childVar c a) (outVar w) (varText a)) = .ok (env', s) ∧
      Keeps (· ∈ outputs.map (childVar c)) env env' := by
  induction l generalizing env with
  | nil => exact ⟨env, rfl, Keeps.refl _ _⟩
  | cons a l ih =>
    obtain ⟨x, hx⟩ := hm a List.mem_cons_self
    have hN := desired_var (c := c) (hl a List.mem_cons_self)
    have hne := childVar_ne_outVar hc a w
    -- the variables after the declaration
    have key : ∃ env1, fieldEnv env (declType d a) (childVar c a) = env1 ∧ Keeps (· ∈ outputs.map (childVar c)) env env1 ∧
        childVar c a ∈ env1.map (·.1) := by
      cases d with
      | true => exact ⟨_, rfl, Keeps.declare _ hN _, by simp [fieldEnv, declType]⟩
      | false =>
        refine ⟨_, rfl, Keeps.refl _ _, ?_⟩
        simpa [fieldEnv, declType] using (hd.resolve_left (by simp)) _ hN
    obtain ⟨env1, e1, k1, m1⟩ := key
    have hout : outVar w ∉ outputs.map (childVar c) := by
      intro h
      obtain ⟨b, _, e⟩ := List.mem_map.1 h
      exact childVar_ne_outVar hc b w e
    obtain ⟨env2, e2, n2, _, o2⟩ := assign_ok (childVar c a) (.val x.2) env1 m1
    have k2 : Keeps (· ∈ outputs.map (childVar c)) env1 env2 := Keeps.assign hN n2 o2
    have k12 := k1.trans k2
    have hs1 : look env1 (outVar w) = some (outVar w, .struct fs) := by rw [k1.look hout, hs]
    have hs2 : look env2 (outVar w) = some (outVar w, .struct fs) := by rw [k2.look hout, hs1]
    obtain ⟨env3, e3, k3⟩ := ih (fun b hb => hl b (List.mem_cons_of_mem _ hb)) (fun b hb => hm b (List.mem_cons_of_mem _ hb))
      env2 hs2 (hd.imp_right fun h y hy => k12.mem (h y hy))
    have hmem : member env1 (outVar w) (varText a) = .ok x.2 := by
      unfold member
      unfold look at hs1
      rw [hs1]
      simp only [hx]
    refine ⟨env3, ?_, k12.trans k3⟩
    rw [List.map_cons, runSimples, runSimple, e1]
    simp only [hmem, Res.bind_ok, e2]
    exact e3

theorem unpack_one {outputs : List ARef} {r : RVal V} {o : ARef} (ho : outputs = [o]) (h : (unpack outputs r).isSome = true) :
    ∃ x, r = .one x := by
  subst ho
  cases r <;> simp [unpack] at h ⊢

theorem unpack_many {outputs : List ARef} {r : RVal V} {o o' : ARef} {os : List ARef} (ho : outputs = o :: o' :: os)
    (h : (unpack outputs r).isSome = true) :
    ∃ fs, r = .struct fs ∧ fs.map (·.1) = outputs.map (fun a => keyText (none, a.iattr.lwr)) := by
  subst ho
  cases r with
  | void => simp [unpack] at h
  | one x => simp [unpack] at h
  | struct fs =>
    refine ⟨fs, rfl, ?_⟩
    unfold unpack at h
    simp only at h
    split at h
    · assumption
    · simp at h

/-- A call of the visit function of a child, with what is done with its value. -/
theorem call_run {W : World σ V} {vs : List Visit} (hon : Honest vs W) {c : Child} {w : Visit} (hw : w ∈ vs)
    (hv : VisitOk w) (hc : WfId c.name) {outputs : List ARef} {d : Bool} (hne : w.outputs ≠ [] → outputs ≠ [])
    (expr : CStr) (env : Env V) (s : σ)
    (hd : (d = true ∧ outputs = w.outputs) ∨ (d = false ∧ ∀ x ∈ outputs.map (childVar c), x ∈ env.map (·.1)))
    (xs : List V) (hx : values env (w.inputs.map (childVar c)) = .ok xs)
    (hdis : ∀ v ∈ w.inputs.map (childVar c), v ∉ outputs.map (childVar c)) :
    ∃ b fs, bindOf c w outputs d = .ok b ∧ manyFields c w outputs d = .ok fs ∧
      Sim (fun p q => p.2 = q.2 ∧ (unpack w.outputs q.1).isSome = true ∧
          Keeps (fun x => x ∈ outputs.map (childVar c) ∨ x = outVar w) env p.1)
        (runSimples W env s (.call b (visitName w) expr (w.inputs.map (childVar c)) :: fs))
        (W.visitFn (visitName w) expr xs s) := by
  have hin : ∀ v ∈ w.inputs.map (childVar c), v ≠ outVar w := by
    intro v hv e
    obtain ⟨b, _, e'⟩ := List.mem_map.1 hv
    exact childVar_ne_outVar hc b w (e'.trans e)
  match ho : w.outputs with
  | [] =>
    refine ⟨.none, [], by rw [bindOf, ho], by rw [manyFields, ho], ?_⟩
    rw [runSimples, runSimple]
    simp only [bindEnv, hx, Res.bind_ok, bindValue]
    cases hr : W.visitFn (visitName w) expr xs s with
    | ub m => exact .ub m
    | abort m => exact .abort m
    | diverge => exact .diverge
    | ok p =>
      obtain ⟨r, s'⟩ := p
      simp only [Res.bind_ok, runSimples]
      exact .ok ⟨rfl, ho ▸ hon w hw expr _ s r s' hr, Keeps.refl _ _⟩
  | [o] =>
    have hne' := hne (by rw [ho]; simp)
    -- the value is kept in the variable of the child, or not at all
    have key : ∃ b, bindOf c w outputs d = .ok b ∧
        ((b = .none) ∨ ∃ t, b = .var t (childVar c o) ∧ childVar c o ∈ outputs.map (childVar c) ∧
          (t = none → childVar c o ∈ env.map (·.1))) := by
      rcases hd with ⟨rfl, rfl⟩ | ⟨rfl, hd⟩
      · exact ⟨_, by rw [bindOf, ho], .inr ⟨_, rfl, List.mem_map_of_mem (by rw [ho]; simp), by simp [declType]⟩⟩
      · rw [bindOf, ho]
        simp only [is_desired_ok hne', Res.bind_ok]
        cases hdd : outputs.any fun c => o.iattr.lwr == c.iattr.lwr with
        | true => exact ⟨_, rfl, .inr ⟨_, rfl, desired_var hdd, fun _ => hd _ (desired_var hdd)⟩⟩
        | false => exact ⟨_, rfl, .inl rfl⟩
    obtain ⟨b, hb, hcase⟩ := key
    refine ⟨b, [], hb, by rw [manyFields, ho], ?_⟩
    rw [runSimples, runSimple]
    rcases hcase with rfl | ⟨t, rfl, hN, ht⟩
    · simp only [bindEnv, hx, Res.bind_ok, bindValue]
      cases hr : W.visitFn (visitName w) expr xs s with
      | ub m => exact .ub m
      | abort m => exact .abort m
      | diverge => exact .diverge
      | ok p =>
        obtain ⟨r, s'⟩ := p
        simp only [Res.bind_ok, runSimples]
        exact .ok ⟨rfl, ho ▸ hon w hw expr _ s r s' hr, Keeps.refl _ _⟩
    · have k1 : Keeps (· ∈ outputs.map (childVar c)) env (bindEnv env (.var t (childVar c o))) ∧
          childVar c o ∈ (bindEnv env (.var t (childVar c o))).map (·.1) := by
        cases t with
        | none => exact ⟨Keeps.refl _ _, ht rfl⟩
        | some t => exact ⟨Keeps.declare _ hN _, by simp [bindEnv]⟩
      have hx' : values (bindEnv env (.var t (childVar c o))) (w.inputs.map (childVar c)) =
          .ok xs :=
        (values_congr _ fun v hv => k1.1.look (hdis v hv)).trans hx
      simp only [hx', Res.bind_ok]
      cases hr : W.visitFn (visitName w) expr xs s with
      | ub m => exact .ub m
      | abort m => exact .abort m
      | diverge => exact .diverge
      | ok p =>
        obtain ⟨r, s'⟩ := p
        have hu := hon w hw expr _ s r s' hr
        obtain ⟨x, rfl⟩ := unpack_one ho hu
        obtain ⟨env2, e2, n2, _, o2⟩ := assign_ok (childVar c o) (.val x) _ k1.2
        simp only [Res.bind_ok, bindValue, e2, runSimples]
        exact .ok ⟨rfl, ho ▸ hu, (k1.1.trans (Keeps.assign hN n2 o2)).mono fun _ h => .inl h⟩
  | o :: o' :: os =>
    have hne' := hne (by rw [ho]; simp)
    refine ⟨.struct (outTag w) (outVar w), _, by rw [bindOf, ho], by rw [manyFields, ho]; exact fieldsOf_ok c w hne' d _, ?_⟩
    rw [runSimples, runSimple]
    have hx' : values (bindEnv env (.struct (outTag w) (outVar w))) (w.inputs.map (childVar c)) =
        .ok xs :=
      (values_congr _ fun v hv => by rw [bindEnv, look_cons, if_neg (fun e => hin v hv e.symm)]).trans hx
    simp only [hx', Res.bind_ok]
    cases hr : W.visitFn (visitName w) expr xs s with
    | ub m => exact .ub m
    | abort m => exact .abort m
    | diverge => exact .diverge
    | ok p =>
      obtain ⟨r, s'⟩ := p
      have hu := hon w hw expr _ s r s' hr
      obtain ⟨fs, rfl, hfs⟩ := unpack_many ho hu
      have e2 : assign (outVar w) (.struct fs) (bindEnv env (.struct (outTag w) (outVar w))) =
          .ok ((outVar w, .struct fs) :: env) := by simp [bindEnv, assign]
      simp only [Res.bind_ok, bindValue, e2]
      obtain ⟨env3, e3, k3⟩ := fields_run W hc (w := w) (outputs := outputs) d fs (w.outputs.filter (des outputs))
        (fun a ha => (List.mem_filter.1 ha).2) (fun a ha => by
          have ha := (List.mem_filter.1 ha).1
          have : varText a ∈ fs.map (·.1) := by
            rw [hfs]
            exact List.mem_map.2 ⟨a, ha, (varText_own (hv.1 a (List.mem_append_right _ ha))).symm⟩
          obtain ⟨y, hy, e⟩ := List.mem_map.1 this
          cases hfind : fs.find? (fun f => f.1 == varText a) with
          | some z => exact ⟨z, rfl⟩
          | none =>
            rw [List.find?_eq_none] at hfind
            exact absurd (by simpa using e) (hfind y hy))
        ((outVar w, .struct fs) :: env) s' (by rw [look_cons, if_pos rfl])
        (hd.imp (·.1) fun h x hx => by rw [List.map_cons]; exact List.mem_cons_of_mem _ (h.2 x hx))
      rw [← ho, e3]
      exact .ok ⟨rfl, hu,
        (Keeps.declare env (.inr rfl) _).trans (k3.mono fun _ h => .inl h)⟩

/-! ### Elements of a sequence -/

/-- Every attribute that was evaluated is known, and its variable holds it. -/
def Inv (E : List ARef) (env : Env V) (K : Known V) : Prop :=
  ∀ b ∈ E, ∃ x, look env (keyText (keyOf b)) = some (keyText (keyOf b), .val x) ∧ K (keyOf b) = some x

theorem Inv.keeps {E : List ARef} {env env' : Env V} {K K' : Known V} (h : Inv E env K) {N : CStr → Prop}
    (hk : Keeps N env env') (hN : ∀ b ∈ E, ¬ N (keyText (keyOf b))) (hK : ∀ b ∈ E, K' (keyOf b) = K (keyOf b)) :
    Inv E env' K' := by
  intro b hb
  obtain ⟨x, h1, h2⟩ := h b hb
  exact ⟨x, by rw [hk.look (hN b hb), h1], by rw [hK b hb, h2]⟩

theorem putAll_other (K : Known V) (ks : List Key) (xs : List V) (k : Key) (h : k ∉ ks) : K.putAll ks xs k = K k := by
  induction ks generalizing K xs with
  | nil => cases xs <;> rfl
  | cons k' ks ih =>
    cases xs with
    | nil => rfl
    | cons x xs =>
      simp only [List.mem_cons, not_or] at h
      rw [Known.putAll, ih _ _ h.2, Known.put, if_neg h.1]

/-- What the specification says about the alternative that was found. -/
def altMeaning (W : World σ V) (n : Node) (c : Child) (K : Known V) (s : σ) : Option Alt → Res (Known V × σ)
  | none => .abort "Problem in visit"
  | some (.dummy _) => .ok (K, s)
  | some (.visit v) => do
    let xs ← allOk (v.inputs.map fun a => need K (childKey c a))
    let (r, s) ← W.visitFn (fnOf v) (access n c) xs s
    match unpack v.outputs r with
    | none => .abort "incompatible types"
    | some ys => .ok (K.putAll (v.outputs.map (childKey c)) ys, s)

theorem visitMeaning_eq (W : World σ V) (n : Node) (c : Child) (alts : List Alt) (K : Known V) (s : σ) :
    visitMeaning W n c alts K s =
      if W.isNull s (access n c) then (if c.mandatory then .ub "NODE_TYPE(NULL)" else .ok (K, s))
      else altMeaning W n c K s (alts.find? fun x => typeOf x == W.nodeType s (access n c)) := by
  unfold visitMeaning
  split
  · rfl
  · cases alts.find? fun x => typeOf x == W.nodeType s (access n c) with
    | none => rfl
    | some a => cases a <;> rfl

theorem childText_eq (n : Node) (c : Child) : childText n c = access n c := rfl

theorem inputs_known {E : List ARef} {env : Env V} {K : Known V} (h : Inv E env K) (c : Child) (l : List ARef)
    (hl : ∀ a ∈ l, ∃ b ∈ E, keyOf b = childKey c a) :
    ∃ xs, values env (l.map (childVar c)) = .ok xs ∧ allOk (l.map fun a => need K (childKey c a)) = .ok xs := by
  induction l with
  | nil => exact ⟨[], rfl, rfl⟩
  | cons a l ih =>
    obtain ⟨xs, h1, h2⟩ := ih (fun b hb => hl b (List.mem_cons_of_mem _ hb))
    obtain ⟨b, hb, e⟩ := hl a List.mem_cons_self
    obtain ⟨x, h3, h4⟩ := h b hb
    rw [e] at h3 h4
    refine ⟨x :: xs, ?_, ?_⟩
    · rw [List.map_cons, values, childVar_key, value_look h3, h1]; rfl
    · rw [List.map_cons, allOk, need, h4, h2]; rfl

/-- What holds for a visit of a child: `E` was evaluated before, `outputs` are declared. -/
structure CallOk (vs : List Visit) (E : List ARef) (c : Child) (outputs : List ARef) (w : Visit) : Prop where
  mem : w ∈ vs
  ok : VisitOk w
  ne : w.outputs ≠ [] → outputs ≠ []
  ins : ∀ a ∈ w.inputs, ∃ b ∈ E, keyOf b = childKey c a
  sep : ∀ b ∈ E, ∀ o ∈ w.outputs, keyOf b ≠ childKey c o

theorem call_sim {W : World σ V} {vs : List Visit} (hon : Honest vs W) (n : Node) {E : List ARef} {c : Child} {w : Visit}
    (hc : WfId c.name) {outputs : List ARef} {d : Bool} (h : CallOk vs E c outputs w)
    (hE : ∀ b ∈ E, keyText (keyOf b) ∉ outputs.map (childVar c) ∧ keyText (keyOf b) ≠ outVar w)
    (env : Env V) (K : Known V) (s : σ) (hi : Inv E env K)
    (hd : (d = true ∧ outputs = w.outputs) ∨ (d = false ∧ ∀ x ∈ outputs.map (childVar c), x ∈ env.map (·.1))) :
    ∃ b fs, bindOf c w outputs d = .ok b ∧ manyFields c w outputs d = .ok fs ∧
      Sim (fun p q => p.2 = q.2 ∧ Inv E p.1 q.1 ∧ Keeps (fun x => x ∈ outputs.map (childVar c) ∨ x = outVar w) env p.1)
        (runSimples W env s (.call b (visitName w) (childText n c) (w.inputs.map (childVar c)) :: fs))
        (altMeaning W n c K s (some (.visit w))) := by
  obtain ⟨xs, h1, h2⟩ := inputs_known hi c w.inputs h.ins
  obtain ⟨b, fs, hb, hf, hsim⟩ := call_run hon h.mem h.ok hc (d := d) h.ne (childText n c) env s hd xs h1 (by
    intro v hv hv'
    obtain ⟨a, ha, rfl⟩ := List.mem_map.1 hv
    obtain ⟨b, hb, e⟩ := h.ins a ha
    exact (hE b hb).1 (by rw [e]; exact hv'))
  refine ⟨b, fs, hb, hf, ?_⟩
  rw [altMeaning, h2, Res.bind_ok]
  revert hsim
  rw [visitName_eq, childText_eq]
  generalize W.visitFn (fnOf w) (access n c) xs s = y
  generalize runSimples W env s _ = x
  intro hsim
  cases hsim with
  | ub m => exact .ub m
  | abort m => exact .abort m
  | diverge => exact .diverge
  | ok h' =>
    rename_i p q
    obtain ⟨env', s'⟩ := p
    obtain ⟨r, s''⟩ := q
    obtain ⟨e, hu, hk⟩ := h'
    dsimp only at e hu hk
    subst e
    rw [Res.bind_ok]
    dsimp only
    cases hun : unpack w.outputs r with
    | none => rw [hun] at hu; simp at hu
    | some ys =>
      refine .ok ⟨rfl, ?_, hk⟩
      refine hi.keeps hk (fun b hb hN => ?_) (fun b hb => ?_)
      · rcases hN with h3 | h3
        · exact (hE b hb).1 h3
        · exact (hE b hb).2 h3
      · refine putAll_other _ _ _ _ fun hm => ?_
        obtain ⟨o, ho, e⟩ := List.mem_map.1 hm
        exact h.sep b hb o ho e.symm

/-- The chain of alternatives. -/
theorem alts_sim {W : World σ V} {vs : List Visit} (hon : Honest vs W) (n : Node) {E : List ARef} {c : Child}
    (hc : WfId c.name) {outputs : List ARef} (alts : List Alt) (h : ∀ w ∈ visitsOf alts, CallOk vs E c outputs w)
    (hE : ∀ b ∈ E, keyText (keyOf b) ∉ outputs.map (childVar c) ∧ ∀ w, keyText (keyOf b) ≠ outVar w)
    (env : Env V) (K : Known V) (s : σ) (hi : Inv E env K) (hd : ∀ x ∈ outputs.map (childVar c), x ∈ env.map (·.1))
    (hnull : W.isNull s (access n c) = false) :
    ∃ al, altLoop n c outputs alts = .ok al ∧
      Sim (fun p q => p.2 = q.2 ∧ Inv E p.1 q.1 ∧
          ∃ w, Keeps (fun x => x ∈ outputs.map (childVar c) ∨ x = outVar w) env p.1)
        (runAlts W env s (childText n c) al)
        (altMeaning W n c K s (alts.find? fun x => typeOf x == W.nodeType s (access n c))) := by
  induction alts with
  | nil => exact ⟨[], rfl, .abort _⟩
  | cons x alts ih =>
    have htype : typeAt W s (childText n c) = .ok (W.nodeType s (access n c)) := by
      rw [typeAt, childText_eq, hnull]
    cases x with
    | dummy i =>
      obtain ⟨al, h1, h2⟩ := ih h
      refine ⟨_, by rw [altLoop, h1]; rfl, ?_⟩
      rw [runAlts, htype, Res.bind_ok, List.find?_cons, show typeOf (.dummy i) = ntText i from rfl]
      by_cases e : W.nodeType s (access n c) = ntText i
      · simp only [e, beq_self_eq_true, runSimples, Res.bind_ok]
        refine .ok ⟨rfl, hi.keeps (N := fun _ => False) ?_ (fun _ _ h => h) fun _ _ => rfl, ⟨i, 0, [], []⟩, ?_⟩
        · exact (Keeps.refl _ env).leave
        · exact (Keeps.refl _ env).leave
      · have e1 : (W.nodeType s (access n c) == ntText i) = false := by simpa using e
        have e2 : (ntText i == W.nodeType s (access n c)) = false := by simpa using fun h => e h.symm
        simp only [e1, e2]
        exact h2
    | visit w =>
      obtain ⟨al, h1, h2⟩ := ih (fun w' hw' => h w' (List.mem_cons_of_mem _ hw'))
      obtain ⟨b, fs, hb, hf, hsim⟩ := call_sim hon n hc (d := false) (h w List.mem_cons_self)
        (fun b hb => ⟨(hE b hb).1, (hE b hb).2 w⟩) env K s hi (.inr ⟨rfl, hd⟩)
      refine ⟨_, by simp only [altLoop, print_visit_call, hb, hf, Res.bind_ok, h1]; rfl, ?_⟩
      rw [runAlts, htype, Res.bind_ok, List.find?_cons, show typeOf (.visit w) = ntText w.inode from rfl]
      by_cases e : W.nodeType s (access n c) = ntText w.inode
      · simp only [e, beq_self_eq_true]
        have e3 : ∀ y : Res (Known V × σ), y = (y >>= fun p => .ok p) := by intro y; cases y <;> rfl
        rw [e3 (altMeaning _ _ _ _ _ _)]
        refine hsim.bind fun p q hpq => ?_
        obtain ⟨env', s'⟩ := p
        obtain ⟨h3, h4, h5⟩ := hpq
        refine .ok ⟨h3, ?_, w, h5.leave⟩
        intro b' hb'
        obtain ⟨x, h6, h7⟩ := h4 b' hb'
        refine ⟨x, ?_, h7⟩
        have hn : ¬ (keyText (keyOf b') ∈ outputs.map (childVar c) ∨ keyText (keyOf b') = outVar w) := by
          rintro (h8 | h8)
          · exact (hE b' hb').1 h8
          · exact (hE b' hb').2 w h8
        rw [h5.leave.look hn, ← h5.look hn, h6]
      · have e1 : (W.nodeType s (access n c) == ntText w.inode) = false := by simpa using e
        have e2 : (ntText w.inode == W.nodeType s (access n c)) = false := by simpa using fun h => e h.symm
        simp only [e1, e2]
        exact h2

end Verif.VisitGen
