import Verif.Lemmas.NodeGen

/-!
# Lemmas about generated constructors
-/

namespace Verif.Spec.NodeGen
open Verif.Str Verif.Ids Verif.NodeGen Verif.Spec.Str Verif.Spec.Ids

theorem zip_find (names : List CStr) (args : List Val) (hp : names.Pairwise (· ≠ ·)) (i : Nat) (x : CStr) (v : Val)
    (h1 : names[i]? = some x) (h2 : args[i]? = some v) : (names.zip args).find? (·.1 == x) = some (x, v) := by
  induction names generalizing args i with
  | nil => simp at h1
  | cons y names ih =>
    cases args with
    | nil => simp at h2
    | cons w args =>
      rw [List.pairwise_cons] at hp
      simp only [List.zip_cons_cons, List.find?_cons]
      cases i with
      | zero =>
        simp only [List.getElem?_cons_zero, Option.some.injEq] at h1 h2
        rw [h1, h2]; simp
      | succ i =>
        simp only [List.getElem?_cons_succ] at h1 h2
        have : (y == x) = false := by
          simp only [beq_eq_false_iff_ne, ne_eq]
          exact hp.1 x (List.mem_of_getElem? h1)
        rw [this]
        exact ih args hp.2 i h1 h2

theorem filter_get {α : Type} (f : α → Bool) (l : List α) (i : Nat) (x : α) (h : l[i]? = some x) (hf : f x = true) :
    (l.filter f)[(l.take i).countP f]? = some x := by
  induction l generalizing i with
  | nil => simp at h
  | cons y l ih =>
    cases i with
    | zero =>
      simp only [List.getElem?_cons_zero, Option.some.injEq] at h
      subst h
      simp [hf]
    | succ i =>
      simp only [List.getElem?_cons_succ] at h
      cases hy : f y with
      | true => simp [hy, ih i h]
      | false => simp [hy, ih i h]

/-- The value of a parameter. -/
def envVal (env : List (CStr × Val)) (x : CStr) : Val :=
  match env.find? (·.1 == x) with
  | some e => e.2
  | none => .null

theorem evalVar {env : List (CStr × Val)} {x : CStr} {v : Val} (h : env.find? (·.1 == x) = some (x, v)) :
    evalRhs env (.var x) = .ok (envVal env x) ∧ envVal env x = v := by
  unfold envVal
  simp only [evalRhs, h, and_self]

theorem runChildren {p : Prog} {h : Header} (hc : Compiled p h) (n : Node) (hn : n ∈ p.nodes)
    (env : List (CStr × Val)) (rest : List Stmt) (cs : List Child) (hcs : ∀ c ∈ cs, c ∈ n.children)
    (hv : ∀ c ∈ cs, c.ctor = true → evalRhs env (.var c.name.lwr) = .ok (envVal env c.name.lwr))
    (hd : cs.Pairwise fun a b => a.name.lwr ≠ b.name.lwr) (k : Nat) (o : Obj) (ho : IsNode n o) :
    (DGNCchildren n.name cs k).2 = k + cs.length ∧
    ∃ f, runStmts h env ((DGNCchildren n.name cs k).1 ++ rest) o = runStmts h env rest { o with child := f } ∧
      (∀ c ∈ cs, f c.name.lwr = some (if c.ctor then envVal env c.name.lwr else .null)) ∧
      ∀ x, (∀ c ∈ cs, c.name.lwr ≠ x) → f x = o.child x := by
  induction cs generalizing k o with
  | nil => exact ⟨rfl, o.child, rfl, by simp, fun _ _ => rfl⟩
  | cons c cs ih =>
    rw [List.pairwise_cons] at hd
    have acc := access_child hc n hn c (hcs c (by simp)) o ho true
    have step : ∃ r v, (DGNCchildren n.name (c :: cs) k).1 =
        .assign (n.name.upr ++ sU ++ c.name.upr) r :: (DGNCchildren n.name cs (k + 1)).1 ∧ evalRhs env r = .ok v ∧
        v = if c.ctor then envVal env c.name.lwr else .null := by
      simp only [DGNCchildren]
      cases hct : c.ctor with
      | true => exact ⟨_, _, rfl, hv c (by simp) hct, by simp⟩
      | false => exact ⟨_, _, rfl, rfl, by simp⟩
    obtain ⟨r, v, h1, h2, h3⟩ := step
    obtain ⟨ih1, f, ih2, ih3, ih4⟩ := ih (fun x hx => hcs x (by simp [hx])) (fun x hx => hv x (by simp [hx])) hd.2 (k + 1)
      { o with child := fun x => if x = c.name.lwr then some v else o.child x } ho
    refine ⟨?_, f, ?_, ?_, ?_⟩
    · simp only [DGNCchildren, ih1, List.length_cons]; omega
    · rw [h1, List.cons_append]
      simp only [runStmts, runStmt, h2, acc, Res.bind_ok, store]
      exact ih2
    · intro x hx
      rcases List.mem_cons.1 hx with e | hm
      · subst e
        rw [ih4 _ (fun y hy => (hd.1 y hy).symm)]
        simp [h3]
      · exact ih3 x hm
    · intro x hx
      rw [ih4 x (fun y hy => hx y (by simp [hy]))]
      have : x ≠ c.name.lwr := (hx c (by simp)).symm
      simp [this]

theorem default_ok (t : AT) (ht : t ≠ .user) (env : List (CStr × Val)) :
    ∃ d, FMTattributeDefaultVal t = .ok d ∧ evalRhs env d = .ok (emptyOf t) := by
  cases t <;> first | exact absurd rfl ht | exact ⟨_, rfl, rfl⟩

theorem runAttributes {p : Prog} {h : Header} (hc : Compiled p h) (n : Node) (hn : n ∈ p.nodes)
    (env : List (CStr × Val)) (as : List Attr) (has : ∀ a ∈ as, a ∈ n.attrs)
    (hok : ∀ a ∈ as, AttrOk p a)
    (hv : ∀ a ∈ as, a.ctor = true → evalRhs env (.var a.name.orig) = .ok (envVal env a.name.orig))
    (hd : as.Pairwise fun a b => a.name.lwr ≠ b.name.lwr) :
    ∃ ss, DGNCattributes n.name as = .ok ss ∧ ∀ rest o, IsNode n o →
    ∃ f g, runStmts h env (ss ++ rest) o = runStmts h env rest { o with plain := f, isSet := g } ∧
      (∀ a ∈ as, a.ctor = true → f a.name.lwr = some (envVal env a.name.orig)) ∧
      (∀ a ∈ as, a.ctor = false → ¬ Computed a → f a.name.lwr = some (emptyOf a.type)) ∧
      (∀ a ∈ as, Computed a → g (sU ++ a.name.lwr) = some false) ∧
      (∀ x, (∀ a ∈ as, a.name.lwr ≠ x) → f x = o.plain x) ∧
      ∀ x, (∀ a ∈ as, sU ++ a.name.lwr ≠ x) → g x = o.isSet x := by
  induction as with
  | nil => exact ⟨[], rfl, fun rest o _ => ⟨o.plain, o.isSet, rfl, by simp, by simp, by simp, fun _ _ => rfl, fun _ _ => rfl⟩⟩
  | cons a as ih =>
    rw [List.pairwise_cons] at hd
    obtain ⟨ss, h1, h2⟩ := ih (fun x hx => has x (by simp [hx])) (fun x hx => hok x (by simp [hx]))
      (fun x hx => hv x (by simp [hx])) hd.2
    have ha := hok a (by simp)
    -- assignments
    have assign : ∀ r v, evalRhs env r = .ok v → ¬ Computed a → (∀ w, v = w →
        (a.ctor = true → w = envVal env a.name.orig) ∧ (a.ctor = false → w = emptyOf a.type)) →
        DGNCattribute n.name a = .ok (.assign (n.name.upr ++ sU ++ a.name.upr) r) →
        ∃ ss, DGNCattributes n.name (a :: as) = .ok ss ∧ ∀ rest o, IsNode n o →
        ∃ f g, runStmts h env (ss ++ rest) o = runStmts h env rest { o with plain := f, isSet := g } ∧
          (∀ b ∈ a :: as, b.ctor = true → f b.name.lwr = some (envVal env b.name.orig)) ∧
          (∀ b ∈ a :: as, b.ctor = false → ¬ Computed b → f b.name.lwr = some (emptyOf b.type)) ∧
          (∀ b ∈ a :: as, Computed b → g (sU ++ b.name.lwr) = some false) ∧
          (∀ x, (∀ b ∈ a :: as, b.name.lwr ≠ x) → f x = o.plain x) ∧
          ∀ x, (∀ b ∈ a :: as, sU ++ b.name.lwr ≠ x) → g x = o.isSet x := by
      intro r v hr hcl hval hs
      refine ⟨.assign (n.name.upr ++ sU ++ a.name.upr) r :: ss, by simp only [DGNCattributes, hs, h1, Res.bind_ok], ?_⟩
      intro rest o ho
      have acc := access_plain hc n hn a (has a (by simp)) hcl o ho true
      obtain ⟨f, g, h3, h4, h5, h6, h7, h8⟩ :=
        h2 rest { o with plain := fun x => if x = a.name.lwr then some v else o.plain x } ho
      have hfa : f a.name.lwr = some v := by
        rw [h7 _ (fun y hy => (hd.1 y hy).symm)]; simp
      refine ⟨f, g, ?_, ?_, ?_, ?_, ?_, ?_⟩
      · simp only [List.cons_append, runStmts, runStmt, hr, acc, Res.bind_ok, store]
        exact h3
      · intro b hb hct
        rcases List.mem_cons.1 hb with e | hm
        · subst e; rw [hfa, (hval v rfl).1 hct]
        · exact h4 b hm hct
      · intro b hb hct hcb
        rcases List.mem_cons.1 hb with e | hm
        · subst e; rw [hfa, (hval v rfl).2 hct]
        · exact h5 b hm hct hcb
      · intro b hb hcb
        rcases List.mem_cons.1 hb with e | hm
        · subst e; exact absurd hcb hcl
        · exact h6 b hm hcb
      · intro x hx
        rw [h7 x (fun y hy => hx y (by simp [hy]))]
        have : x ≠ a.name.lwr := (hx a (by simp)).symm
        simp [this]
      · intro x hx
        exact h8 x (fun y hy => hx y (by simp [hy]))
    cases hct : a.ctor with
    | true =>
      refine assign (.var a.name.orig) _ (hv a (by simp) hct) (ha.ctor hct) ?_ (by unfold DGNCattribute; rw [hct])
      intro w e
      exact ⟨fun _ => e.symm, fun hf => by rw [hct] at hf; cases hf⟩
    | false =>
      by_cases hcomp : Computed a
      · have hor := (or_iff a).2 hcomp
        refine ⟨.unset n.name.lwr (sU ++ a.name.lwr) :: ss, ?_, ?_⟩
        · simp only [DGNCattributes, DGNCattribute, hct, hor, h1, Res.bind_ok]
        · intro rest o ho
          have hnm := hasNamed_valued hc n hn a (has a (by simp)) hcomp
          obtain ⟨f, g, h3, h4, h5, h6, h7, h8⟩ :=
            h2 rest { o with isSet := fun x => if x = sU ++ a.name.lwr then some false else o.isSet x } ho
          refine ⟨f, g, ?_, ?_, ?_, ?_, ?_, ?_⟩
          · have : (o.node == n.name.lwr) = true := by simp [ho.2]
            simp only [List.cons_append, runStmts, runStmt, hnm, this, Bool.and_true, Res.bind_ok]
            exact h3
          · intro b hb hcb
            rcases List.mem_cons.1 hb with e | hm
            · subst e; rw [hct] at hcb; cases hcb
            · exact h4 b hm hcb
          · intro b hb hcb hcc
            rcases List.mem_cons.1 hb with e | hm
            · subst e; exact absurd hcomp hcc
            · exact h5 b hm hcb hcc
          · intro b hb hcb
            rcases List.mem_cons.1 hb with e | hm
            · subst e
              rw [h8]
              · simp
              · intro y hy e
                exact hd.1 y hy (List.append_cancel_left e).symm
            · exact h6 b hm hcb
          · intro x hx
            exact h7 x (fun y hy => hx y (by simp [hy]))
          · intro x hx
            rw [h8 x (fun y hy => hx y (by simp [hy]))]
            have : x ≠ sU ++ a.name.lwr := (hx a (by simp)).symm
            simp [this]
      · have hor : (a.inh || a.syn) = false := by
          cases hx : (a.inh || a.syn) with
          | true => exact absurd ((or_iff a).1 hx) hcomp
          | false => rfl
        by_cases hu : a.type = .user
        · refine assign .zero .zero rfl hcomp ?_ (by unfold DGNCattribute; rw [hct, hor, hu])
          intro w e
          exact ⟨fun hf => by rw [hct] at hf; (cases hf), fun _ => by rw [← e, hu]; rfl⟩
        · obtain ⟨d, hd1, hd2⟩ := default_ok a.type hu env
          refine assign d _ hd2 hcomp ?_ ?_
          · intro w e
            exact ⟨fun hf => by rw [hct] at hf; (cases hf), fun _ => e.symm⟩
          · unfold DGNCattribute
            rw [hct, hor]
            dsimp only
            split
            · rename_i e; exact absurd e hu
            · rename_i t e
              rw [hd1, Res.bind_ok]

/-! ## Names of parameters -/

theorem low_idem (l : CStr) : (l.map lowerB).map lowerB = l.map lowerB := by
  rw [List.map_map]
  exact List.map_congr_left fun b _ => lowerB_idem b

theorem paramName_low {a : Attr} (h : WfId a.name) : (paramName a).map lowerB = a.name.lwr := by
  unfold paramName
  split
  · rw [h.1, low_idem]
  · rw [h.1]

theorem keywords_low : ∀ k ∈ keywords, k.map lowerB = k := by decide

theorem paramName_keyword {a : Attr} (h : WfId a.name) (hk : a.name.lwr ∉ keywords) : paramName a ∉ keywords := by
  intro hm
  apply hk
  rw [← paramName_low h, keywords_low _ hm]
  exact hm

theorem sVar_eq : "node".toUTF8.toList = sVar := by decide +kernel

theorem sChildren_eq : "_children".toUTF8.toList = sChildren := by decide +kernel

theorem struct_keywords {p : Prog} {h : Header} (hc : compile p = .ok h) (n : Node) (hn : n ∈ p.nodes) :
    (∀ c ∈ n.children, c.name.lwr ∉ keywords) ∧ ∀ a ∈ n.attrs, ¬ Computed a → a.name.lwr ∉ keywords := by
  obtain ⟨h1, _, _, _, h5, _, _⟩ := compile_ok hc
  obtain ⟨as, h6, h7⟩ := inodes_mem h1 n hn
  have h8 := List.all_eq_true.1 h5 _ h7
  simp only [structOk, Bool.and_eq_true, Bool.not_eq_true', List.any_eq_false, List.all_eq_true,
    List.contains_eq_mem, decide_eq_true_eq, List.mem_map, forall_exists_index, and_imp,
    forall_apply_eq_imp_iff₂] at h8
  obtain ⟨⟨_, h9⟩, h10⟩ := h8
  constructor
  · intro c hcm
    have hne : n.children ≠ [] := fun e => by rw [e] at hcm; simp at hcm
    have hm : (Member.children (sChildrenTag ++ n.name.upr) (sChildrenTag ++ n.name.upr ++ sStruct)
      (n.name.lwr ++ sChildren) (n.children.map fun c => c.name.lwr)) ∈ childMember n ++ as :=
      List.mem_append_left _ (by rw [childMember_ne hne]; exact List.mem_singleton.2 rfl)
    exact (h10 _ hm).2 _ (List.mem_map_of_mem (f := fun c : Child => c.name.lwr) hcm)
  · intro a ha hcl
    obtain ⟨t, _, _, h11⟩ := attributes_mem h6 a ha
    exact h9 _ (List.mem_append_right _ (h11 hcl))

theorem distinct_lwr {l : List Id} (h : Distinct l) (hw : ∀ i ∈ l, WfId i) : l.Pairwise fun a b => a.lwr ≠ b.lwr := by
  unfold Distinct at h
  refine List.Pairwise.imp_of_mem ?_ h
  intro a b ha hb hab e
  exact hab ((sameName_iff (hw a ha) (hw b hb)).2 e)

/-- The names of the parameters are different identifiers. -/
theorem params_distinct {p : Prog} (hw : WfProg p) (n : Node) (hn : n ∈ p.nodes) :
    ((n.children.filter (·.ctor)).map (·.name.lwr) ++ (n.attrs.filter (·.ctor)).map paramName).Pairwise (· ≠ ·) := by
  have hd := distinct_lwr (hw.fields n hn) (by
    intro i hi
    rcases List.mem_append.1 hi with h | h
    · obtain ⟨c, hc, e⟩ := List.mem_map.1 h; rw [← e]; exact hw.childIds n hn c hc
    · obtain ⟨a, ha, e⟩ := List.mem_map.1 h; rw [← e]; exact (hw.attrs n hn a ha).wf)
  rw [List.pairwise_append, List.pairwise_map, List.pairwise_map] at hd
  obtain ⟨h1, h2, h3⟩ := hd
  rw [List.pairwise_append, List.pairwise_map, List.pairwise_map]
  refine ⟨h1.filter _, ?_, ?_⟩
  · refine List.Pairwise.imp_of_mem ?_ (h2.filter _)
    intro a b ha hb hab e
    have ha := (hw.attrs n hn a (List.mem_filter.1 ha).1).wf
    have hb := (hw.attrs n hn b (List.mem_filter.1 hb).1).wf
    apply hab
    rw [← paramName_low ha, ← paramName_low hb, e]
  · intro x hx y hy e
    obtain ⟨c, hc, ec⟩ := List.mem_map.1 hx
    obtain ⟨a, ha, ea⟩ := List.mem_map.1 hy
    have hc := (List.mem_filter.1 hc).1
    have ha := (List.mem_filter.1 ha).1
    refine h3 _ (List.mem_map_of_mem hc) _ (List.mem_map_of_mem ha) ?_
    have hca := hw.childIds n hn c hc
    rw [← paramName_low (hw.attrs n hn a ha).wf, ea, ← e, ← ec, hca.1, low_idem]

/-- The constructor of a node. -/
theorem construct_spec {p : Prog} (hw : WfProg p) {h : Header} (hcomp : compile p = .ok h) (n : Node) (hn : n ∈ p.nodes)
    (hok : CtorOk p n) (args : List Val) (hargs : args.length = arity n) :
    ∃ o, construct p n args = .ok o ∧ Constructed n args o := by
  have hc := compiled hcomp
  obtain ⟨tk, ps, h1, h2, h3, h4⟩ := difNode n (hw.attrs n hn) false
  have hpd := params_distinct hw n hn
  have hwn := hw.nodeIds n hn
  obtain ⟨hkc, hka⟩ := struct_keywords hcomp n hn
  have hd := distinct_lwr (hw.fields n hn) (by
    intro i hi
    rcases List.mem_append.1 hi with h | h
    · obtain ⟨c, hc, e⟩ := List.mem_map.1 h; rw [← e]; exact hw.childIds n hn c hc
    · obtain ⟨a, ha, e⟩ := List.mem_map.1 h; rw [← e]; exact (hw.attrs n hn a ha).wf)
  rw [List.pairwise_append, List.pairwise_map, List.pairwise_map] at hd
  obtain ⟨hdc, hda, _⟩ := hd
  -- the parameters
  have hlen : ps.length = arity n := by
    have := congrArg List.length h3
    simp only [List.length_map, List.length_append, ← List.countP_eq_length_filter] at this
    exact this
  have hpar : (ps.all (paramOk p) && !twice (ps.map (·.name))) = true := by
    rw [Bool.and_eq_true, List.all_eq_true]
    constructor
    · intro q hq
      have hqn : q.name ∈ ps.map (·.name) := List.mem_map_of_mem hq
      rw [h3] at hqn
      have hname : q.name ∉ keywords ∧ q.name ≠ sVar := by
        rcases List.mem_append.1 hqn with hx | hx
        · obtain ⟨c, hcm, e⟩ := List.mem_map.1 hx
          obtain ⟨hcm, hct⟩ := List.mem_filter.1 hcm
          rw [← e]
          refine ⟨hkc c hcm, ?_⟩
          have := hok.child c hcm hct
          rw [sVar_eq, ← lwr_low (hw.childIds n hn c hcm)] at this
          exact this
        · obtain ⟨a, ham, e⟩ := List.mem_map.1 hx
          obtain ⟨ham, hct⟩ := List.mem_filter.1 ham
          have hao := hw.attrs n hn a ham
          rw [← e]
          refine ⟨paramName_keyword hao.wf (hka a ham (hao.ctor hct)), ?_⟩
          have h5 := hok.attr a ham hct
          rw [sVar_eq] at h5
          unfold paramName
          split
          · rename_i hu
            rw [lwr_low hao.wf, ← hok.user a ham hct hu]
            exact h5
          · exact h5
      unfold paramOk
      have e1 : keywords.contains q.name = false := by simpa using hname.1
      have e2 : (q.name != sVar) = true := by simpa using hname.2
      rw [e1, e2]
      simp only [Bool.not_false, Bool.and_self, Bool.true_and]
      split
      · rename_i t ht
        obtain ⟨a, ham, hct, hty, r, hr, e⟩ := h4 q hq t ht
        obtain ⟨en, hen, hee⟩ := hok.enum a ham hct hty r (by rw [hr]; exact rfl)
        simp only [List.contains_eq_mem, decide_eq_true_eq, e, ← hee]
        exact List.mem_map_of_mem (f := fun i : Id => i.orig) hen
      · rfl
    · rw [h3, (twice_false _).2 hpd]; rfl
  -- the environment
  have look : ∀ (i : Nat) (x : CStr), (ps.map (·.name))[i]? = some x →
      ∃ v, args[i]? = some v ∧ evalRhs ((ps.map (·.name)).zip args) (.var x) = .ok v ∧
        evalRhs ((ps.map (·.name)).zip args) (.var x) = .ok (envVal ((ps.map (·.name)).zip args) x) ∧
        envVal ((ps.map (·.name)).zip args) x = v := by
    intro i x hx
    have hi : i < args.length := by
      have := (List.getElem?_eq_some_iff.1 hx).1
      rw [List.length_map] at this
      omega
    have hv : args[i]? = some args[i] := List.getElem?_eq_getElem hi
    obtain ⟨e1, e2⟩ := evalVar (zip_find _ _ (by rw [h3]; exact hpd) i x _ hx hv)
    exact ⟨_, hv, by rw [e1, e2], e1, e2⟩
  have lookC : ∀ i c, n.children[i]? = some c → c.ctor = true → ∃ v,
      args[(n.children.take i).countP (·.ctor)]? = some v ∧
      evalRhs ((ps.map (·.name)).zip args) (.var c.name.lwr) = .ok (envVal ((ps.map (·.name)).zip args) c.name.lwr) ∧
      envVal ((ps.map (·.name)).zip args) c.name.lwr = v := by
    intro i c hi hct
    have e := filter_get (fun c : Child => c.ctor) n.children i c hi hct
    obtain ⟨v, e1, _, e3, e4⟩ := look ((n.children.take i).countP (·.ctor)) c.name.lwr (by
      rw [h3, List.getElem?_append_left, List.getElem?_map, e]
      · rfl
      · rw [List.length_map]; exact (List.getElem?_eq_some_iff.1 e).1)
    exact ⟨v, e1, e3, e4⟩
  have lookA : ∀ i a, n.attrs[i]? = some a → a.ctor = true → ∃ v,
      args[n.children.countP (·.ctor) + (n.attrs.take i).countP (·.ctor)]? = some v ∧
      evalRhs ((ps.map (·.name)).zip args) (.var a.name.orig) = .ok (envVal ((ps.map (·.name)).zip args) a.name.orig) ∧
      envVal ((ps.map (·.name)).zip args) a.name.orig = v := by
    intro i a hi hct
    have ham := List.mem_of_getElem? hi
    have hpn : paramName a = a.name.orig := by
      unfold paramName
      split
      · rename_i hu
        rw [lwr_low (hw.attrs n hn a ham).wf, ← hok.user a ham hct hu]
      · rfl
    have e := filter_get (fun a : Attr => a.ctor) n.attrs i a hi hct
    obtain ⟨v, e1, _, e3, e4⟩ := look (n.children.countP (·.ctor) + (n.attrs.take i).countP (·.ctor)) a.name.orig (by
      rw [h3, List.getElem?_append_right]
      · rw [List.length_map, ← List.countP_eq_length_filter, Nat.add_sub_cancel_left, List.getElem?_map, e, ← hpn]
        rfl
      · rw [List.length_map, ← List.countP_eq_length_filter]
        omega)
    exact ⟨v, e1, e3, e4⟩
  -- run
  obtain ⟨ss, hss, hrun⟩ := runAttributes hc n hn ((ps.map (·.name)).zip args) n.attrs (fun _ h => h) (hw.attrs n hn)
    (fun a ha hct => by
      obtain ⟨i, hi⟩ := List.getElem?_of_mem ha
      obtain ⟨v, _, e, _⟩ := lookA i a hi hct
      exact e) hda
  have ho0 : IsNode n (newObj n.name.upr n.name.lwr) := ⟨rfl, rfl⟩
  obtain ⟨hnum, f, hf1, hf2, _⟩ := runChildren hc n hn ((ps.map (·.name)).zip args)
    (ss ++ [.numChildren (DGNCchildren n.name n.children 0).2] ++ arrayStmt n.name (DGNCchildren n.name n.children 0).2)
    n.children (fun _ h => h)
    (fun c hcm hct => by
      obtain ⟨i, hi⟩ := List.getElem?_of_mem hcm
      obtain ⟨v, _, e, _⟩ := lookC i c hi hct
      exact e) hdc 0 (newObj n.name.upr n.name.lwr) ho0
  obtain ⟨g, k, hg1, hg2, hg3, hg4, _, _⟩ := hrun
    ([.numChildren (DGNCchildren n.name n.children 0).2] ++ arrayStmt n.name (DGNCchildren n.name n.children 0).2)
    { newObj n.name.upr n.name.lwr with child := f } ho0
  have hstruct : h.structs.any (fun s => s.tag == sData ++ n.name.upr && s.node == n.name.lwr) = true := by
    obtain ⟨as, _, h7⟩ := inodes_mem hc.structs n hn
    rw [List.any_eq_true]
    exact ⟨_, h7, by simp⟩
  have hfin : ∀ o : Obj, o.node = n.name.lwr → o.array = none →
      runStmts h ((ps.map (·.name)).zip args)
        ([.numChildren (DGNCchildren n.name n.children 0).2] ++ arrayStmt n.name (DGNCchildren n.name n.children 0).2) o =
      .ok { o with num := n.children.length, array := if n.children = [] then none else some (n.name.lwr ++ sChildren) } := by
    intro o ho1 ho2
    rw [hnum, Nat.zero_add]
    by_cases hne : n.children = []
    · rw [hne]
      simp [arrayStmt, runStmts, runStmt, ho2]
    · obtain ⟨m, hm⟩ : ∃ m, n.children.length = m + 1 := by
        cases hl : n.children with
        | nil => exact absurd hl hne
        | cons x l => exact ⟨l.length, rfl⟩
      rw [hm]
      have := hasNamed_children hc n hn hne
      simp [arrayStmt, runStmts, runStmt, this, ho1, hne]
  refine ⟨⟨n.name.upr, n.name.lwr, f, g, k, n.children.length,
    if n.children = [] then none else some (n.name.lwr ++ sChildren)⟩, ?_, ?_⟩
  · unfold construct
    rw [hcomp, Res.bind_ok]
    unfold DGNCinode
    simp only [DGIFinodes, h1, hss, Res.bind_ok, h2, hpar, hstruct, hargs, hlen, beq_self_eq_true]
    rw [List.append_assoc, List.append_assoc, ← List.append_assoc ss, hf1, List.append_assoc, hg1]
    exact hfin _ rfl rfl
  · constructor
    · exact ⟨upr_up hwn, lwr_low hwn⟩
    · intro i c hi hct
      have hcm := List.mem_of_getElem? hi
      obtain ⟨v, e1, _, e3⟩ := lookC i c hi hct
      rw [e1, ← e3, ← lwr_low (hw.childIds n hn c hcm)]
      have := hf2 c hcm
      rw [hct] at this
      exact this
    · intro c hcm hct
      rw [← lwr_low (hw.childIds n hn c hcm)]
      have := hf2 c hcm
      rw [hct] at this
      exact this
    · intro i a hi hct
      have ham := List.mem_of_getElem? hi
      obtain ⟨v, e1, _, e3⟩ := lookA i a hi hct
      rw [e1, ← e3, ← lwr_low (hw.attrs n hn a ham).wf]
      exact hg2 a ham hct
    · intro a ham hct hcl
      rw [← lwr_low (hw.attrs n hn a ham).wf]
      exact hg3 a ham hct hcl
    · intro a ham hcl
      rw [← lwr_low (hw.attrs n hn a ham).wf]
      exact hg4 a ham hcl
    · rfl
    · rw [sChildren_eq, ← lwr_low hwn]

end Verif.Spec.NodeGen
