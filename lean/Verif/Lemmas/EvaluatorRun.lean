import Verif.Lemmas.EvaluatorGen

/-!
# Lemmas about the generated evaluator: running it on a tree
-/

namespace Verif.Evaluator
open Verif.Str Verif.Ids Verif.Induce Verif.Schedule Verif.Visits Verif.Spec.Induce Verif.Spec.AttrTree Verif.Spec.Evaluate
open Verif.Spec.Evaluator Verif.AttrTree Verif.Evaluate
open Verif.Spec.Visits (At Step Runs VisitOf Alternatives withInputs)
open Verif.Spec.VisitGen (SeqOk Honest Apart unpack fnOf keyOf childKey allOk need Key evals visitsOf seqMeaning evalMeaning visitMeaning visitRun storeAll)

/-! ## Visit functions return what is declared -/

theorem retFields_names {V : Type} {env : VisitGen.Env V} : ∀ {fs : List (CStr × CStr)} {l : List (CStr × V)},
    VisitGen.retFields env fs = .ok l → l.map (·.1) = fs.map (·.1)
  | [], l, h => by cases h; rfl
  | (f, v) :: fs, l, h => by
    rw [VisitGen.retFields] at h
    obtain ⟨x, _, h⟩ := Res.bind_eq_ok.1 h
    obtain ⟨l', h1, h⟩ := Res.bind_eq_ok.1 h
    cases h
    simp [retFields_names h1]

theorem ret_unpack {V : Type} {v : VisitGen.Visit} (ho : ∀ a ∈ v.outputs, a.inode = none) {env : VisitGen.Env V} {r : VisitGen.RVal V}
    (h : VisitGen.runRet env (VisitGen.returnOf v) = .ok r) : (unpack v.outputs r).isSome = true := by
  unfold VisitGen.returnOf at h
  cases hv : v.outputs with
  | nil => rw [hv] at h; cases h; rfl
  | cons a l =>
    cases l with
    | nil =>
      rw [hv] at h
      simp only [VisitGen.runRet] at h
      obtain ⟨x, _, h⟩ := Res.bind_eq_ok.1 h
      cases h
      rfl
    | cons b l =>
      rw [hv] at h
      simp only [VisitGen.runRet] at h
      obtain ⟨fs, h1, h⟩ := Res.bind_eq_ok.1 h
      cases h
      have e := retFields_names h1
      rw [unpack, if_pos]
      · rfl
      · rw [e, List.map_map]
        refine List.map_congr_left fun x hx => ?_
        exact VisitGen.varText_own (ho x (by rw [hv]; exact hx))

theorem honest {V : Type} {D : Names} {S : Spec} {P : Plan} {Vs Q} {prog : Prog} (pr : Program D S P Vs Q prog)
    (ha : Apart (allVisits D S P)) (hv : ∀ v ∈ allVisits D S P, Spec.VisitGen.VisitOk v) (user : CStr → List V → V) (n : INode)
    (kids : Nat → Tree) : Honest (allVisits D S P) (world ⟨D, S, prog, user⟩ n kids) := by
  intro v hvm expr xs s r s' h
  simp only [world] at h
  cases hk : kidAt D n expr with
  | none => rw [hk] at h; cases h
  | some c =>
    rw [hk] at h
    obtain ⟨⟨r', b⟩, h1, h2⟩ := Res.bind_eq_ok.1 h
    cases h2
    cases hT : kids c.addr with
    | null => rw [hT, call] at h1; cases h1
    | node m ks =>
      rw [hT] at h1
      cases hf : prog.fns.find? (fun f => f.name == fnOf v) with
      | none => rw [call] at h1; simp only [hf] at h1; cases h1
      | some f =>
        rw [call_node ⟨D, S, prog, user⟩ m ks _ _ _ (by exact hf), VisitGen.runFn] at h1
        obtain ⟨env, _, h1⟩ := Res.bind_eq_ok.1 h1
        obtain ⟨⟨env', s''⟩, _, h1⟩ := Res.bind_eq_ok.1 h1
        obtain ⟨r'', h3, h1⟩ := Res.bind_eq_ok.1 h1
        cases h1
        obtain ⟨v', hv', e1, e2⟩ := pr.all f (List.mem_of_find?_eq_some hf)
        have e3 : f.name = fnOf v := by simpa using List.find?_some hf
        have := VisitGen.visit_unique ha hv' hvm (e1.symm.trans e3)
        subst this
        rw [e2] at h3
        exact ret_unpack (fun a h => (hv v' hv').1 a (List.mem_append_right _ h)) h3

/-! ## Stores -/

theorem below_back {V : Type} (c : Nat) (b s : Store V) : below c (back c b s) = b := by
  funext v; simp [below, back]

theorem below_back_ne {V : Type} {c d : Nat} (h : d ≠ c) (b s : Store V) : below d (back c b s) = below d s := by
  funext v; simp [below, back, h]

theorem below_set {V : Type} (c a : Nat) (s : Store V) (x : V) : below c (setAt s ([], a) x) = below c s := by
  funext v; simp [below, setAt]

theorem set_eq {V : Type} {s z : Store V} {v u : Vertex} {x : V} (hx : z v = some x) (h : s u = z u ∨ u = v) :
    setAt s v x u = z u := by
  unfold setAt
  by_cases e : u = v
  · subst e; simp [hx]
  · simp only [e, decide_false]
    exact h.resolve_right e

theorem inTree_root {n : INode} {kids : Nat → Tree} {a : Nat} (h : InTree (.node n kids) ([], a)) :
    ∃ x ∈ n.attrs, (x.inh = true ∨ x.syn = true) ∧ x.addr = a := by
  generalize hv : (([], a) : Vertex) = v at h
  cases h with
  | root h1 h2 => exact ⟨_, h1, h2, (Prod.mk.inj hv).2.symm⟩
  | deeper _ _ => exact absurd (Prod.mk.inj hv).1 (by simp)

theorem inTree_cons {n : INode} {kids : Nat → Tree} {c : Nat} {path : List Nat} {a : Nat}
    (h : InTree (.node n kids) (c :: path, a)) : (∃ ch ∈ n.children, ch.addr = c) ∧ InTree (kids c) (path, a) := by
  generalize hv : ((c :: path, a) : Vertex) = v at h
  cases h with
  | root h1 h2 => exact absurd (Prod.mk.inj hv).1 (by simp)
  | @deeper _ _ ch v h1 h2 =>
    obtain ⟨e1, e2⟩ := Prod.mk.inj hv
    obtain ⟨e1, e3⟩ := List.cons.inj e1
    subst e1 e2 e3
    exact ⟨⟨ch, h1, rfl⟩, h2⟩

/-- Attributes that are not to be computed have their values. -/
def Frame {V : Type} (T : Tree) (s z : Store V) : Prop := ∀ v, ¬ InTree T v → s v = z v

theorem Frame.below {V : Type} {n : INode} {kids : Nat → Tree} {s z : Store V} (h : Frame (.node n kids) s z) {c : Nat} :
    Frame (kids c) (below c s) (below c z) := by
  intro v hv
  exact h _ fun hi => hv (inTree_cons hi).2

theorem Frame.back {V : Type} {n : INode} {kids : Nat → Tree} {s z : Store V} (h : Frame (.node n kids) s z) {c : Child}
    (hc : c ∈ n.children) {b : Store V} (hb : Frame (kids c.addr) b (Evaluator.below c.addr z)) :
    Frame (.node n kids) (back c.addr b s) z := by
  intro v hv
  obtain ⟨v1, v2⟩ := v
  cases v1 with
  | nil => exact h _ hv
  | cons d path =>
    by_cases e : d = c.addr
    · subst e
      simp only [Evaluator.back, decide_true]
      exact hb (path, v2) fun hi => hv (.deeper (v := (path, v2)) hc hi)
    · simp only [Evaluator.back, e, decide_false]
      exact h _ hv

/-! ## What is computed -/

/-- The attributes that are known (`A`) have their values, given what that means for the subtrees. -/
structure HoldS {V : Type} (P : Plan) (e : Env) (n : INode) (kids : Nat → Tree) (sub : Nat → Nat → Store V → Store V → Prop)
    (A : Spec.Visits.Known) (s z : Store V) : Prop where
  own : ∀ x ∈ n.attrs, ∀ p, At e n.addr x.addr p → A (.node p) → s ([], x.addr) = z ([], x.addr)
  kid : ∀ c ∈ n.children, ∀ m ks ws, kids c.addr = .node m ks → P.visits m.addr = some ws →
    ∃ d, (∀ i, A (.visit c.addr i) ↔ i < d) ∧ sub c.addr (min d ws.length) (below c.addr s) (below c.addr z)

/-- After `j` visits. -/
def Hold {V : Type} (P : Plan) (En : INode → Env) (St : INode → Nat → Spec.Visits.Known) : Tree → Nat → Store V → Store V → Prop
  | .null, _, _, _ => True
  | .node n kids, j, s, z => HoldS P (En n) n kids (fun c => Hold P En St (kids c)) (St n j) s z

/-- Everything that is needed. -/
structure Setup (D : Names) (S : Spec) (P : Plan) (En : INode → Env) (Sq : INode → List (List Ev))
    (St : INode → Nat → Spec.Visits.Known) (Vs : INode → List AVisit) (prog : Prog) : Prop where
  ok : SpecOk S
  world : World S P En Sq St Vs
  named : Named D S
  classic : Classic S
  uses : UsesNoInherited S
  gen : Generable D S P
  prog : Program D S P Vs (fun n => (Sq n).map fun seq => seq.map (act (En n).g)) prog

section
variable {V : Type} {D : Names} {S : Spec} {P : Plan} {En : INode → Env} {Sq : INode → List (List Ev)}
  {St : INode → Nat → Spec.Visits.Known} {Vs : INode → List AVisit} {prog : Prog} (w : Setup D S P En Sq St Vs prog)
  (user : CStr → List V → V)
include w

/-- The outputs of the visits that are done have their values. -/
theorem hold_outputs {n : INode} (hn : n ∈ S.nodes) {kids : Nat → Tree} {j : Nat} (hj : j ≤ (Vs n).length) {s z : Store V}
    (h : Hold P En St (.node n kids) j s z) {i : Nat} (hi : i < j) {v : AVisit} (hv : (Vs n)[i]? = some v) {x : Attr}
    (hx : x ∈ n.attrs) (ho : x.addr ∈ v.outputs) : s ([], x.addr) = z ([], x.addr) := by
  rw [Hold] at h
  have f := w.world.node n hn
  obtain ⟨v', seq, hv', hq⟩ := st_seq w.world hn (k := i) (by omega)
  rw [hv] at hv'
  cases hv'
  obtain ⟨p, h1, h2⟩ := (f.step i v seq hv hq).2 _ ho
  rw [f.self] at h1
  exact h.own x hx p h1 (st_mono w.world hn (by omega) hj _ h2)

/-- The attribute of the node that a child is has the kind of the attribute of the child, computed or not. -/
theorem kinds {t : Nat} {m : INode} {ks} (hm : m ∈ S.nodes) (ht : OfType S t (.node m ks)) {x : Attr} (hx : AttrIn S t x) :
    ∃ b ∈ m.attrs, b.name = x.name ∧ b.inh = x.inh ∧ b.syn = x.syn := by
  rcases ht with e | ⟨s, hs, e, hms⟩
  · subst e
    exact ⟨x, attrIn_node w.ok.toChecked hm hx, rfl, rfl, rfl⟩
  · subst e
    exact w.classic.members s hs m hms x (attrIn_set w.ok.toChecked hs hx)

/-- What equations use has its value. -/
theorem arg_value {n : INode} (hn : n ∈ S.nodes) {kids : Nat → Tree}
    (hk : ∀ c ∈ n.children, OfType S c.type (kids c.addr) ∧ Fits S (kids c.addr)) {A : Spec.Visits.Known} {s z : Store V}
    (ei : EInv (En n) A) (hs : HoldS P (En n) n kids (fun c => Hold P En St (kids c)) A s z) (fr : Frame (.node n kids) s z)
    {q : Eqn} (hq : q ∈ n.eqs) {d : Ref} (hd : d ∈ q.args)
    (hA : (d.attr.inh = true ∨ d.attr.syn = true) → ∃ j, At (En n) (place n d).1 (place n d).2 j ∧ A (.node j))
    {u : Vertex} (hu : Means n kids d u) : s u = z u := by
  have f := w.world.node n hn
  have hr := w.classic.args n hn q hq d hd
  cases hu with
  | own e =>
    simp only [Resolved, e] at hr
    by_cases hc : d.attr.inh = true ∨ d.attr.syn = true
    · obtain ⟨j, hj, hA⟩ := hA hc
      simp only [place, e, Option.getD_none] at hj
      exact hs.own _ hr j hj hA
    · refine fr _ ?_
      intro hi
      obtain ⟨x, hx, hcx, hxa⟩ := inTree_root hi
      have := addr_inj w.world (attrIn_mem (own_attrIn hn hx)) (attrIn_mem (own_attrIn hn hr)) hxa
      subst this
      exact hc hcx
  | @child c m k b e e1 e2 e3 =>
    simp only [Resolved, e] at hr
    obtain ⟨ch, hch, rfl, hat⟩ := hr
    have hat : AttrIn S ch.type d.attr := hat
    obtain ⟨ot, ft⟩ := hk ch hch
    rw [e1] at ot ft
    rw [Fits] at ft
    have hm := ft.1
    obtain ⟨b', hb', n', ki, ks'⟩ := kinds w hm ot hat
    have := name_inj w.ok.toChecked hm hb' e2 (n'.trans e3.symm)
    subst this
    have ninh := w.uses n hn q hq d hd (by rw [e]; simp)
    by_cases hc : d.attr.syn = true
    · obtain ⟨j, hj, hA⟩ := hA (Or.inr hc)
      simp only [place, e, Option.getD_some] at hj
      have hcc : ch.addr ∈ (En n).children := (f.kids _).2 ⟨ch, hch, rfl⟩
      obtain ⟨kk, v, ⟨vs, hv1, hv2⟩, ho, hA'⟩ := ei.syn _ hcc _ _ hj (by rw [f.syn _ _ hat]; exact hc) hA
      rw [f.typ ch hch, f.vis] at hv1
      have hw := (w.world.node m hm).own
      obtain ⟨j', w', hj', hw', ho'⟩ := (fit w.world hm ot hv1 hw).2.2 kk v hv2 _ hat ho b' hb' n'
      obtain ⟨d', hd', hsub⟩ := hs.kid ch hch m k _ e1 hw
      have hlt := (hd' kk).1 hA'
      have hl : j' < (Vs m).length := (List.getElem?_eq_some_iff.1 hw').1
      simp only [e1] at hsub
      exact hold_outputs w hm (by omega) hsub (i := j') (by omega) hw' hb' ho'
    · have hs' : b'.syn = false := by rw [ks']; simpa using hc
      have fr' := fr.below (c := ch.addr)
      refine fr' ([], b'.addr) ?_
      rw [e1]
      intro hi
      obtain ⟨x, hx, hcx, hxa⟩ := inTree_root hi
      have := addr_inj w.world (attrIn_mem (own_attrIn hm hx)) (attrIn_mem (own_attrIn hm hb')) hxa
      subst this
      rw [ki, ninh, hs'] at hcx
      simp at hcx

/-- The arguments of an equation have values. -/
theorem gets_exist {n : INode} {kids : Nat → Tree}
    (hk : ∀ c ∈ n.children, OfType S c.type (kids c.addr) ∧ Fits S (kids c.addr)) {z : Store V}
    (ht : ∀ v, Has (.node n kids) v → z v ≠ none) :
    ∀ {args : List Ref}, (∀ d ∈ args, Resolved S n d) → ∃ xs, Gets n kids z args xs
  | [], _ => ⟨[], .nil⟩
  | d :: args, hr => by
    obtain ⟨xs, ih⟩ := gets_exist hk ht fun d hd => hr d (List.mem_cons_of_mem _ hd)
    have r := hr d List.mem_cons_self
    cases hd : d.child with
    | none =>
      simp only [Resolved, hd] at r
      obtain ⟨x, hx⟩ := Option.ne_none_iff_exists'.1 (ht _ (.root r))
      exact ⟨x :: xs, .value (.own hd) hx ih⟩
    | some c =>
      simp only [Resolved, hd] at r
      obtain ⟨ch, hch, rfl, hat⟩ := r
      have hat : AttrIn S ch.type d.attr := hat
      cases hT : kids ch.addr with
      | null => exact ⟨xs, .missing hd hT ih⟩
      | node m ks =>
        obtain ⟨ot, ft⟩ := hk ch hch
        rw [hT] at ot ft
        rw [Fits] at ft
        obtain ⟨b, hb, n', _, _⟩ := kinds w ft.1 ot hat
        obtain ⟨x, hx⟩ := Option.ne_none_iff_exists'.1
          (ht _ (.deeper (v := ([], b.addr)) hch (by rw [hT]; exact .root hb)))
        exact ⟨x :: xs, .value (.child hd hT hb n') hx ih⟩

end

/-! ## Local variables -/

/-- The value of the attribute that a key means; nothing is said for a missing child. -/
def Expected {V : Type} (D : Names) (n : INode) (kids : Nat → Tree) (z : Store V) : Key → V → Prop
  | (none, nm), y => ∀ x ∈ n.attrs, x.name = nm → z ([], x.addr) = some y
  | (some cn, nm), y => ∀ c ∈ n.children, (D.child c.addr).lwr = cn → ∀ m ks b, kids c.addr = .node m ks → b ∈ m.attrs →
      b.name = nm → z ([c.addr], b.addr) = some y

/-- The variables have the right values. -/
def Right {V : Type} (D : Names) (n : INode) (kids : Nat → Tree) (z : Store V) (K : Spec.VisitGen.Known V) : Prop :=
  ∀ k y, K k = some y → Expected D n kids z k y

theorem Right.put {V : Type} {D : Names} {n : INode} {kids : Nat → Tree} {z : Store V} {K : Spec.VisitGen.Known V}
    (h : Right D n kids z K) {k : Key} {y : V} (hy : Expected D n kids z k y) : Right D n kids z (K.put k y) := by
  intro k' y' e
  unfold Spec.VisitGen.Known.put at e
  split at e
  · next e1 => subst e1; cases e; exact hy
  · exact h k' y' e

theorem Right.putAll {V : Type} {D : Names} {n : INode} {kids : Nat → Tree} {z : Store V} : ∀ {ks : List Key} {ys : List V}
    {K : Spec.VisitGen.Known V}, Right D n kids z K → (∀ p ∈ ks.zip ys, Expected D n kids z p.1 p.2) →
    Right D n kids z (K.putAll ks ys)
  | [], _, _, h, _ => h
  | _ :: _, [], _, h, _ => h
  | k :: ks, y :: ys, K, h, hp =>
    Right.putAll (ks := ks) (ys := ys) (h.put (hp (k, y) (by simp))) fun p hm => hp p (by simp [hm])

theorem put_some {V : Type} {K : Spec.VisitGen.Known V} {k k' : Key} {y : V} (h : K k' ≠ none ∨ k' = k) :
    (K.put k y) k' ≠ none := by
  unfold Spec.VisitGen.Known.put
  split
  · simp
  · next e => exact h.resolve_right e

theorem putAll_some {V : Type} : ∀ {ks : List Key} {ys : List V} {K : Spec.VisitGen.Known V} {k' : Key}, K k' ≠ none →
    (K.putAll ks ys) k' ≠ none
  | [], _, _, _, h => h
  | _ :: _, [], _, _, h => h
  | _ :: ks, _ :: ys, _, _, h => putAll_some (ks := ks) (ys := ys) (put_some (Or.inl h))

/-- Values that are needed and known. -/
theorem needs_ok {V : Type} {K : Spec.VisitGen.Known V} {key : Nat → Key} {zz : Nat → Option V} : ∀ {l : List Nat},
    (∀ a ∈ l, ∃ y, K (key a) = some y ∧ zz a = some y) →
    ∃ ys, allOk (l.map fun a => need K (key a)) = .ok ys ∧ l.map zz = ys.map some
  | [], _ => ⟨[], rfl, rfl⟩
  | a :: l, h => by
    obtain ⟨y, h1, h2⟩ := h a List.mem_cons_self
    obtain ⟨ys, h3, h4⟩ := needs_ok (key := key) (zz := zz) (l := l) fun b hb => h b (List.mem_cons_of_mem _ hb)
    refine ⟨y :: ys, ?_, by simp [h2, h4]⟩
    simp only [List.map_cons, allOk, need, h1, Res.bind_ok]
    simp only [need] at h3
    rw [h3]
    rfl

theorem zip_values {V : Type} {key : Nat → Key} {zz : Nat → Option V} : ∀ {l : List Nat} {ys : List V}, l.map zz = ys.map some →
    ∀ p ∈ (l.map key).zip ys, ∃ a ∈ l, p.1 = key a ∧ zz a = some p.2
  | [], _, _, p, hp => by simp at hp
  | _ :: _, [], h, _, _ => by simp at h
  | a :: l, y :: ys, h, p, hp => by
    simp only [List.map_cons, List.cons.injEq] at h
    rcases List.mem_cons.1 hp with rfl | hp
    · exact ⟨a, List.mem_cons_self, rfl, h.1⟩
    · obtain ⟨b, hb, e⟩ := zip_values (key := key) h.2 p hp
      exact ⟨b, List.mem_cons_of_mem _ hb, e⟩

/-! ## Running -/

/-- What holds in the middle of a sequence. -/
structure Inv {V : Type} (D : Names) (P : Plan) (En : INode → Env) (St : INode → Nat → Spec.Visits.Known) (n : INode)
    (kids : Nat → Tree) (z : Store V) (pre : List VisitGen.Elem) (A : Spec.Visits.Known) (K : Spec.VisitGen.Known V) (s : Store V) :
    Prop where
  ei : EInv (En n) A
  hold : HoldS P (En n) n kids (fun c => Hold P En St (kids c)) A s z
  frame : Frame (.node n kids) s z
  right : Right D n kids z K
  evald : ∀ b ∈ evals pre, K (keyOf b) ≠ none

/-- A visit of the root of a tree gives the values. -/
def Claim {V : Type} (D : Names) (S : Spec) (P : Plan) (En : INode → Env) (St : INode → Nat → Spec.Visits.Known)
    (Vs : INode → List AVisit) (prog : Prog) (user : CStr → List V → V) (T : Tree) : Prop :=
  ∀ n kids, T = .node n kids → ∀ z, Spec.Evaluator.Holds D S user T z → (∀ v, Has T v → z v ≠ none) →
    ∀ j v xs s, (Vs n)[j]? = some v → Hold P En St T j s z → Frame T s z → v.inputs.map (fun a => z ([], a)) = xs.map some →
    ∃ r s' ys, call ⟨D, S, prog, user⟩ T (fnOf (toVisit D S n.addr j v)) xs s = .ok (r, s') ∧
      unpack (toVisit D S n.addr j v).outputs r = some ys ∧ v.outputs.map (fun a => z ([], a)) = ys.map some ∧
      Hold P En St T (j + 1) s' z ∧ Frame T s' z

section
variable {V : Type} {D : Names} {S : Spec} {P : Plan} {En : INode → Env} {Sq : INode → List (List Ev)}
  {St : INode → Nat → Spec.Visits.Known} {Vs : INode → List AVisit} {prog : Prog} (w : Setup D S P En Sq St Vs prog)
  (user : CStr → List V → V)
include w

theorem rule_own {n : INode} (hn : n ∈ S.nodes) {a : Nat} {q : Eqn} (hq : For n (n.addr, a) q) :
    q.rule.child = none ∧ q.rule.attr.addr = a := by
  obtain ⟨h1, h2⟩ := hq
  have hr := (w.ok.rules n hn q h1).1
  cases hc : q.rule.child with
  | some c =>
    simp only [Resolved, hc] at hr
    obtain ⟨ch, hch, rfl, _⟩ := hr
    simp only [place, hc, Option.getD_some, Prod.mk.injEq] at h2
    exact absurd h2.1.symm (node_child w.ok.toChecked hn hn hch)
  | none =>
    simp only [place, hc, Option.getD_none, Prod.mk.injEq, true_and] at h2
    exact ⟨rfl, h2⟩

theorem rule_kid {n : INode} (hn : n ∈ S.nodes) {c : Child} (hc : c ∈ n.children) {a : Nat} {q : Eqn} (hq : For n (c.addr, a) q) :
    q.rule.child = some c.addr ∧ q.rule.attr.addr = a := by
  obtain ⟨h1, h2⟩ := hq
  cases hcc : q.rule.child with
  | none =>
    simp only [place, hcc, Option.getD_none, Prod.mk.injEq] at h2
    exact absurd h2.1 (node_child w.ok.toChecked hn hn hc)
  | some c' =>
    simp only [place, hcc, Option.getD_some, Prod.mk.injEq] at h2
    exact ⟨by rw [h2.1], h2.2⟩

/-- An attribute is evaluated. -/
theorem eval_step {n : INode} (hn : n ∈ S.nodes) {kids : Nat → Tree}
    (hk : ∀ c ∈ n.children, OfType S c.type (kids c.addr) ∧ Fits S (kids c.addr))
    (hc : ∀ c ∈ n.children, D.mandatory c.addr = true → kids c.addr ≠ .null) {z : Store V}
    (hz : Spec.Evaluator.Holds D S user (.node n kids) z) (ht : ∀ v, Has (.node n kids) v → z v ≠ none)
    (hu : Spec.EvalGen.Unique (toNode D S n)) {pre : List VisitGen.Elem} {A : Spec.Visits.Known} {K : Spec.VisitGen.Known V}
    {s : Store V} (inv : Inv D P En St n kids z pre A K s) {i o a : Nat} (hat : At (En n) o a i)
    (ho : o = (En n).self ∨ (En n).syn a = false) (hd : ∀ d, Spec.Visits.DependsOn (En n).g d i → A (.node d))
    (st : Step (En n) A (.eval i) fun x => A x ∨ x = .node i)
    (hni : ∀ x ∈ n.attrs, x.inh = true → (o, a) ≠ (n.addr, x.addr)) :
    ∃ K' s', evalMeaning (world ⟨D, S, prog, user⟩ n kids) (toNode D S n) (evalRef D S n (o, a)) K s = .ok (K', s') ∧
      Inv D P En St n kids z (pre ++ [.eval (evalRef D S n (o, a))]) (fun x => A x ∨ x = .node i) K' s' := by
  have f := w.world.node n hn
  have hk' : ∀ c ∈ n.children, ∀ m ks, kids c.addr = .node m ks → m ∈ S.nodes := by
    intro c hcc m ks e
    have := (hk c hcc).2
    rw [e, Fits] at this
    exact this.1
  have ei' := einv_step (self_not_kid w.world hn) inv.ei st
  rw [Spec.Evaluator.Holds] at hz
  have args : ∀ q, For n (o, a) q → ∀ d ∈ q.args, ∀ u, Means n kids d u → s u = z u := by
    intro q hq d hdq u hm
    refine arg_value w hn hk inv.ei inv.hold inv.frame hq.1 hdq ?_ hm
    intro hcd
    obtain ⟨j, hj, hdep⟩ := f.dep q hq.1 d hdq hcd i (by rw [hq.2]; exact hat)
    exact ⟨j, hj, hd j hdep⟩
  have evald' : ∀ (y : V), ∀ b ∈ evals (pre ++ [.eval (evalRef D S n (o, a))]),
      (K.put (keyOf (evalRef D S n (o, a))) y) (keyOf b) ≠ none := by
    intro y b hb
    rw [VisitGen.evals_append] at hb
    rcases List.mem_append.1 hb with hb | hb
    · exact put_some (Or.inl (inv.evald b hb))
    · simp only [evals, List.filterMap_cons, List.filterMap_nil, List.mem_singleton] at hb
      subst hb
      exact put_some (Or.inr rfl)
  have kid' : ∀ (s' : Store V), (∀ c, below c s' = below c s) → ∀ c ∈ n.children, ∀ m ks ws, kids c.addr = .node m ks →
      P.visits m.addr = some ws → ∃ d, (∀ k, (A (.visit c.addr k) ∨ Item.visit c.addr k = .node i) ↔ k < d) ∧
        Hold P En St (kids c.addr) (min d ws.length) (below c.addr s') (below c.addr z) := by
    intro s' hb c hcc m ks ws h1 h2
    obtain ⟨d, h3, h4⟩ := inv.hold.kid c hcc m ks ws h1 h2
    refine ⟨d, fun k => ?_, by rw [hb]; exact h4⟩
    rw [← h3 k]
    simp
  rcases f.only o a i hat with ⟨rfl, x, hx, hcx, rfl⟩ | ⟨c, hcc, rfl, x, hx, hcx, rfl⟩
  · -- an attribute of the node
    have hs : x.syn = true := by
      rcases hcx with hcx | hcx
      · exact absurd rfl (hni x hx hcx)
      · exact hcx
    obtain ⟨q0, hq0⟩ := w.world.equipped.own n hn x hx hs
    obtain ⟨r1, r2⟩ := rule_own w hn hq0
    obtain ⟨xs, g, hzv⟩ := hz.1 q0 hq0.1 ([], x.addr) ((for_own w.world hn hq0 _).2 rfl)
    have em := eval_meaning w.ok w.named prog user hn hk' hc hq0.1 hu (a := evalRef D S n (n.addr, x.addr))
      ⟨by simp [evalRef, toRef, r1], by simp [evalRef, toRef, r2]⟩ (w.classic.args n hn q0 hq0.1) (args q0 hq0) g K
    have hin : (evalRef D S n (n.addr, x.addr)).inode = none := by simp [evalRef]
    have hia : (evalRef D S n (n.addr, x.addr)).iattr = D.attr x.addr := rfl
    rw [if_pos hin, hia, store_own w.ok w.named hn hx, Res.bind_ok] at em
    refine ⟨_, _, em, ei', ⟨?_, kid' _ fun c => below_set _ _ _ _⟩, ?_, ?_, evald' _⟩
    · intro y hy p hp hA
      refine set_eq hzv ?_
      rcases hA with hA | hA
      · exact Or.inl (inv.hold.own y hy p hp hA)
      · cases hA
        have := hp.symm.trans hat
        simp only [Option.some.injEq, Prod.mk.injEq, true_and] at this
        exact Or.inr (by rw [this])
    · intro u hu
      exact set_eq hzv (Or.inl (inv.frame u hu))
    · refine inv.right.put ?_
      show Expected D n kids z ((evalRef D S n (n.addr, x.addr)).inode.map Id.lwr, (D.attr x.addr).lwr) _
      rw [hin]
      intro y hy e
      rw [w.named.attr x (attrIn_mem (own_attrIn hn hx))] at e
      rw [name_inj w.ok.toChecked hn hy hx e]
      exact hzv
  · -- an attribute of a child
    have hne : c.addr ≠ n.addr := (node_child w.ok.toChecked hn hn hcc).symm
    have hs : x.inh = true := by
      have := ho.resolve_left (by rw [f.self]; exact hne)
      rw [f.syn _ _ hx] at this
      rcases hcx with h | h
      · exact h
      · rw [this] at h; cases h
    obtain ⟨q0, hq0⟩ : ∃ q, For n (c.addr, x.addr) q := by
      rcases hx with ⟨m, hm, e, hx⟩ | ⟨t, hss, e, hx⟩
      · exact (w.world.equipped.child n hn c hcc).1 m hm e x hx hs
      · exact (w.world.equipped.child n hn c hcc).2 t hss e x hx hs
    obtain ⟨r1, r2⟩ := rule_kid w hn hcc hq0
    have hres := w.classic.args n hn q0 hq0.1
    obtain ⟨xs, g⟩ := gets_exist w hk ht hres
    have hin : (evalRef D S n (c.addr, x.addr)).inode = some (D.child c.addr) := by simp [evalRef, hne]
    have em := eval_meaning w.ok w.named prog user hn hk' hc hq0.1 hu (a := evalRef D S n (c.addr, x.addr))
      ⟨by simp [hin, toRef, r1], by simp [evalRef, toRef, r2]⟩ hres (args q0 hq0) g K
    rw [if_neg (by rw [hin]; simp), Res.bind_ok] at em
    refine ⟨_, _, em, ei', ⟨?_, kid' _ fun _ => rfl⟩, inv.frame, ?_, evald' _⟩
    · intro y hy p hp hA
      rcases hA with hA | hA
      · exact inv.hold.own y hy p hp hA
      · cases hA
        have := hp.symm.trans hat
        simp only [Option.some.injEq, Prod.mk.injEq] at this
        exact absurd this.1.symm hne
    · refine inv.right.put ?_
      show Expected D n kids z ((evalRef D S n (c.addr, x.addr)).inode.map Id.lwr, (D.attr x.addr).lwr) _
      rw [hin]
      intro c' hc' e m ks b h1 h2 h3
      have := w.named.children n hn c' hc' c hcc e
      subst this
      rw [w.named.attr x (attrIn_mem hx)] at h3
      obtain ⟨xs', g', hzv⟩ := hz.1 q0 hq0.1 ([c'.addr], b.addr)
        ((for_kid w.world hn hcc hx hq0 _).2 ⟨m, ks, b, h1, h2, h3, rfl⟩)
      have e1 := args_read w.ok w.named prog user hn hk' hc hres (args q0 hq0) g
      have e2 := args_read w.ok w.named prog user hn hk' hc hres (args q0 hq0) g'
      rw [e1] at e2
      cases e2
      exact hzv

/-- The alternative for the node that a child is. -/
theorem lookup_alt {n : INode} (hn : n ∈ S.nodes) {c : Child} (hc : c ∈ n.children) {k : Nat} {v : AVisit}
    {alts : List (Nat × Option Nat)} (hv : VisitOf (En n) c.addr k v) (halt : Alternatives (En n) c.addr k alts) {m : INode}
    {ks : Nat → Tree} (hm : m ∈ S.nodes) (ot : OfType S c.type (.node m ks)) :
    ∃ o, alts.lookup m.addr = some o ∧ (o = some k ↔ k < (Vs m).length) ∧ (o = none ↔ (Vs m).length ≤ k) := by
  have f := w.world.node n hn
  have hw := (w.world.node m hm).own
  obtain ⟨vs, hvs, hvk⟩ := hv
  rw [f.typ c hc, f.vis] at hvs
  have al := halt
  unfold Alternatives at al
  rw [f.typ c hc] at al
  rcases f.mem c hc m ks hm ot with ⟨e1, e2⟩ | ⟨ms, e1, e2⟩
  · rw [e1] at al
    simp only at al
    subst al
    have hlt := (List.getElem?_eq_some_iff.1 hvk).1
    rw [e2, hw] at hvs
    cases hvs
    refine ⟨some k, by simp [e2], by simp [hlt], ?_⟩
    constructor
    · intro h; cases h
    · intro h; omega
  · rw [e1] at al
    simp only at al
    obtain ⟨a1, a2⟩ := al
    obtain ⟨o, l1, l2⟩ := lookup_some (a := m.addr) (l := alts) (by rw [a1]; exact e2)
    obtain ⟨vs', b1, b2, b3⟩ := a2 _ _ l2
    rw [f.vis, hw] at b1
    cases b1
    exact ⟨o, l1, b2, b3⟩

theorem alt_nodes {n : INode} (hn : n ∈ S.nodes) {c : Child} (hc : c ∈ n.children) {k : Nat}
    {alts : List (Nat × Option Nat)} (halt : Alternatives (En n) c.addr k alts) : ∀ x ∈ alts, ∃ m ∈ S.nodes, m.addr = x.1 := by
  have f := w.world.node n hn
  unfold Alternatives at halt
  rw [f.typ c hc] at halt
  intro x hx
  cases hms : (En n).members c.type with
  | none =>
    rw [hms] at halt
    simp only at halt
    subst halt
    simp only [List.mem_singleton] at hx
    subst hx
    exact (f.alt c hc).1 hms
  | some ms =>
    rw [hms] at halt
    simp only at halt
    obtain ⟨s, hs, _, rfl⟩ := (f.alt c hc).2 ms hms
    have : x.1 ∈ s.members.reverse.map (·.addr) := by rw [← halt.1]; exact List.mem_map.2 ⟨x, hx, rfl⟩
    obtain ⟨m, hm, e⟩ := List.mem_map.1 this
    exact ⟨m, w.ok.members s hs m (List.mem_reverse.1 hm), e⟩

/-- What holds after a child has been visited or left alone. -/
theorem hold_visit {n : INode} (hn : n ∈ S.nodes) {kids : Nat → Tree} {z : Store V} {A : Spec.Visits.Known} {s : Store V}
    (hs : HoldS P (En n) n kids (fun c => Hold P En St (kids c)) A s z) {c : Child} (hc : c ∈ n.children) {k : Nat} {v : AVisit}
    (hpk : ∀ j, A (.visit c.addr j) ↔ j < k) {b : Store V}
    (hb : ∀ m ks ws, kids c.addr = .node m ks → P.visits m.addr = some ws →
      Hold P En St (kids c.addr) (min (k + 1) ws.length) b (below c.addr z)) :
    HoldS P (En n) n kids (fun c => Hold P En St (kids c))
      (fun y => A y ∨ y = .visit c.addr k ∨ ∃ a p, a ∈ v.outputs ∧ At (En n) c.addr a p ∧ y = .node p) (back c.addr b s) z := by
  refine ⟨?_, ?_⟩
  · intro x hx p hp hA
    show s ([], x.addr) = _
    rcases hA with hA | hA | ⟨a, p', _, h3, hA⟩
    · exact hs.own x hx p hp hA
    · cases hA
    · cases hA
      have := hp.symm.trans h3
      simp only [Option.some.injEq, Prod.mk.injEq] at this
      exact absurd this.1 (node_child w.ok.toChecked hn hn hc)
  · intro c' hc' m ks ws h1 h2
    by_cases hcc : c'.addr = c.addr
    · have := child_inj w.ok.toChecked hn hn hc' hc hcc
      subst this
      refine ⟨k + 1, fun i => ?_, by rw [below_back]; exact hb m ks ws h1 h2⟩
      constructor
      · rintro (h | h | ⟨_, _, _, _, h⟩)
        · have := (hpk i).1 h; omega
        · cases h; omega
        · cases h
      · intro hi
        by_cases hik : i = k
        · subst hik; exact Or.inr (Or.inl rfl)
        · exact Or.inl ((hpk i).2 (by omega))
    · obtain ⟨d, h3, h4⟩ := hs.kid c' hc' m ks ws h1 h2
      refine ⟨d, fun i => ?_, by rw [below_back_ne hcc]; exact h4⟩
      rw [← h3 i]
      constructor
      · rintro (h | h | ⟨_, _, _, _, h⟩)
        · exact h
        · simp only [Item.visit.injEq] at h; exact absurd h.1 hcc
        · cases h
      · exact Or.inl

omit w in
theorem back_below {c : Nat} {s : Store V} : back c (below c s) s = s := by
  funext u
  obtain ⟨u1, u2⟩ := u
  cases u1 with
  | nil => rfl
  | cons d path =>
    by_cases e : d = c
    · subst e; simp [back, below]
    · simp [back, e]

/-- A child is visited. -/
theorem visit_step {n : INode} (hn : n ∈ S.nodes) {kids : Nat → Tree}
    (hk : ∀ c ∈ n.children, OfType S c.type (kids c.addr) ∧ Fits S (kids c.addr))
    (hc : ∀ c ∈ n.children, D.mandatory c.addr = true → kids c.addr ≠ .null) {z : Store V}
    (hz : Spec.Evaluator.Holds D S user (.node n kids) z) (ht : ∀ v, Has (.node n kids) v → z v ≠ none)
    (ih : ∀ c ∈ n.children, Claim D S P En St Vs prog user (kids c.addr))
    {u : VisitGen.Visit} {es : List VisitGen.Elem} (sq : SeqOk (allVisits D S P) (toNode D S n) u es)
    {pre post : List VisitGen.Elem} {A : Spec.Visits.Known} {K : Spec.VisitGen.Known V}
    {s : Store V} (inv : Inv D P En St n kids z pre A K s) {c : Child} (hcc : c ∈ n.children) {k : Nat}
    {alts : List (Nat × Option Nat)} {v : AVisit} (hv : VisitOf (En n) c.addr k v) (halt : Alternatives (En n) c.addr k alts)
    (hpre : ∀ j, j < k → A (.visit c.addr j)) (hnew : ¬ A (.visit c.addr k))
    (st : Step (En n) A (.visit c.addr k alts)
      fun y => A y ∨ y = .visit c.addr k ∨ ∃ a p, a ∈ v.outputs ∧ At (En n) c.addr a p ∧ y = .node p)
    {as : List VisitGen.Alt} (ha : toAlts D S P alts = .ok as) (hes : es = pre ++ .visit (toChild D c) as :: post) :
    ∃ K' s', visitMeaning (world ⟨D, S, prog, user⟩ n kids) (toNode D S n) (toChild D c) as K s = .ok (K', s') ∧
      Inv D P En St n kids z (pre ++ [.visit (toChild D c) as])
        (fun y => A y ∨ y = .visit c.addr k ∨ ∃ a p, a ∈ v.outputs ∧ At (En n) c.addr a p ∧ y = .node p) K' s' := by
  have f := w.world.node n hn
  have hca : c.addr ∈ (En n).children := (f.kids _).2 ⟨c, hcc, rfl⟩
  have ei' := einv_step (self_not_kid w.world hn) inv.ei st
  have hpk : ∀ j, A (.visit c.addr j) ↔ j < k := by
    obtain ⟨d, h1, _⟩ := inv.ei.pre _ hca
    have a1 : ¬ k < d := fun hlt => hnew ((h1 k).2 hlt)
    have a2 : ¬ d < k := fun hlt => absurd ((h1 d).1 (hpre d hlt)) (Nat.lt_irrefl _)
    have : d = k := by omega
    subst this
    exact h1
  have hev : ∀ b ∈ evals (pre ++ [.visit (toChild D c) as]), b ∈ evals pre := by
    intro b hb
    rw [VisitGen.evals_append] at hb
    rcases List.mem_append.1 hb with hb | hb
    · exact hb
    · simp [evals] at hb
  have hN : (world ⟨D, S, prog, user⟩ n kids).isNull s (Verif.Spec.EvalGen.access (toNode D S n) (toChild D c)) = isNull (kids c.addr) := by
    simp only [world, kidAt_access w.named hn hcc]
  have hT' : (world ⟨D, S, prog, user⟩ n kids).nodeType s (Verif.Spec.EvalGen.access (toNode D S n) (toChild D c)) = nodeType D (kids c.addr) := by
    simp only [world, kidAt_access w.named hn hcc]
  have hF : ∀ fn xs, (world ⟨D, S, prog, user⟩ n kids).visitFn fn (Verif.Spec.EvalGen.access (toNode D S n) (toChild D c)) xs s =
      (call ⟨D, S, prog, user⟩ (kids c.addr) fn xs (below c.addr s) >>= fun p => .ok (p.1, back c.addr p.2 s)) := by
    intro fn xs
    simp only [world, kidAt_access w.named hn hcc]
  unfold visitMeaning
  rw [hN, hT']
  cases hT : kids c.addr with
  | null =>
    have hm : (toChild D c).mandatory = false := by
      cases hm : D.mandatory c.addr with
      | false => exact hm
      | true => exact absurd hT (hc c hcc hm)
    refine ⟨K, s, by simp [isNull, hm], ei', ?_, inv.frame, inv.right, fun b hb => inv.evald b (hev b hb)⟩
    have := hold_visit w hn inv.hold hcc (v := v) hpk (b := below c.addr s) (by intro m ks ws e; rw [hT] at e; cases e)
    rwa [back_below] at this
  | node m ks =>
    obtain ⟨ot, ft⟩ := hk c hcc
    rw [hT] at ot ft
    rw [Fits] at ft
    have hm := ft.1
    have hw := (w.world.node m hm).own
    obtain ⟨o, hlook, hko, hno⟩ := lookup_alt w hn hcc hv halt hm ot
    obtain ⟨fi1, fi2⟩ := alts_find w.named hm ha (alt_nodes w hn hcc halt)
    obtain ⟨d, hd1, hd2⟩ := inv.hold.kid c hcc m ks _ hT hw
    have hdk : d = k := by
      have a1 : ¬ k < d := fun hlt => absurd ((hpk k).1 ((hd1 k).2 hlt)) (Nat.lt_irrefl _)
      have a2 : ¬ d < k := fun hlt => absurd ((hd1 d).1 ((hpk d).2 hlt)) (Nat.lt_irrefl _)
      omega
    subst hdk
    simp only [isNull, nodeType, Bool.false_eq_true, if_false]
    by_cases hlt : d < (Vs m).length
    · rw [hko.2 hlt] at hlook
      obtain ⟨ws, wv, hws, hwv, hfind⟩ := fi2 d hlook
      rw [hw] at hws
      cases hws
      rw [show min d (Vs m).length = d by omega] at hd2
      have hmem : toVisit D S m.addr d wv ∈ visitsOf as := by
        unfold visitsOf
        rw [List.mem_filterMap]
        exact ⟨_, List.mem_of_find?_eq_some hfind, rfl⟩
      have held := w.world.held _ _ hw d wv hwv
      obtain ⟨xs, hx1, hx2⟩ := needs_ok (K := K) (key := fun a => childKey (toChild D c) (visitRef D S m.addr a))
        (zz := fun a => z ([c.addr], a)) (l := wv.inputs) (by
          intro a haw
          obtain ⟨b, hb, e⟩ := sq.before pre _ _ post hes _ hmem (visitRef D S m.addr a) (List.mem_map.2 ⟨a, haw, rfl⟩)
          obtain ⟨y, hy⟩ := Option.ne_none_iff_exists'.1 (inv.evald b hb)
          rw [e] at hy
          refine ⟨y, hy, ?_⟩
          have := inv.right _ _ hy
          obtain ⟨x, x1, x2, rfl⟩ := held.1 a haw
          exact this c hcc rfl m ks x hT (attrIn_node w.ok.toChecked hm x1) (w.named.attr x (attrIn_mem x1)).symm)
      have hz' : Spec.Evaluator.Holds D S user (kids c.addr) (below c.addr z) := by
        rw [Spec.Evaluator.Holds] at hz
        exact hz.2 c hcc
      obtain ⟨r, s', ys, c1, c2, c3, c4, c5⟩ := ih c hcc m ks hT (below c.addr z) hz'
        (fun v hv => ht _ (.deeper hcc hv)) d wv xs (below c.addr s) hwv hd2 (inv.frame.below) hx2
      refine ⟨K.putAll ((toVisit D S m.addr d wv).outputs.map (childKey (toChild D c))) ys, back c.addr s' s, ?_, ei', ?_, ?_, ?_, ?_⟩
      · rw [hfind]
        simp only [toVisit, List.map_map] at *
        rw [show (wv.inputs.map ((fun a => need K (childKey (toChild D c) a)) ∘ visitRef D S m.addr)) =
          wv.inputs.map (fun a => need K (childKey (toChild D c) (visitRef D S m.addr a))) from rfl, hx1]
        simp only [Res.bind_ok, hF, c1, c2]
      · refine hold_visit w hn inv.hold hcc hpk ?_
        intro m' ks' ws' e1 e2
        rw [hT] at e1
        cases e1
        rw [hw] at e2
        cases e2
        rw [show min (d + 1) (Vs m).length = d + 1 by omega]
        exact c4
      · exact inv.frame.back hcc c5
      · refine inv.right.putAll ?_
        intro p hp
        simp only [toVisit, List.map_map] at hp
        obtain ⟨a, hao, e1, e2⟩ := zip_values (zz := fun a => z ([c.addr], a)) (ys := ys) (l := wv.outputs) c3 p hp
        obtain ⟨x, x1, x2, rfl⟩ := held.2 a hao
        rw [e1]
        intro c' hc' e m' ks' b h1 h2 h3
        have := w.named.children n hn c' hc' c hcc e
        subst this
        rw [hT] at h1
        cases h1
        have x3 := attrIn_node w.ok.toChecked hm x1
        have := name_inj w.ok.toChecked hm h2 x3 (h3.trans (w.named.attr x (attrIn_mem x1)))
        subst this
        exact e2
      · intro b hb
        exact putAll_some (inv.evald b (hev b hb))
    · rw [hno.2 (by omega)] at hlook
      refine ⟨K, s, by rw [fi1 hlook], ei', ?_, inv.frame, inv.right, fun b hb => inv.evald b (hev b hb)⟩
      have := hold_visit w hn inv.hold hcc (v := v) hpk (b := below c.addr s) (by
        intro m' ks' ws' e1 e2
        rw [hT] at e1
        cases e1
        rw [hw] at e2
        cases e2
        rw [show min (d + 1) (Vs m).length = min d (Vs m).length by omega]
        exact hd2)
      rwa [back_below] at this

/-- A sequence is run. -/
theorem run_seq {n : INode} (hn : n ∈ S.nodes) {kids : Nat → Tree}
    (hk : ∀ c ∈ n.children, OfType S c.type (kids c.addr) ∧ Fits S (kids c.addr))
    (hc : ∀ c ∈ n.children, D.mandatory c.addr = true → kids c.addr ≠ .null) {z : Store V}
    (hz : Spec.Evaluator.Holds D S user (.node n kids) z) (ht : ∀ v, Has (.node n kids) v → z v ≠ none)
    (ih : ∀ c ∈ n.children, Claim D S P En St Vs prog user (kids c.addr))
    {u : VisitGen.Visit} {es : List VisitGen.Elem} (sq : SeqOk (allVisits D S P) (toNode D S n) u es)
    {A B : Spec.Visits.Known} {evs : List Ev} (r : Runs (En n) A evs B) :
    ∀ {pre rest : List VisitGen.Elem} {K : Spec.VisitGen.Known V} {s : Store V}, Inv D P En St n kids z pre A K s →
    toElems D S P n (evs.map (act (En n).g)) = .ok rest → es = pre ++ rest →
    (∀ ev ∈ evs, ∀ x ∈ n.attrs, x.inh = true → act (En n).g ev ≠ .eval (n.addr, x.addr)) →
    ∃ K' s', seqMeaning (world ⟨D, S, prog, user⟩ n kids) (toNode D S n) rest K s = .ok (K', s') ∧
      Inv D P En St n kids z es B K' s' := by
  induction r with
  | nil =>
    intro pre rest K s inv hr hes _
    cases hr
    rw [List.append_nil] at hes
    subst hes
    exact ⟨K, s, rfl, inv⟩
  | @cons A T U ev evs st _ ihr =>
    intro pre rest K s inv hr hes hni
    have st' := st
    cases st with
    | @eval i o a hat ho hd hnew =>
      have hact : act (En n).g (.eval i) = .eval (o, a) := by
        simp only [act]
        rw [show (En n).g.nodes[i]? = some (o, a) from hat]
        rfl
      rw [List.map_cons, hact, toElems] at hr
      obtain ⟨l, h1, h2⟩ := Res.bind_eq_ok.1 hr
      cases h2
      obtain ⟨K1, s1, e1, inv1⟩ := eval_step w user hn hk hc hz ht sq.unique inv hat ho hd st' (by
        intro x hx hi e
        have := hni (.eval i) List.mem_cons_self x hx hi
        rw [hact, e] at this
        exact this rfl)
      obtain ⟨K2, s2, e2, inv2⟩ := ihr inv1 h1 (by rw [hes]; simp) fun ev hev => hni ev (List.mem_cons_of_mem _ hev)
      exact ⟨K2, s2, by rw [seqMeaning, e1]; exact e2, inv2⟩
    | @visit c k alts v hca hv halt hne hpre hin hnew =>
      obtain ⟨ch, hch, rfl⟩ := ((w.world.node n hn).kids _).1 hca
      rw [List.map_cons, act, toElems, childAt_ok w.ok.toChecked hn hch] at hr
      simp only [Res.bind_ok] at hr
      obtain ⟨as, h0, hr⟩ := Res.bind_eq_ok.1 hr
      obtain ⟨l, h1, h2⟩ := Res.bind_eq_ok.1 hr
      cases h2
      obtain ⟨K1, s1, e1, inv1⟩ := visit_step w user hn hk hc hz ht ih sq inv hch hv halt hpre hnew st' h0 hes
      obtain ⟨K2, s2, e2, inv2⟩ := ihr inv1 h1 (by rw [hes]; simp) fun ev hev => hni ev (List.mem_cons_of_mem _ hev)
      exact ⟨K2, s2, by rw [seqMeaning, e1]; exact e2, inv2⟩

/-- The inputs are stored. -/
theorem store_inputs {n : INode} (hn : n ∈ S.nodes) (kids : Nat → Tree) {z : Store V} : ∀ {l : List Nat} {xs : List V} {s : Store V},
    (∀ a ∈ l, ∃ x ∈ n.attrs, x.addr = a) → l.map (fun a => z ([], a)) = xs.map some →
    ∃ s', storeAll (world ⟨D, S, prog, user⟩ n kids) (toNode D S n) (l.map (visitRef D S n.addr)) xs s = .ok s' ∧
      (∀ u, s u = z u → s' u = z u) ∧ (∀ a ∈ l, s' ([], a) = z ([], a)) ∧ ∀ c, below c s' = below c s
  | [], _, s, _, _ => ⟨s, rfl, fun _ h => h, (fun a h => by cases h), fun _ => rfl⟩
  | _ :: _, [], _, _, h => by simp at h
  | a :: l, x :: xs, s, hl, h => by
    simp only [List.map_cons, List.cons.injEq] at h
    obtain ⟨y, hy, rfl⟩ := hl a List.mem_cons_self
    obtain ⟨s', h1, h2, h3, h4⟩ := store_inputs hn kids (l := l) (xs := xs) (s := setAt s ([], y.addr) x)
      (fun b hb => hl b (List.mem_cons_of_mem _ hb)) h.2
    refine ⟨s', ?_, ?_, ?_, ?_⟩
    · rw [List.map_cons, storeAll]
      rw [show (world ⟨D, S, prog, user⟩ n kids).storing (toNode D S n).name.lwr (visitRef D S n.addr y.addr).iattr.lwr x s =
        .ok (setAt s ([], y.addr) x) from store_own w.ok w.named hn hy x s]
      exact h1
    · intro u hu
      exact h2 u (set_eq h.1 (Or.inl hu))
    · intro b hb
      rcases List.mem_cons.1 hb with rfl | hb
      · exact h2 _ (set_eq h.1 (Or.inr rfl))
      · exact h3 b hb
    · intro c
      rw [h4, below_set]

/-- A visit of a tree. -/
theorem claim : ∀ (T : Tree), Fits S T → Spec.Evaluator.Complete D T → Claim D S P En St Vs prog user T
  | .null, _, _ => fun _ _ e => by cases e
  | .node n kids, hf, hc => by
    rw [Fits] at hf
    rw [Spec.Evaluator.Complete] at hc
    obtain ⟨hn, hk⟩ := hf
    have ih : ∀ c ∈ n.children, Claim D S P En St Vs prog user (kids c.addr) := fun c hcc =>
      claim (kids c.addr) (hk c hcc).2 (hc c hcc).2
    intro n' kids' e z hz ht j v xs s hj hold fr hin
    cases e
    have f := w.world.node n hn
    have hlt := (List.getElem?_eq_some_iff.1 hj).1
    obtain ⟨v', seq, hv', hq⟩ := st_seq w.world hn hlt
    rw [hj] at hv'
    cases hv'
    obtain ⟨sq', es, fn, p1, p2, p3, p4⟩ := w.prog.fn n hn j v hj
    have hq' := p1
    rw [List.getElem?_map, hq, Option.map_some, Option.some.injEq] at p1
    subst p1
    have sok := w.gen n hn _ f.own _ f.plan j v _ hj hq' es p2
    have hon := honest w.prog sok.apart sok.visits user n kids
    obtain ⟨rn, ro⟩ := f.step j v seq hj hq
    have held := w.world.held _ _ f.own j v hj
    have hlen : xs.length = (toVisit D S n.addr j v).inputs.length := by
      have := congrArg List.length hin
      simp only [List.length_map] at this
      simp [toVisit, this]
    rw [Hold] at hold
    obtain ⟨s1, t1, t2, t3, t4⟩ := store_inputs w user hn kids (s := s) (fun a ha => by
      obtain ⟨x, x1, _, x3⟩ := held.1 a ha
      exact ⟨x, attrIn_node w.ok.toChecked hn x1, x3⟩) hin
    have inv0 : Inv D P En St n kids z [] (withInputs (En n) v (St n j))
        (Spec.VisitGen.Known.putAll (fun _ => none) ((toVisit D S n.addr j v).inputs.map keyOf) xs) s1 := by
      refine ⟨einv_inputs (self_not_kid w.world hn) (einv_st w.world hn (by omega)) v, ⟨?_, ?_⟩, ?_, ?_, ?_⟩
      · intro x hx p hp hA
        rcases hA with hA | ⟨a, p', ha, hp', hA⟩
        · exact t2 _ (hold.own x hx p hp hA)
        · cases hA
          have := hp.symm.trans hp'
          simp only [Option.some.injEq, Prod.mk.injEq] at this
          rw [this.2]
          exact t3 a ha
      · intro c hcc m ks ws h1 h2
        obtain ⟨d, h3, h4⟩ := hold.kid c hcc m ks ws h1 h2
        refine ⟨d, fun i => ?_, by rw [t4]; exact h4⟩
        rw [← h3 i]
        constructor
        · rintro (h | ⟨_, _, _, _, h⟩)
          · exact h
          · cases h
        · exact Or.inl
      · intro u hu
        exact t2 u (fr u hu)
      · refine Right.putAll (fun k y h => by cases h) ?_
        intro p hp
        simp only [toVisit, List.map_map] at hp
        obtain ⟨a, hao, e1, e2⟩ := zip_values (zz := fun a => z ([], a)) (ys := xs) (l := v.inputs) hin p hp
        obtain ⟨x, x1, x2, rfl⟩ := held.1 a hao
        rw [e1]
        intro y hy e
        have x3 := attrIn_node w.ok.toChecked hn x1
        have := name_inj w.ok.toChecked hn hy x3 (e.trans (w.named.attr x (attrIn_mem x1)))
        subst this
        exact e2
      · intro b hb
        simp [evals] at hb
    obtain ⟨K', s', r1, inv'⟩ := run_seq w user hn hk (fun c hcc => (hc c hcc).1) hz ht ih sok rn inv0 p2 rfl (no_own w.world hn hq)
    obtain ⟨ys, y1, y2⟩ := needs_ok (K := K') (key := fun a => keyOf (visitRef D S n.addr a))
      (zz := fun a => z ([], a)) (l := v.outputs) (by
        intro a hao
        obtain ⟨b, hb, e⟩ := sok.outs (visitRef D S n.addr a) (List.mem_map.2 ⟨a, hao, rfl⟩)
        obtain ⟨y, hy⟩ := Option.ne_none_iff_exists'.1 (inv'.evald b hb)
        rw [e] at hy
        refine ⟨y, hy, ?_⟩
        have := inv'.right _ _ hy
        obtain ⟨x, x1, x2, rfl⟩ := held.2 a hao
        exact this x (attrIn_node w.ok.toChecked hn x1) (w.named.attr x (attrIn_mem x1)).symm)
    have hrun : visitRun (world ⟨D, S, prog, user⟩ n kids) (toNode D S n) (toVisit D S n.addr j v) es xs s = .ok (ys, s') := by
      rw [visitRun]
      simp only [toVisit] at *
      rw [t1]
      simp only [Res.bind_ok]
      rw [r1]
      simp only [Res.bind_ok, List.map_map]
      rw [show (v.outputs.map ((fun a => need K' (keyOf a)) ∘ visitRef D S n.addr)) =
        v.outputs.map (fun a => need K' (keyOf (visitRef D S n.addr a))) from rfl, y1]
      rfl
    obtain ⟨_, sim⟩ := VisitGen.fn_sim hon sok p3 xs hlen s
    rw [hrun] at sim
    generalize hres : VisitGen.runFn (world ⟨D, S, prog, user⟩ n kids) fn xs s = res at sim
    cases sim with
    | @ok a b hab =>
      obtain ⟨r, s2⟩ := a
      obtain ⟨h1, h2⟩ := hab
      simp only at h1 h2
      subst h1
      refine ⟨r, s2, ys, ?_, h2, y2, ?_, inv'.frame⟩
      · rw [call_node ⟨D, S, prog, user⟩ n kids _ _ _ (by exact p4)]
        exact hres
      · rw [Hold]
        exact inv'.hold

omit w in
/-- Without visits nothing is claimed. -/
theorem hold_zero (hw : World S P En Sq St Vs) : ∀ (T : Tree), Fits S T → ∀ s z : Store V, Hold P En St T 0 s z := by
  intro T
  induction T with
  | null => intros; trivial
  | node n kids ih =>
    intro hf s z
    rw [Fits] at hf
    obtain ⟨hn, hk⟩ := hf
    rw [Hold, (hw.node n hn).start]
    refine ⟨fun _ _ _ _ h => h.elim, fun c hc m ks ws _ _ => ⟨0, fun i => ⟨False.elim, fun h => absurd h (Nat.not_lt_zero i)⟩, ?_⟩⟩
    rw [Nat.zero_min]
    exact ih c.addr (hk c hc).2 _ _

omit w in
theorem hold_inputs (hw : World S P En Sq St Vs) {n : INode} (hn : n ∈ S.nodes) {kids : Nat → Tree} {s z : Store V}
    (h : Hold P En St (.node n kids) (Vs n).length s z) {i : Nat} {v : AVisit} (hv : (Vs n)[i]? = some v) {x : Attr}
    (hx : x ∈ n.attrs) (hc : x.inh = true ∨ x.syn = true) (ho : x.addr ∈ v.inputs) : s ([], x.addr) = z ([], x.addr) := by
  rw [Hold] at h
  have f := hw.node n hn
  have hi := (List.getElem?_eq_some_iff.1 hv).1
  obtain ⟨v', seq, hv', hq⟩ := st_seq hw hn (k := i) hi
  rw [hv] at hv'
  cases hv'
  obtain ⟨p, hp⟩ := f.hasOwn x hx hc
  refine h.own x hx p hp (st_mono hw hn (i := i + 1) (by omega) (Nat.le_refl _) _ ?_)
  exact Verif.Lemmas.Visits.runs_mono (f.step i v seq hv hq).1 _ (Or.inr ⟨x.addr, p, ho, by rw [f.self]; exact hp, rfl⟩)

/-- After all visits everything has its value. -/
theorem hold_all : ∀ (T : Tree), Fits S T → ∀ n kids, T = .node n kids → ∀ s z : Store V, Hold P En St T (Vs n).length s z →
    ∀ v, InTree T v → s v = z v := by
  intro T
  induction T with
  | null => intro _ n kids e; cases e
  | node n kids ih =>
    intro hf n' kids' e s z hs v hv
    cases e
    rw [Fits] at hf
    obtain ⟨hn, hk⟩ := hf
    have f := w.world.node n hn
    have hs' := hs
    rw [Hold] at hs
    generalize hT : Tree.node n kids = T at hv
    cases hv with
    | root hx hc =>
      cases hT
      rename_i x
      rcases hc with hc | hc
      · obtain ⟨k, u, h1, h2⟩ := (w.world.all _ _ f.own x (own_attrIn hn hx)).1 hc
        exact hold_inputs w.world hn hs' h1 hx (Or.inl hc) h2
      · obtain ⟨k, u, h1, h2⟩ := (w.world.all _ _ f.own x (own_attrIn hn hx)).2 hc
        exact hold_outputs w hn (Nat.le_refl _) hs' (List.getElem?_eq_some_iff.1 h1).1 h1 hx h2
    | @deeper _ _ c v hc hv =>
      cases hT
      cases hkc : kids c.addr with
      | null => rw [hkc] at hv; cases hv
      | node m ks =>
        obtain ⟨ot, ft⟩ := hk c hc
        rw [hkc] at ot ft
        have hm : m ∈ S.nodes := by rw [Fits] at ft; exact ft.1
        have fm := w.world.node m hm
        obtain ⟨d, hd1, hd2⟩ := hs.kid c hc m ks _ hkc fm.own
        obtain ⟨ws, hws⟩ := f.child c hc
        have hfit := fit w.world hm ot hws fm.own
        have hdone : ∀ j, j < ws.length → St n (Vs n).length (.visit c.addr j) := by
          intro j hj
          by_cases he : Vs n = []
          · have := f.none he c hc ws hws
            subst this
            exact absurd hj (Nat.not_lt_zero _)
          · exact f.last he c hc ws hws j hj
        have hd : (Vs m).length ≤ d := by
          have : ws.length ≤ d := by
            rcases Nat.lt_or_ge d ws.length with h | h
            · exact absurd ((hd1 d).1 (hdone d h)) (Nat.lt_irrefl _)
            · exact h
          have := hfit.1
          omega
        rw [Nat.min_eq_right hd] at hd2
        exact ih c.addr (hk c hc).2 m ks hkc _ _ hd2 v hv

/-- The visits of a root one after the other. -/
theorem call_all {n : INode} {kids : Nat → Tree} (hf : Fits S (.node n kids)) (hc : Spec.Evaluator.Complete D (.node n kids))
    {z : Store V} (hz : Spec.Evaluator.Holds D S user (.node n kids) z) (ht : ∀ v, Has (.node n kids) v → z v ≠ none)
    (hi : ∀ v ∈ Vs n, v.inputs = []) : ∀ {l : List AVisit} {j : Nat} {s : Store V}, (Vs n).drop j = l →
    Hold P En St (.node n kids) j s z → Frame (.node n kids) s z →
    ∃ s', callAll ⟨D, S, prog, user⟩ (.node n kids) (callsOf D S n.addr j l) s = .ok s' ∧
      Hold P En St (.node n kids) (max j (Vs n).length) s' z ∧ Frame (.node n kids) s' z
  | [], j, s, hl, hs, fr => ⟨s, rfl, by rw [Nat.max_eq_left (List.drop_eq_nil_iff.1 hl)]; exact hs, fr⟩
  | v :: l, j, s, hl, hs, fr => by
    have hj : (Vs n)[j]? = some v := by
      rw [← List.head?_drop, hl]; rfl
    have hlt := (List.getElem?_eq_some_iff.1 hj).1
    obtain ⟨r, s1, ys, c1, _, _, c4, c5⟩ := claim w user _ hf hc n kids rfl z hz ht j v [] s hj hs fr (by
      rw [hi v (List.mem_of_getElem? hj)]; rfl)
    obtain ⟨s2, d1, d2, d3⟩ := call_all hf hc hz ht hi (l := l) (j := j + 1) (s := s1) (by rw [← List.tail_drop, hl]; rfl) c4 c5
    refine ⟨s2, ?_, ?_, d3⟩
    · rw [callsOf, callAll]
      rw [show VisitGen.visitName (toVisit D S n.addr j v) = fnOf (toVisit D S n.addr j v) from VisitGen.visitName_eq _, c1]
      exact d1
    · rw [show max j (Vs n).length = max (j + 1) (Vs n).length by omega]
      exact d2

/-- The evaluation of a tree gives the solution. -/
theorem evaluate {T : Tree} (hf : Fits S T) (hc : Spec.Evaluator.Complete D T) (hs : CanStart P T) {s z : Store V}
    (sol : Solution D S user T s z) : CCNevaluateAttributes ⟨D, S, prog, user⟩ T s = .ok z := by
  cases T with
  | null => exact absurd hs id
  | node n kids =>
    have hf' := hf
    rw [Fits] at hf'
    have hn := hf'.1
    have f := w.world.node n hn
    have hi : ∀ v ∈ Vs n, v.inputs = [] := by
      intro v hv
      obtain ⟨j, hj⟩ := List.mem_iff_getElem?.1 hv
      cases hin : v.inputs with
      | nil => rfl
      | cons a as =>
        obtain ⟨x, x1, x2, _⟩ := (w.world.held _ _ f.own j v hj).1 a (by rw [hin]; exact List.mem_cons_self)
        have := hs.2 x (attrIn_node w.ok.toChecked hn x1)
        rw [x2] at this
        cases this
    have hne : Vs n ≠ [] := fun e => hs.1 (by rw [f.own, e])
    obtain ⟨x, x1, x2⟩ := w.prog.start n hn ⟨_, f.own, hne, hi⟩
    obtain ⟨s', d1, d2, d3⟩ := call_all w user hf hc sol.holds sol.total hi (l := Vs n) (j := 0) (s := s) rfl
      (hold_zero w.world _ hf _ _) (fun v hv => (sol.rest v hv).symm)
    rw [Nat.zero_max] at d2
    have : s' = z := by
      funext v
      by_cases hv : InTree (.node n kids) v
      · exact hold_all w _ hf n kids rfl _ _ d2 v hv
      · exact d3 v hv
    subst this
    simp only [CCNevaluateAttributes]
    rw [x1]
    simp only
    rw [x2]
    exact d1

/-- A tree whose root has no visits is refused. -/
theorem refused {n : INode} {kids : Nat → Tree} (hn : n ∈ S.nodes) (h : ¬ Starts P n) (s : Store V) :
    CCNevaluateAttributes ⟨D, S, prog, user⟩ (.node n kids) s =
      .abort "CCNevaluateAttributes called with node of invalid node type" := by
  simp only [CCNevaluateAttributes]
  rw [w.prog.none n hn h]

end

theorem elems_eval {D : Names} {S : Spec} {P : Plan} {n : INode} {x : Place} : ∀ {seq : List Act} {es : List VisitGen.Elem},
    toElems D S P n seq = .ok es → .eval x ∈ seq → evalRef D S n x ∈ evals es
  | [], _, _, h => by cases h
  | .eval y :: seq, es, h, hx => by
    rw [toElems] at h
    obtain ⟨l, h1, h2⟩ := Res.bind_eq_ok.1 h
    cases h2
    rcases List.mem_cons.1 hx with hx | hx
    · cases hx
      simp [evals]
    · have := elems_eval h1 hx
      have e : evals (.eval (evalRef D S n y) :: l) = evalRef D S n y :: evals l := by simp [evals]
      rw [e]
      exact List.mem_cons_of_mem _ this
  | .visit c k alts :: seq, es, h, hx => by
    rw [toElems] at h
    obtain ⟨_, _, h⟩ := Res.bind_eq_ok.1 h
    obtain ⟨_, _, h⟩ := Res.bind_eq_ok.1 h
    obtain ⟨l, h1, h2⟩ := Res.bind_eq_ok.1 h
    cases h2
    have := elems_eval h1 (by simpa using hx)
    simpa [evals] using this

/-- What can be generated evaluates no inherited attribute of its node. -/
theorem noInherited {D : Names} {S : Spec} {P : Plan} {En Sq St Vs} (h : Checked S) (q : Equipped S) (w : Sched S P En Sq St Vs)
    (g : Generable D S P) : NoInherited S P := by
  intro n hn seqs hs seq hseq a ha hi he
  have f := w.node n hn
  obtain ⟨k, hk⟩ := List.mem_iff_getElem?.1 hseq
  have hp := f.plan
  rw [hs] at hp
  cases hp
  have hk' := hk
  rw [List.getElem?_map] at hk
  obtain ⟨evs, hev, rfl⟩ := Option.map_eq_some_iff.1 hk
  have hlt := (List.getElem?_eq_some_iff.1 hev).1
  have hl := f.len
  have hv : (Vs n)[k]? = some (Vs n)[k] := List.getElem?_eq_getElem (by omega)
  obtain ⟨es, hes⟩ := elems_ok (D := D) h hn f (f.step k _ evs hv hev).1
  have sok := g n hn _ f.own _ hs k _ _ hv hk' es hes
  have := (sok.evalOk _ (elems_eval hes he)).1 (by simp [evalRef])
  simp only [evalRef] at this
  have hm := attrIn_mem (own_attrIn hn ha)
  rw [attr_syn q hm] at this
  exact q.kinds a hm ⟨hi, this⟩

/-- Everything together. -/
theorem setup {D : Names} {S : Spec} {P : Plan} (h : SpecOk S) (q : Equipped S) (hf : Filled S)
    (order : List (Nat × List Graph.Graph) → List (Nat × List Graph.Graph)) (ho : ∀ l, (order l).Perm l) {fuel max : Nat}
    (hP : SAVast fuel max order S = .ok (some P)) (ha : Agree S P) (N : Named D S) (c : Classic S) (u : UsesNoInherited S)
    (g : Generable D S P) :
    ∃ En Sq St Vs prog, generate D S P = .ok (0, prog) ∧ Setup D S P En Sq St Vs prog := by
  obtain ⟨En, Sq, St, Vs, w⟩ := schedule_spec h q hf order ho hP
  obtain ⟨prog, h1, h2⟩ := program h.toChecked N w.node g
  exact ⟨En, Sq, St, Vs, prog, h1, h, w.world h.toChecked q ha (noInherited h.toChecked q w g), N, c, u, g, h2⟩

end Verif.Evaluator
