import Verif.Spec.Evaluator
import Verif.Lemmas.Schedule
import Verif.Lemmas.VisitGenRun
import Verif.Lemmas.VisitGenCompile
import Verif.Lemmas.NodeGenHeader

/-!
# Lemmas about the generated evaluator: names and expressions
-/

namespace Verif.Evaluator
open Verif.Str Verif.Ids Verif.Induce Verif.Schedule Verif.Spec.Induce Verif.Spec.AttrTree Verif.Spec.Evaluate
open Verif.Spec.Evaluator Verif.AttrTree Verif.Evaluate
open Verif.Spec.EvalGen (access argExpr childOf optionals passed fnName wantedCall)
open Verif.Spec.VisitGen (keyOf childKey allOk)

theorem find_unique {α : Type} {l : List α} {p : α → Bool} {x : α} (hx : x ∈ l) (hp : p x = true)
    (hu : ∀ y ∈ l, p y = true → y = x) : l.find? p = some x := by
  cases hf : l.find? p with
  | none => exact absurd hp (by simpa using List.find?_eq_none.1 hf x hx)
  | some y => rw [hu y (List.mem_of_find?_eq_some hf) (List.find?_some hf)]

theorem attr_syn {S : Spec} (q : Equipped S) {x : Attr} (hx : x ∈ attributes S) : (attrs S).syn x.addr = x.syn := by
  have : attrAt S x.addr = some x :=
    find_unique hx (by simp) fun y hy e => inj_of_nodup q.addrs hy hx (by simpa using e)
  simp [attrs, this]

section
variable {D : Names} {S : Spec} (h : SpecOk S) (N : Named D S)
include N

theorem attr_upr {x y : Attr} (hx : x ∈ attributes S) (hy : y ∈ attributes S) (e : (D.attr x.addr).upr = (D.attr y.addr).upr) :
    x.name = y.name := by
  rw [← N.attr x hx, ← N.attr y hy]
  exact (Spec.NodeGen.upr_iff (N.wfAttr _) (N.wfAttr _)).1 e

theorem kidAt_access {n : INode} (hn : n ∈ S.nodes) {c : Child} (hc : c ∈ n.children) :
    kidAt D n (access (toNode D S n) (toChild D c)) = some c := by
  refine find_unique hc ?_ fun y hy e => ?_
  · simp [childMacro, access, toNode, toChild]
  · have e : childMacro D n y = childMacro D n c := by
      simpa [childMacro, access, toNode, toChild] using e
    unfold childMacro at e
    have e := List.append_cancel_left (List.append_cancel_right e)
    exact N.children n hn y hy c hc ((Spec.NodeGen.upr_iff (N.wfChild _) (N.wfChild _)).1 e)

include h

theorem read_own {V : Type} {n : INode} (hn : n ∈ S.nodes) {x : Attr} (hx : x ∈ n.attrs) (kids : Nat → Tree) (s : Store V) :
    readExpr D S n kids s (ownMacro D n x) = load s [] x := by
  have : n.attrs.find? (fun y => ownMacro D n y == ownMacro D n x) = some x := by
    refine find_unique hx (by simp) fun y hy e => ?_
    have e : ownMacro D n y = ownMacro D n x := by simpa using e
    unfold ownMacro at e
    have e := List.append_cancel_left (List.append_cancel_right e)
    exact name_inj h.toChecked hn hy hx
      (attr_upr N (attrIn_mem (own_attrIn hn hy)) (attrIn_mem (own_attrIn hn hx)) e)
  simp only [readExpr, this]

omit N in
theorem kidAttrs_mem {n : INode} (hn : n ∈ S.nodes) (p : Child × Attr) :
    p ∈ kidAttrs S n ↔ p.1 ∈ n.children ∧ AttrIn S p.1.type p.2 := by
  have key : ∀ c ∈ n.children, ∀ x, x ∈ attrsOf S c.type ↔ AttrIn S c.type x := by
    intro c hc x
    rcases List.mem_append.1 (h.types n hn c hc) with h1 | h1
    · obtain ⟨m, hm, e⟩ := List.mem_map.1 h1
      rw [← e, attrsOf_node h hm]
      exact ⟨own_attrIn hm, attrIn_node h.toChecked hm⟩
    · obtain ⟨m, hm, e⟩ := List.mem_map.1 h1
      rw [← e, attrsOf_set h hm]
      exact ⟨fun hx => Or.inr ⟨m, hm, rfl, hx⟩, attrIn_set h.toChecked hm⟩
  unfold kidAttrs
  rw [List.mem_flatMap]
  constructor
  · rintro ⟨c, hc, hp⟩
    rw [attributes_ok h (h.types n hn c hc)] at hp
    simp only at hp
    obtain ⟨x, hx, rfl⟩ := List.mem_map.1 hp
    exact ⟨hc, (key c hc x).1 hx⟩
  · rintro ⟨hc, hx⟩
    refine ⟨p.1, hc, ?_⟩
    rw [attributes_ok h (h.types n hn p.1 hc)]
    exact List.mem_map.2 ⟨p.2, (key _ hc _).2 hx, rfl⟩

theorem read_kid {V : Type} {n : INode} (hn : n ∈ S.nodes) {c : Child} (hc : c ∈ n.children) {x : Attr} (hx : AttrIn S c.type x)
    (kids : Nat → Tree) (s : Store V) :
    readExpr D S n kids s (kidMacro D n c x) = loadKid s c.addr x (kids c.addr) := by
  have np := N.noParen
  have head : ∀ t a, (40 : UInt8) ∉ (D.type t).upr ++ [95] ++ (D.attr a).upr := by
    intro t a
    have h1 := (np t).1
    have h2 := (np a).2.1
    simp [h1, h2]
  have shape : ∀ (c : Child) (x : Attr), kidMacro D n c x =
      ((D.type c.type).upr ++ [95] ++ (D.attr x.addr).upr) ++ 40 :: (childMacro D n c ++ [41]) := by
    intro c x; simp [kidMacro]
  have h1 : n.attrs.find? (fun y => ownMacro D n y == kidMacro D n c x) = none := by
    rw [List.find?_eq_none]
    intro y hy e
    have e : ownMacro D n y = kidMacro D n c x := by simpa using e
    rw [shape] at e
    have e' : ownMacro D n y = ((D.type n.addr).upr ++ [95] ++ (D.attr y.addr).upr) ++ 40 :: [110, 111, 100, 101, 41] := by
      simp [ownMacro]
    rw [e'] at e
    have := (Props.split_at 40 _ _ _ _ (head _ _) (head _ _) e).2
    have m : (40 : UInt8) ∈ childMacro D n c ++ [41] := by simp [childMacro]
    rw [← this] at m
    exact absurd m (by decide)
  have h2 : (kidAttrs S n).find? (fun p => kidMacro D n p.1 p.2 == kidMacro D n c x) = some (c, x) := by
    refine find_unique ((kidAttrs_mem h hn (c, x)).2 ⟨hc, hx⟩) (by simp) fun p hp e => ?_
    obtain ⟨hp1, hp2⟩ := (kidAttrs_mem h hn p).1 hp
    have e : kidMacro D n p.1 p.2 = kidMacro D n c x := by simpa using e
    rw [shape, shape] at e
    obtain ⟨e1, e2⟩ := Props.split_at 40 _ _ _ _ (head _ _) (head _ _) e
    have e2 := List.append_cancel_right e2
    unfold childMacro at e2
    have e2 := List.append_cancel_left (List.append_cancel_right e2)
    have e3 := N.children n hn _ hp1 c hc ((Spec.NodeGen.upr_iff (N.wfChild _) (N.wfChild _)).1 e2)
    rw [e3] at e1 hp2
    have e1 := List.append_cancel_left e1
    exact Prod.ext e3 (attrIn_inj h.toChecked hp2 hx (attr_upr N (attrIn_mem hp2) (attrIn_mem hx) e1))
  simp only [readExpr, h1, h2]

omit h N in
/-- The expression of an argument. -/
theorem argExpr_own {n : INode} (d : Ref) (hd : d.child = none) :
    argExpr (toNode D S n) (toRef D S n d) = ownMacro D n d.attr := by
  simp [argExpr, toNode, toRef, hd, ownMacro]

omit N in
theorem argExpr_kid {n : INode} (hn : n ∈ S.nodes) (d : Ref) {c : Child} (hc : c ∈ n.children) (hd : d.child = some c.addr) :
    argExpr (toNode D S n) (toRef D S n d) = kidMacro D n c d.attr := by
  have := type_sym h.toChecked (p := .node n) hn (Or.inr ⟨c, hc, rfl, rfl⟩)
  simp [argExpr, toNode, toRef, hd, kidMacro, childMacro, this]

theorem store_own {V : Type} {n : INode} (hn : n ∈ S.nodes) {y : Attr} (hy : y ∈ n.attrs) (x : V) (s : Store V) :
    storeAttr D n (toNode D S n).name.lwr (D.attr y.addr).lwr x s = .ok (setAt s ([], y.addr) x) := by
  have : n.attrs.find? (fun z => z.name == (D.attr y.addr).lwr) = some y := by
    have e := N.attr y (attrIn_mem (own_attrIn hn hy))
    refine find_unique hy (by simp [e]) fun z hz ez => name_inj h.toChecked hn hz hy ?_
    rw [e] at ez
    simpa using ez
  simp [storeAttr, toNode, this]

omit h in
theorem childOf_kid {n : INode} (hn : n ∈ S.nodes) (d : Ref) {c : Child} (hc : c ∈ n.children) (hd : d.child = some c.addr) :
    childOf (toNode D S n) (toRef D S n d) = some (toChild D c) := by
  simp only [childOf, toRef, toNode, hd, Option.map_some, Option.bind_some, List.find?_map]
  rw [find_unique (x := c) hc (by simp [toChild]) fun y hy e => N.children n hn y hy c hc (by simpa [toChild] using e)]
  rfl

omit h N in
theorem childOf_own {n : INode} (d : Ref) (hd : d.child = none) :
    childOf (toNode D S n) (toRef D S n d) = none := by
  simp [childOf, toRef, hd]

end

/-! ## Evaluating an equation -/

/-- The world of the visit functions of a node. -/
def world {V : Type} (R : Runtime V) (n : INode) (kids : Nat → Tree) : VisitGen.World (Store V) V where
  isNull := fun _ e =>
    match kidAt R.D n e with
    | some c => isNull (kids c.addr)
    | none => true
  nodeType := fun _ e =>
    match kidAt R.D n e with
    | some c => nodeType R.D (kids c.addr)
    | none => []
  reading := readExpr R.D R.S n kids
  evalFn := fun fn xs s => .ok (R.user fn xs, s)
  visitFn := fun fn e xs s =>
    match kidAt R.D n e with
    | none => .abort "undeclared"
    | some c => do
      let (r, b) ← call R (kids c.addr) fn xs (below c.addr s)
      .ok (r, back c.addr b s)
  storing := storeAttr R.D n

theorem call_node {V : Type} (R : Runtime V) (n : INode) (kids : Nat → Tree) (fn : CStr) (args : List V) (s : Store V)
    {f : VisitGen.Fn} (hf : R.prog.fns.find? (fun f => f.name == fn) = some f) :
    call R (.node n kids) fn args s = VisitGen.runFn (world R n kids) f args s := by
  rw [call]
  simp only [hf]
  rfl

section
variable {V : Type} {D : Names} {S : Spec} (h : SpecOk S) (N : Named D S) (prog : Prog) (user : CStr → List V → V)
include h N

/-- The arguments that are passed, and their values. -/
theorem args_read {n : INode} (hn : n ∈ S.nodes) {kids : Nat → Tree}
    (hk : ∀ c ∈ n.children, ∀ m ks, kids c.addr = .node m ks → m ∈ S.nodes)
    (hc : ∀ c ∈ n.children, D.mandatory c.addr = true → kids c.addr ≠ .null) {s z : Store V} {args : List Ref} {xs : List V}
    (hr : ∀ d ∈ args, Resolved S n d) (hs : ∀ d ∈ args, ∀ u, Means n kids d u → s u = z u) (g : Gets n kids z args xs) :
    allOk ((((args.map (toRef D S n)).filter (passed (toNode D S n) fun c =>
      (world ⟨D, S, prog, user⟩ n kids).isNull s (access (toNode D S n) c))).map (argExpr (toNode D S n))).map
      ((world ⟨D, S, prog, user⟩ n kids).reading s)) = .ok xs := by
  induction g with
  | nil => rfl
  | @missing d c rest xs e1 e2 _ ih =>
    have r := hr d List.mem_cons_self
    simp only [Resolved, e1] at r
    obtain ⟨ch, hch, rfl, _⟩ := r
    have : passed (toNode D S n) (fun c => (world ⟨D, S, prog, user⟩ n kids).isNull s (access (toNode D S n) c))
        (toRef D S n d) = false := by
      have hm : D.mandatory ch.addr = false := by
        cases hm : D.mandatory ch.addr with
        | false => rfl
        | true => exact absurd e2 (hc ch hch hm)
      rw [passed, childOf_kid N hn d hch e1]
      simp only [world, kidAt_access N hn hch, e2, isNull]
      simp [toChild, hm]
    rw [List.map_cons, List.filter_cons, this]
    exact ih (fun d hd => hr d (List.mem_cons_of_mem _ hd)) fun d hd => hs d (List.mem_cons_of_mem _ hd)
  | @value d u x rest xs hu hz _ ih =>
    have r := hr d List.mem_cons_self
    have hsu := hs d List.mem_cons_self u hu
    have ih := ih (fun d hd => hr d (List.mem_cons_of_mem _ hd)) fun d hd => hs d (List.mem_cons_of_mem _ hd)
    have key : passed (toNode D S n) (fun c => (world ⟨D, S, prog, user⟩ n kids).isNull s (access (toNode D S n) c))
        (toRef D S n d) = true ∧
        (world ⟨D, S, prog, user⟩ n kids).reading s (argExpr (toNode D S n) (toRef D S n d)) = .ok x := by
      cases hu with
      | own e =>
        simp only [Resolved, e] at r
        refine ⟨by rw [passed, childOf_own d e], ?_⟩
        rw [argExpr_own d e]
        show readExpr D S n kids s _ = _
        rw [read_own h N hn r, load, hsu, hz]
      | @child c m k b e e1 e2 e3 =>
        simp only [Resolved, e] at r
        obtain ⟨ch, hch, rfl, hat⟩ := r
        have hat : AttrIn S ch.type d.attr := hat
        refine ⟨?_, ?_⟩
        · rw [passed, childOf_kid N hn d hch e]
          simp only [world, kidAt_access N hn hch, e1, isNull]
          simp
        · rw [argExpr_kid h hn d hch e]
          show readExpr D S n kids s _ = _
          rw [read_kid h N hn hch hat, e1, loadKid]
          rw [find_unique (x := b) e2 (by simp [e3]) fun y hy ey =>
            name_inj h.toChecked (hk ch hch m k e1) hy e2 (by rw [e3]; simpa using ey)]
          simp only [load, hsu, hz]
    rw [List.map_cons, List.filter_cons, key.1]
    simp only [if_true, List.map_cons, allOk, key.2, Res.bind_ok]
    simp only [List.map_map] at ih ⊢
    rw [ih]
    rfl

omit h in
/-- The name of the function. -/
theorem fn_name {n : INode} (hn : n ∈ S.nodes) {kids : Nat → Tree} (s : Store V) (q : Eqn)
    (hr : ∀ d ∈ q.args, Resolved S n d) :
    fnName (toNode D S n) (toRef D S n q.rule) ((optionals (toNode D S n) ⟨toRef D S n q.rule, q.args.map (toRef D S n)⟩).filter
      fun c => (world ⟨D, S, prog, user⟩ n kids).isNull s (access (toNode D S n) c)) = userFn D S n kids q := by
  unfold userFn
  congr 1
  refine List.filter_congr fun c hc => ?_
  simp only [optionals, Spec.EvalGen.firsts_mem, List.mem_filter, List.mem_filterMap, List.mem_map] at hc
  obtain ⟨⟨_, ⟨d, hd, rfl⟩, hc⟩, _⟩ := hc
  have r := hr d hd
  cases e : d.child with
  | none => rw [childOf_own d e] at hc; cases hc
  | some a =>
    simp only [Resolved, e] at r
    obtain ⟨ch, hch, rfl, _⟩ := r
    rw [childOf_kid N hn d hch e] at hc
    cases hc
    have : (toChild D ch).addr.toNat = ch.addr := by
      simp only [toChild, UInt64.toNat_ofNat']
      exact Nat.mod_eq_of_lt (N.size n hn ch hch)
    rw [this]
    simp only [world, kidAt_access N hn hch]
    cases kids ch.addr <;> rfl

/-- An equation is evaluated. -/
theorem eval_meaning {n : INode} (hn : n ∈ S.nodes) {kids : Nat → Tree}
    (hk : ∀ c ∈ n.children, ∀ m ks, kids c.addr = .node m ks → m ∈ S.nodes)
    (hc : ∀ c ∈ n.children, D.mandatory c.addr = true → kids c.addr ≠ .null) {s z : Store V} {q : Eqn} {xs : List V}
    (hq : q ∈ n.eqs) (hu : Spec.EvalGen.Unique (toNode D S n)) {a : EvalGen.ARef}
    (ha : Spec.EvalGen.SameRef a (toRef D S n q.rule))
    (hr : ∀ d ∈ q.args, Resolved S n d) (hs : ∀ d ∈ q.args, ∀ u, Means n kids d u → s u = z u) (g : Gets n kids z q.args xs)
    (K : Spec.VisitGen.Known V) :
    Spec.VisitGen.evalMeaning (world ⟨D, S, prog, user⟩ n kids) (toNode D S n) a K s =
      (if a.inode = none then storeAttr D n (toNode D S n).name.lwr a.iattr.lwr (user (userFn D S n kids q) xs) s else .ok s) >>=
        fun s => .ok (K.put (keyOf a) (user (userFn D S n kids q) xs), s) := by
  have he : Spec.VisitGen.equationFor (toNode D S n) a = some ⟨toRef D S n q.rule, q.args.map (toRef D S n)⟩ :=
    VisitGen.equationFor_ok (List.mem_map.2 ⟨q, hq, rfl⟩) ha hu.1
  rw [Spec.VisitGen.evalMeaning]
  simp only [he, wantedCall, args_read h N prog user hn hk hc hr hs g, fn_name N prog user hn s q hr, Res.bind_ok]
  by_cases hi : a.inode = none
  · simp only [hi, if_true]; rfl
  · simp only [hi, if_false]; rfl

end

end Verif.Evaluator
