import Verif.Lemmas.Unpack
import Verif.Props.Lifetimes
import Verif.Props.Semantic

/-!
# Property C65: lifetimes, from the description to the check

The phase `semantic`, the phase `unpackLifetimes` and the generated check together, for all descriptions.
-/

namespace Verif.Props
open Verif.Str Verif.Ids Verif.Semantic Verif.Unpack
open Verif.Spec.Semantic (TypesNamed Earlier)
open Verif.Spec.Unpack

/-- C65, what the check reports: a description that has been accepted (by the phase `semantic`, then by `unpackLifetimes`), and the check
that is generated for it.  At every action number and for every tree, the check reports an error about a node, a child, the type of a child
or an attribute exactly if, by the description, a node of the tree has it in a state that is forbidden at this action.  Missing:
descriptions in which phases are used twice or are written inside the first one (`C65_inline_false`), phases that end with phases
(`C30_nested_end_false`), several lifetimes for one thing (`C65_second_false`), and attributes about which nodesets disagree. -/
theorem C65_check_partial {addr : Loc → Nat} {fuel fuel' : Nat} {A : Parse.Ast} {o : Semantic.Out} {u : Unpack.Out}
    (ha : Spec.Semantic.Apart addr) (hp : TypesNamed A) (he : Earlier A) (h : checks addr fuel A = .ok o) (h0 : o.errors = 0)
    (hu : unpack fuel' A o = .ok u) {s : Nat} {T : Spec.Life.Tree} (hc : Compiler A s T) (hP : Spec.Unpack.Plain A s T) (hF : Flat T)
    (hS : Single A) (hG : Agree A) {cs : List Life.Chk} (hg : Life.genAll u.decls = .ok cs) {n : Nat} {N : Life.Node}
    {rs : List Life.Report} (hr : Life.chk n cs N = .ok rs) (r : Life.Report) :
    r ∈ rs ↔ ∃ m k kids attrs, Spec.Life.Within m N ∧ m = Life.Node.mk k kids attrs ∧ Wrong A o.spec T n k kids.list attrs r := by
  obtain ⟨hf, hw⟩ := checks_facts ha hp he h
  have hw := hw h0
  obtain ⟨_, s', ids, ls, h1, h2, h3, rfl⟩ := unpack_ok hu
  have hs := start_eq hf hc
  rw [h1] at hs
  cases hs
  obtain ⟨_, hm⟩ := inodes_ok (good_of hf.right hc hP h2) h3
  obtain ⟨hl, hm⟩ := hm rfl
  simp only [Nat.zero_add] at hm
  rw [C31_check_partial (fun d hd => ?_) hg n hr r]
  · constructor
    · rintro ⟨m, k, kids, attrs, d, g1, g2, g3, g4⟩
      obtain ⟨x, l, g5, g6, rfl⟩ := (decls_get hl).1 g3
      exact ⟨m, k, kids, attrs, g1, g2, (decl_wrong hf hw hS hG hF g5 (hm k x l g5 g6) n kids.list attrs r).1 g4⟩
    · rintro ⟨m, k, kids, attrs, g1, g2, g4⟩
      have hk : ∃ x, A.nodes[k]? = some x := by
        cases r with
        | node => obtain ⟨x, g, _⟩ := g4; exact ⟨x, g⟩
        | child j => obtain ⟨x, _, _, g, _⟩ := g4; exact ⟨x, g⟩
        | type j => obtain ⟨x, _, _, g, _⟩ := g4; exact ⟨x, g⟩
        | attr j =>
          obtain ⟨_, _, _, _, _, _, g, _⟩ := g4
          obtain ⟨x, g, _⟩ := effective_to hf hw hG g
          exact ⟨x, g⟩
      obtain ⟨x, g5⟩ := hk
      have g6 : ∃ l, ls[k]? = some l := ⟨_, List.getElem?_eq_getElem (by rw [hl]; exact (List.getElem?_eq_some_iff.1 g5).1)⟩
      obtain ⟨l, g6⟩ := g6
      exact ⟨m, k, kids, attrs, _, g1, g2, (decls_get hl).2 ⟨x, l, g5, g6, rfl⟩,
        (decl_wrong hf hw hS hG hF g5 (hm k x l g5 g6) n kids.list attrs r).2 g4⟩
  · obtain ⟨k, hk⟩ := List.getElem?_of_mem hd
    obtain ⟨x, l, g5, g6, rfl⟩ := (decls_get hl).1 hk
    exact decl_single hf hw hS g5 (hm k x l g5 g6)

/-- C65, the check can be written for everything that the phase accepts: no assertion fails in the generator. -/
theorem C65_generates {A : Parse.Ast} {o : Semantic.Out} {u : Unpack.Out} {fuel : Nat} (hu : unpack fuel A o = .ok u) :
    u.decls.length = A.nodes.length ∧ ∃ cs, Life.genAll u.decls = .ok cs := by
  obtain ⟨_, s', ids, ls, h1, h2, h3, rfl⟩ := unpack_ok hu
  refine ⟨?_, gen_total fun d hd x xs hx => ?_⟩
  · rw [List.length_zipWith, inodes_length h3, Nat.min_self]
  · obtain ⟨k, hk⟩ := List.getElem?_of_mem hd
    obtain ⟨n, l, g1, g2, rfl⟩ := (decls_get (inodes_length h3)).1 hk
    exact inodes_kind h3 l (List.mem_of_getElem? g2) x xs hx

/-- The errors of the phase, once the numbers are given. -/
theorem unpack_faulty {addr : Loc → Nat} {fuel fuel' : Nat} {A : Parse.Ast} {o : Semantic.Out} (ha : Spec.Semantic.Apart addr)
    (hp : TypesNamed A) (he : Earlier A) (h : checks addr fuel A = .ok o) (h0 : o.errors = 0) {s : Nat} {T : Spec.Life.Tree}
    (hc : Compiler A s T) (hP : Spec.Unpack.Plain A s T) (hS : Single A) (hG : Agree A) {ids : Life.Addr → Nat}
    (hi : Life.AITAast (phasesOf A o.tab) fuel' (some s) = .ok ids) {ls : List Lives} {e : Nat}
    (hl : MITLinodes ⟨phasesOf A o.tab, ids, fuel', s⟩ o.attrs 0 A.nodes = .ok (ls, e)) :
    Faulty A T ↔ CLTast A o.attrs ≠ 0 ∨ e ≠ 0 := by
  obtain ⟨hf, hw⟩ := checks_facts ha hp he h
  obtain ⟨hz, _⟩ := inodes_ok (good_of hf.right hc hP hi) hl
  simp only [Nat.zero_add] at hz
  rw [faulty_iff hf (hw h0) hp hS hG (T := T)]
  refine or_congr Iff.rfl ?_
  rw [ne_eq, hz]
  constructor
  · rintro ⟨k, n, g1, g2⟩ g
    exact g k n g1 g2
  · intro g
    refine Classical.byContradiction fun hn => g fun k n g1 g2 => hn ⟨k, n, g1, g2⟩

/-- C65, what is reported about lifetimes: the phase ends with errors only if something has lifetimes that it cannot have, or a target
denotes no action; and it ends without only if not.  Missing: as for `C65_check_partial`, except for phases that end with phases. -/
theorem C65_reports_partial {addr : Loc → Nat} {fuel : Nat} {A : Parse.Ast} {o : Semantic.Out} (ha : Spec.Semantic.Apart addr)
    (hp : TypesNamed A) (he : Earlier A) (h : checks addr fuel A = .ok o) (h0 : o.errors = 0) {s : Nat} {T : Spec.Life.Tree}
    (hc : Compiler A s T) (hP : Spec.Unpack.Plain A s T) (hS : Single A) (hG : Agree A) (fuel' : Nat) :
    (unpack fuel' A o = .abort "CTIabortOnError" → Faulty A T) ∧ ∀ u, unpack fuel' A o = .ok u → ¬ Faulty A T := by
  obtain ⟨hf, _⟩ := checks_facts ha hp he h
  have hs := start_eq hf hc
  refine ⟨fun hu => ?_, fun u hu hF => ?_⟩
  · cases hn : CLTast A o.attrs with
    | succ n => exact (faulty_iff hf ((checks_facts ha hp he h).2 h0) hp hS hG).2 (Or.inl (by rw [hn]; omega))
    | zero =>
      simp only [unpack, hs, hn, abortOnError, Res.bind_ok] at hu
      cases hi : Life.AITAast (phasesOf A o.tab) fuel' (some s) with
      | ok ids =>
        rw [hi, Res.bind_ok] at hu
        cases hl : MITLinodes ⟨phasesOf A o.tab, ids, fuel', s⟩ o.attrs 0 A.nodes with
        | ok r =>
          obtain ⟨ls, e⟩ := r
          rw [hl] at hu
          simp only [Res.bind_ok] at hu
          refine (unpack_faulty ha hp he h h0 hc hP hS hG hi hl).2 (Or.inr fun e0 => ?_)
          subst e0
          cases hu
        | ub w => rw [hl] at hu; cases hu
        | abort w => exact absurd hl (inodes_noabort _ _ _)
        | diverge => rw [hl] at hu; cases hu
      | ub w => rw [hi] at hu; cases hu
      | abort w => exact absurd hi (aita_noabort _ _ _)
      | diverge => rw [hi] at hu; cases hu
  · obtain ⟨g1, s', ids, ls, h1, h2, h3, rfl⟩ := unpack_ok hu
    rw [h1] at hs
    cases hs
    rcases (unpack_faulty ha hp he h h0 hc hP hS hG h2 h3).1 hF with g | g
    · exact g g1
    · exact g rfl

/-- C65, the phase ends: if all phases are finite, then with enough fuel there is an outcome, with or without errors.  Missing: as for
`C65_reports_partial`, and phases that are not finite (`C65_loops_false`). -/
theorem C65_ends_partial {addr : Loc → Nat} {fuel : Nat} {A : Parse.Ast} {o : Semantic.Out} (ha : Spec.Semantic.Apart addr)
    (hp : TypesNamed A) (he : Earlier A) (h : checks addr fuel A = .ok o) (h0 : o.errors = 0) {s : Nat} {T : Spec.Life.Tree}
    (hc : Compiler A s T) (hP : Spec.Unpack.Plain A s T) (hS : Single A) (hG : Agree A) (hfin : Finite A) :
    ∃ M, ∀ fuel' ≥ M, (Faulty A T → unpack fuel' A o = .abort "CTIabortOnError") ∧ (¬ Faulty A T → ∃ u, unpack fuel' A o = .ok u) := by
  obtain ⟨hf, _⟩ := checks_facts ha hp he h
  obtain ⟨p, hp1, hp2, hp3⟩ := id hc
  obtain ⟨M, hM⟩ := C29_ends_partial (phases_get (tab := o.tab) hp1) (by
    intro x hx
    obtain ⟨q, hq, rfl⟩ := List.mem_map.1 hx
    obtain ⟨g1, T', g2⟩ := hfin q hq
    exact ⟨by simpa using g1, T', acts_unfolds hf.right g2⟩)
  refine ⟨M, fun fuel' hfu => ?_⟩
  obtain ⟨ids, hi, hr⟩ := hM fuel' hfu
  obtain ⟨⟨ls, e⟩, hl⟩ := inodes_total (E := ⟨phasesOf A o.tab, ids, fuel', s⟩) hr o.attrs A.nodes 0
  have hF := unpack_faulty ha hp he h h0 hc hP hS hG hi hl
  have hs := start_eq hf hc
  have run : unpack fuel' A o = (abortOnError (CLTast A o.attrs)).bind fun _ => (abortOnError e).bind fun _ =>
      .ok ⟨List.zipWith (declOf o) A.nodes ls, CSMast A⟩ := by
    simp only [unpack, hs, hi, hl, Res.bind_ok]
    rfl
  rw [run, hF]
  cases CLTast A o.attrs with
  | succ n => exact ⟨fun _ => rfl, fun g => absurd (Or.inl (by omega)) g⟩
  | zero =>
    cases e with
    | zero => exact ⟨fun g => by omega, fun _ => ⟨_, rfl⟩⟩
    | succ e => exact ⟨fun _ => rfl, fun g => absurd (Or.inr (by omega)) g⟩

/-- C65, which children are marked as mandatory: exactly those with a lifetime `mandatory` without range, in any place of the list. -/
theorem C65_mandatory {A : Parse.Ast} {o : Semantic.Out} {u : Unpack.Out} {fuel : Nat} (hu : unpack fuel A o = .ok u) (k j : Nat)
    {n : Parse.Node} {c : Parse.Child} (hn : A.nodes[k]? = some n) (hc : n.children[j]? = some c) :
    ∃ l b, u.mandatory[k]? = some l ∧ l[j]? = some b ∧ (b = true ↔ Always c) := by
  obtain ⟨_, s', ids, ls, h1, h2, h3, rfl⟩ := unpack_ok hu
  refine ⟨n.children.map fun c => CSMlifetimes c.lifetimes false, CSMlifetimes c.lifetimes false, by simp [CSMast, hn], by simp [hc], ?_⟩
  rw [csm_iff]
  simp [Always]

/-- C65, the mark is right: in a tree for which the check reports nothing, at any action, the children that are marked as mandatory are
there.  (The evaluator does not ask for them.)  Missing: as for `C65_check_partial`; with two lifetimes it is false
(`C65_second_false`). -/
theorem C65_complete_partial {addr : Loc → Nat} {fuel fuel' : Nat} {A : Parse.Ast} {o : Semantic.Out} {u : Unpack.Out}
    (ha : Spec.Semantic.Apart addr) (hp : TypesNamed A) (he : Earlier A) (h : checks addr fuel A = .ok o) (h0 : o.errors = 0)
    (hu : unpack fuel' A o = .ok u) {s : Nat} {T : Spec.Life.Tree} (hc : Compiler A s T) (hP : Spec.Unpack.Plain A s T) (hF : Flat T)
    (hS : Single A) (hG : Agree A) {cs : List Life.Chk} (hg : Life.genAll u.decls = .ok cs) {n : Nat} {N : Life.Node}
    (hr : Life.chk n cs N = .ok []) {k : Nat} {kids : Life.Kids} {attrs : List Bool} (hW : Spec.Life.Within (.mk k kids attrs) N)
    {j : Nat} {l : List Bool} (hk : u.mandatory[k]? = some l) (hj : l[j]? = some true) : kids.list[j]? ≠ some none := by
  intro hno
  obtain ⟨_, s', ids, ls, h1, h2, h3, hu'⟩ := unpack_ok hu
  subst hu'
  simp only [CSMast, List.getElem?_map, Option.map_eq_some_iff] at hk
  obtain ⟨x, hx, rfl⟩ := hk
  simp only [List.getElem?_map, Option.map_eq_some_iff] at hj
  obtain ⟨c, hcj, hj⟩ := hj
  obtain ⟨h, h⟩ | ⟨l, hl, g1, g2, g3⟩ := (csm_iff _ _).1 hj
  have := (C65_check_partial ha hp he h h0 hu hc hP hF hS hG hg hr (.child j)).2
    ⟨_, k, kids, attrs, hW, rfl, x, c, none, hx, hcj, hno, l, hl, by
      rw [Forbids, g1]
      exact ⟨⟨fun r hr => (by rw [g2] at hr; cases hr), fun r hr => (by rw [g3] at hr; cases hr)⟩, rfl⟩⟩
  cases this

/-! ## Samples -/

/-- Everything after the parser: the errors, the marks of the children, and what the check reports. -/
def lifeRun (A : Parse.Ast) (i : Nat) (N : Life.Node) : Res (Nat × List (List Bool) × List Life.Report) :=
  (checks sampleAddr 60 A).bind fun o => (unpack 60 A o).bind fun u => (Life.genAll u.decls).bind fun cs =>
    (Life.chk i cs N).bind fun rs => .ok (o.errors, u.mandatory, rs)

theorem lifeRun_ok {A : Parse.Ast} {i : Nat} {N : Life.Node} {m : List (List Bool)} {rs : List Life.Report}
    (h : (match lifeRun A i N with
      | .ok x => decide (x = (0, m, rs))
      | _ => false) = true) :
    ∃ o u cs, checks sampleAddr 60 A = .ok o ∧ o.errors = 0 ∧ unpack 60 A o = .ok u ∧ u.mandatory = m ∧ Life.genAll u.decls = .ok cs ∧
      Life.chk i cs N = .ok rs := by
  cases hr : lifeRun A i N with
  | ok x =>
    rw [hr] at h
    have := of_decide_eq_true h
    subst this
    obtain ⟨o, h1, hr⟩ := Res.bind_eq_ok.1 hr
    obtain ⟨u, h2, hr⟩ := Res.bind_eq_ok.1 hr
    obtain ⟨cs, h3, hr⟩ := Res.bind_eq_ok.1 hr
    obtain ⟨rs', h4, hr⟩ := Res.bind_eq_ok.1 hr
    simp only [Res.ok.injEq, Prod.mk.injEq] at hr
    obtain ⟨h5, h6, rfl⟩ := hr
    exact ⟨o, u, cs, h1, h5, h2, h6, h3, h4⟩
  | ub w => rw [hr] at h; cases h
  | abort w => rw [hr] at h; cases h
  | diverge => rw [hr] at h; cases h

/-- As a check: no two attributes have the same name. -/
theorem agree_of {A : Parse.Ast} (h : (((A.nodes.flatMap (·.attrs)) ++ A.nodesets.flatMap (·.attrs)).map
    fun a => a.name.orig.map Spec.Str.lowerB).Nodup) : Agree A := by
  have hin : ∀ k a, Effective A k a → a ∈ (A.nodes.flatMap (·.attrs)) ++ A.nodesets.flatMap (·.attrs) := by
    intro k a ha
    rw [List.mem_append, List.mem_flatMap, List.mem_flatMap]
    cases ha with
    | own h1 h2 => exact Or.inl ⟨_, List.mem_of_getElem? h1, h2⟩
    | member h1 h2 h3 _ _ => exact Or.inr ⟨_, List.mem_of_getElem? h2, h3⟩
  intro k a b ha hb he
  have hu := List.pairwise_map.1 h
  have : a = b := by
    refine Classical.byContradiction fun hne => ?_
    obtain ⟨i, hi⟩ := List.getElem?_of_mem (hin k a ha)
    obtain ⟨j, hj⟩ := List.getElem?_of_mem (hin k b hb)
    obtain ⟨hi', hi⟩ := List.getElem?_eq_some_iff.1 hi
    obtain ⟨hj', hj⟩ := List.getElem?_eq_some_iff.1 hj
    rcases Nat.lt_trichotomy i j with g | g | g
    · exact List.pairwise_iff_getElem.1 hu i j hi' hj' g (by rw [hi, hj]; exact he)
    · subst g
      exact hne (hi.symm.trans hj)
    · exact List.pairwise_iff_getElem.1 hu j i hj' hi' g (by rw [hi, hj]; exact he.symm)
  rw [this]

/-- `start phase All { scan; Opt; gen; }  phase Optimise { uid = Opt; fold; clean; }  pass scan; …`;
`root node X { children { B y { mandatory } }, attributes { string s { disallowed [-> Opt) } } }`,
`node Y { children { X x }, lifetimes { disallowed (opt ->] } }`,
`nodeset B { nodes = {X, Y}, attributes { X link { mandatory [opt.fold -> clean) } } }`. -/
def lifeFile : List Spec.Syntax.Entry :=
  [.phase (.mk true false (nm "All" 0) none none none
      (.cons (.ref (nm "scan" 0)) (.cons (.ref (nm "Opt" 0)) (.one (.ref (nm "gen" 0)))))),
    .phase (.mk false false (nm "Optimise" 0) none (some (nm "Opt" 0)) none (.cons (.ref (nm "fold" 0)) (.one (.ref (nm "clean" 0))))),
    .pass (.plain (nm "scan" 0)), .pass (.plain (nm "fold" 0)), .pass (.plain (nm "clean" 0)), .pass (.plain (nm "gen" 0)),
    .node ⟨true, nm "X" 0, [⟨nm "B" 0, nm "y" 0, some (false, [⟨.mandatory, none⟩])⟩],
      [⟨.prim .string, nm "s" 0, some [.lifetime ⟨.disallowed, some (⟨true, []⟩, ⟨false, [nm "Opt" 0]⟩)⟩]⟩], [], [], false⟩,
    .node ⟨false, nm "Y" 0, [⟨nm "X" 0, nm "x" 0, none⟩], [], [], [⟨.disallowed, some (⟨false, [nm "opt" 0]⟩, ⟨true, []⟩)⟩], false⟩,
    .nodeset (.long (nm "B" 0) none ⟨.lit (nm "X" 0) [nm "Y" 0], .nil⟩
      [⟨.named (nm "X" 0), nm "link" 0,
        some [.lifetime ⟨.mandatory, some (⟨true, [nm "opt" 0, nm "fold" 0]⟩, ⟨false, [nm "clean" 0]⟩)⟩]⟩])]

/-- The inner phase. -/
def lifeInner : Spec.Life.Tree := .leaf (ident (nm "fold" 0)) none (.leaf (ident (nm "clean" 0)) none .nil)

/-- Its compiler. -/
def lifeTree : Spec.Life.Tree :=
  .leaf (ident (nm "scan" 0)) none (.phase 0 (ident (nm "Optimise" 0)) (some (ident (nm "Opt" 0))) lifeInner
    (.leaf (ident (nm "gen" 0)) none .nil))

theorem lifeInner_acts : Acts (ast lifeFile) [nm "fold" 0, nm "clean" 0] lifeInner :=
  .pass (p := ⟨nm "fold" 0, none, none, none⟩) (by decide +kernel) (Or.inl rfl)
    (.pass (p := ⟨nm "clean" 0, none, none, none⟩) (by decide +kernel) (Or.inl rfl) .nil)

theorem life_compiler : Compiler (ast lifeFile) 1 lifeTree :=
  ⟨_, rfl, rfl, .pass (p := ⟨nm "scan" 0, none, none, none⟩) (by decide +kernel) (Or.inl rfl)
    (.phase (p := ⟨nm "Optimise" 0, false, false, none, some (nm "Opt" 0), none, [nm "fold" 0, nm "clean" 0]⟩) rfl
      (Or.inr ⟨_, rfl, rfl⟩) lifeInner_acts
      (.pass (p := ⟨nm "gen" 0, none, none, none⟩) (by decide +kernel) (Or.inl rfl) .nil))⟩

theorem life_plain : Spec.Unpack.Plain (ast lifeFile) 1 lifeTree := by
  have e : (ast lifeFile).phases.length = 2 := by decide +kernel
  exact ⟨by decide, fun j h1 h2 => by omega⟩

theorem life_flat : Flat lifeTree := by
  intro q n u body h
  simp only [lifeTree, lifeInner, Spec.Life.occ, List.mem_cons, List.mem_append, List.not_mem_nil, or_false, reduceCtorEq, false_or] at h
  obtain ⟨rfl, rfl, rfl, rfl⟩ := Spec.Life.Item.phase.inj h
  rfl

theorem life_single : Single (ast lifeFile) := ⟨by decide +kernel, by decide +kernel, by decide +kernel, by decide +kernel⟩

theorem life_agree : Agree (ast lifeFile) := agree_of (by decide +kernel)

theorem life_finite : Finite (ast lifeFile) := by
  have e : (ast lifeFile).phases = [⟨nm "Optimise" 0, false, false, none, some (nm "Opt" 0), none, [nm "fold" 0, nm "clean" 0]⟩,
      ⟨nm "All" 0, true, false, none, none, none, [nm "scan" 0, nm "Opt" 0, nm "gen" 0]⟩] := by decide +kernel
  intro p hp
  rw [e] at hp
  obtain ⟨p', h1, _, h2⟩ := life_compiler
  rw [e] at h1
  cases h1
  simp only [List.mem_cons, List.not_mem_nil, or_false] at hp
  rcases hp with rfl | rfl
  · exact ⟨by decide, _, lifeInner_acts⟩
  · exact ⟨by decide, _, h2⟩

/-- A tree: an `X` above a `Y`, without link in the `Y`. -/
def lifeNode : Life.Node := .mk 1 (.some (.mk 0 (.none .nil) [false]) .nil) [true, true]

/-- `C65_check_partial`, `C65_generates`, `C65_mandatory` and, for the actions 3 and 5, `C65_complete_partial` apply: at action 2 the string of the `X` is reported, at action 4 the link of the `Y`, at action 6 the `Y`. -/
example : TypesNamed (ast lifeFile) ∧ Earlier (ast lifeFile) ∧ Compiler (ast lifeFile) 1 lifeTree ∧
    Spec.Unpack.Plain (ast lifeFile) 1 lifeTree ∧ Flat lifeTree ∧ Single (ast lifeFile) ∧ Agree (ast lifeFile) ∧
    ∀ x ∈ [(2, [Life.Report.attr 1]), (3, []), (4, [.attr 0]), (5, []), (6, [.node])],
      ∃ o u cs, checks sampleAddr 60 (ast lifeFile) = .ok o ∧ o.errors = 0 ∧ unpack 60 (ast lifeFile) o = .ok u ∧
        u.mandatory = [[false], [true]] ∧ Life.genAll u.decls = .ok cs ∧ Life.chk x.1 cs lifeNode = .ok x.2 := by
  refine ⟨named_of_plain (by decide +kernel), earlier_of_flat (by decide +kernel), life_compiler, life_plain, life_flat, life_single,
    life_agree, fun x hx => ?_⟩
  simp only [List.mem_cons, List.not_mem_nil, or_false] at hx
  rcases hx with rfl | rfl | rfl | rfl | rfl <;> exact lifeRun_ok (by decide +kernel)

/-- `C65_reports_partial` and `C65_ends_partial` apply to the sample, which is not faulty. -/
example : TypesNamed (ast lifeFile) ∧ Earlier (ast lifeFile) ∧ Finite (ast lifeFile) ∧ ¬ Faulty (ast lifeFile) lifeTree := by
  have hp : TypesNamed (ast lifeFile) := named_of_plain (by decide +kernel)
  have he : Earlier (ast lifeFile) := earlier_of_flat (by decide +kernel)
  refine ⟨hp, he, life_finite, fun h => ?_⟩
  obtain ⟨o, u, cs, h1, h2, h3, _⟩ := lifeRun_ok (A := ast lifeFile) (i := 3) (N := lifeNode) (m := [[false], [true]]) (rs := [])
    (by decide +kernel)
  exact (C65_reports_partial sampleAddr_apart hp he h1 h2 life_compiler life_plain life_single life_agree 60).2 u h3 h

/-- `node X { attributes { int i { mandatory } } }`, and a target that is not there. -/
def faultyFile : List Spec.Syntax.Entry :=
  [.phase (.mk true false (nm "All" 0) none none none (.one (.ref (nm "scan" 0)))), .pass (.plain (nm "scan" 0)),
    .node ⟨true, nm "X" 0, [⟨nm "X" 0, nm "x" 0, some (false, [⟨.optional, some (⟨true, [nm "All" 0]⟩, ⟨true, []⟩)⟩])⟩],
      [⟨.prim .int, nm "i" 0, some [.lifetime ⟨.mandatory, none⟩]⟩], [], [], false⟩]

/-- And one that is faulty, twice. -/
example : Faulty (ast faultyFile) (.leaf (ident (nm "scan" 0)) none .nil) ∧
    (match (checks sampleAddr 60 (ast faultyFile)).bind fun o => (unpack 60 (ast faultyFile) o).bind fun _ => .ok o.errors with
      | .abort w => w == "CTIabortOnError"
      | _ => false) = true := by
  refine ⟨.nodeAttr (n := (ast faultyFile).nodes[0]'(by decide +kernel)) (a := ⟨nm "i" 0, .int, none, false, false, false, [⟨.mandatory, none, none⟩]⟩)
    (List.getElem_mem _) (by decide +kernel) (by decide) ?_, by decide +kernel⟩
  rintro (h | ⟨h, _⟩) <;> cases h

/-! ## Where it is false -/

/-- `start phase All { phase Opt { pass fold; }; pass gen; }`, `root node X { …, lifetimes { disallowed [fold ->] } }`. -/
def inlineFile : List Spec.Syntax.Entry :=
  [.phase (.mk true false (nm "All" 0) none none none
      (.cons (.phase (.mk false false (nm "Opt" 0) none none none (.one (.pass (.plain (nm "fold" 0))))))
        (.one (.pass (.plain (nm "gen" 0)))))),
    .node ⟨true, nm "X" 0, [⟨nm "X" 0, nm "y" 0, none⟩], [], [], [⟨.disallowed, some (⟨true, [nm "fold" 0]⟩, ⟨true, []⟩)⟩], false⟩]

/-- Its compiler. -/
def inlineLife : Spec.Life.Tree :=
  .phase 1 (ident (nm "Opt" 0)) none (.leaf (ident (nm "fold" 0)) none .nil) (.leaf (ident (nm "gen" 0)) none .nil)

/-- C65 is false for phases that are written inside the first one: while `fold` and `gen` run, as actions 3 and 4, an `X` is forbidden,
but the check says nothing. -/
theorem C65_inline_false : ∃ A s T, TypesNamed A ∧ Earlier A ∧ Compiler A s T ∧ Flat T ∧ Single A ∧ Agree A ∧
    ∀ n, n = 3 ∨ n = 4 → ∃ o u cs, checks sampleAddr 60 A = .ok o ∧ o.errors = 0 ∧ unpack 60 A o = .ok u ∧
      Life.genAll u.decls = .ok cs ∧ Life.chk n cs (.mk 0 (.none .nil) []) = .ok [] ∧ Wrong A o.spec T n 0 [none] [] .node := by
  refine ⟨ast inlineFile, 0, inlineLife, named_of_plain (by decide +kernel), earlier_of_flat (by decide +kernel), ?_, ?_,
    ⟨by decide +kernel, by decide +kernel, by decide +kernel, by decide +kernel⟩, agree_of (by decide +kernel), fun n hn => ?_⟩
  · exact ⟨_, rfl, rfl, .phase (p := ⟨nm "Opt" 0, false, false, none, none, none, [nm "fold" 0]⟩) rfl (Or.inl rfl)
      (.pass (p := ⟨nm "fold" 0, none, none, none⟩) (by decide +kernel) (Or.inl rfl) .nil)
      (.pass (p := ⟨nm "gen" 0, none, none, none⟩) (by decide +kernel) (Or.inl rfl) .nil)⟩
  · intro q n u body h
    simp only [inlineLife, Spec.Life.occ, List.mem_cons, List.mem_append, List.not_mem_nil, or_false, reduceCtorEq] at h
    obtain ⟨rfl, rfl, rfl, rfl⟩ := Spec.Life.Item.phase.inj h
    rfl
  · have hw : ∀ S, Wrong (ast inlineFile) S inlineLife n 0 [none] [] .node := by
      intro S
      refine ⟨_, rfl, ⟨.disallowed, some ⟨true, [nm "fold" 0]⟩, none⟩, by decide +kernel, ⟨fun r hr => ?_, fun r hr => by cases hr⟩, rfl⟩
      cases hr
      refine ⟨1, .leaf (ident (nm "fold" 0)) none, .here ⟨rfl, .inl rfl, fun j y hj hy => ?_⟩, Or.inl ⟨rfl, by omega⟩⟩
      have : j = 0 := by omega
      subst this
      simp only [inlineLife, Spec.Life.occ, List.cons_append, List.getElem?_cons_zero, Option.some.injEq] at hy
      subst hy
      rintro (h | ⟨_, h, _⟩)
      · exact absurd h (by decide +kernel)
      · cases h
    rcases hn with rfl | rfl
    · obtain ⟨o, u, cs, h1, h2, h3, _, h4, h5⟩ := lifeRun_ok (A := ast inlineFile) (i := 3) (N := .mk 0 (.none .nil) []) (m := [[false]])
        (rs := []) (by decide +kernel)
      exact ⟨o, u, cs, h1, h2, h3, h4, h5, hw _⟩
    · obtain ⟨o, u, cs, h1, h2, h3, _, h4, h5⟩ := lifeRun_ok (A := ast inlineFile) (i := 4) (N := .mk 0 (.none .nil) []) (m := [[false]])
        (rs := []) (by decide +kernel)
      exact ⟨o, u, cs, h1, h2, h3, h4, h5, hw _⟩

/-- `root node X { children { X y { mandatory [scan ->], mandatory } } }` -/
def secondFile : List Spec.Syntax.Entry :=
  [.phase (.mk true false (nm "All" 0) none none none (.one (.ref (nm "scan" 0)))), .pass (.plain (nm "scan" 0)),
    .node ⟨true, nm "X" 0, [⟨nm "X" 0, nm "y" 0,
      some (false, [⟨.mandatory, some (⟨true, [nm "scan" 0]⟩, ⟨true, []⟩)⟩, ⟨.mandatory, none⟩])⟩], [], [], [], false⟩]

/-- C65 is false for two lifetimes: the second one makes the child mandatory for the evaluator, but the check lets it be NULL. -/
theorem C65_second_false : ∃ A s T, TypesNamed A ∧ Earlier A ∧ Compiler A s T ∧ Spec.Unpack.Plain A s T ∧ Flat T ∧ Agree A ∧
    ∃ o u cs, checks sampleAddr 60 A = .ok o ∧ o.errors = 0 ∧ unpack 60 A o = .ok u ∧ u.mandatory = [[true]] ∧
      Life.genAll u.decls = .ok cs ∧ Life.chk 1 cs (.mk 0 (.none .nil) []) = .ok [] ∧ Wrong A o.spec T 1 0 [none] [] (.child 0) := by
  refine ⟨ast secondFile, 0, .leaf (ident (nm "scan" 0)) none .nil, named_of_plain (by decide +kernel), earlier_of_flat (by decide +kernel),
    ⟨_, rfl, rfl, .pass (p := ⟨nm "scan" 0, none, none, none⟩) (by decide +kernel) (Or.inl rfl) .nil⟩,
    ⟨by decide, fun j h1 h2 => ?_⟩, ?_, agree_of (by decide +kernel), ?_⟩
  · have e : (ast secondFile).phases.length = 1 := by decide +kernel
    omega
  · intro q n u body h
    simp [Spec.Life.occ] at h
  · obtain ⟨o, u, cs, h1, h2, h3, h4, h5, h6⟩ := lifeRun_ok (A := ast secondFile) (i := 1) (N := .mk 0 (.none .nil) []) (m := [[true]])
      (rs := []) (by decide +kernel)
    refine ⟨o, u, cs, h1, h2, h3, h4, h5, h6, ?_⟩
    exact ⟨_, _, none, rfl, rfl, rfl, ⟨.mandatory, none, none⟩, by decide +kernel,
      ⟨fun r hr => (by cases hr), fun r hr => (by cases hr)⟩, rfl⟩

/-- `start phase All { All; pass scan; }` -/
def loopFile : List Spec.Syntax.Entry :=
  [.phase (.mk true false (nm "All" 0) none none none (.cons (.ref (nm "All" 0)) (.one (.pass (.plain (nm "scan" 0)))))),
    .node ⟨true, nm "X" 0, [⟨nm "X" 0, nm "y" 0, none⟩], [], [], [], false⟩]

/-- C65, not every description is handled: a phase that contains itself passes all checks, and then the generator recurses without end. -/
theorem C65_loops_false : ∃ A o, TypesNamed A ∧ Earlier A ∧ checks sampleAddr 60 A = .ok o ∧ o.errors = 0 ∧
    ∀ fuel, unpack fuel A o = .diverge := by
  have hp : TypesNamed (ast loopFile) := named_of_plain (by decide +kernel)
  have he : Earlier (ast loopFile) := earlier_of_flat (by decide +kernel)
  have run : (match checks sampleAddr 60 (ast loopFile) with
    | .ok o => o.errors == 0 && CLTast (ast loopFile) o.attrs == 0 && o.start == some 0 &&
        Life.actionAt (phasesOf (ast loopFile) o.tab) 0 0 == some (.phase 0)
    | _ => false) = true := by decide +kernel
  cases h : checks sampleAddr 60 (ast loopFile) with
  | ok o =>
    rw [h] at run
    simp only [Bool.and_eq_true, beq_iff_eq] at run
    obtain ⟨⟨⟨h1, h2⟩, h3⟩, h4⟩ := run
    refine ⟨_, o, hp, he, h, h1, fun fuel => ?_⟩
    have : Life.AITAast (phasesOf (ast loopFile) o.tab) fuel (some 0) = .diverge := by
      simp only [Life.AITAast]
      have : (phasesOf (ast loopFile) o.tab).length = 1 := by simp only [phasesOf, List.length_map]; decide +kernel
      rw [this, show 1 - 0 = 0 + 1 from rfl, Life.AITAiphase]
      rw [loops h4]
      rfl
    simp only [unpack, h2, abortOnError, h3, Res.bind_ok, this]
    rfl
  | ub w => rw [h] at run; cases run
  | abort w => rw [h] at run; cases run
  | diverge => rw [h] at run; cases run

/-- `phase All { pass scan; }` -/
def noStartFile : List Spec.Syntax.Entry :=
  [.phase (.mk false false (nm "All" 0) none none none (.one (.pass (.plain (nm "scan" 0))))),
    .node ⟨true, nm "X" 0, [⟨nm "X" 0, nm "y" 0, none⟩], [], [], [], false⟩]

/-- C65, not every description is handled: one without first phase passes all checks, and then an assertion fails. -/
theorem C65_start_false : ∃ A o, TypesNamed A ∧ Earlier A ∧ checks sampleAddr 60 A = .ok o ∧ o.errors = 0 ∧
    ∀ fuel, unpack fuel A o = .abort "assert" := by
  have run : (match checks sampleAddr 60 (ast noStartFile) with
    | .ok o => o.errors == 0 && CLTast (ast noStartFile) o.attrs == 0 && o.start == none
    | _ => false) = true := by decide +kernel
  cases h : checks sampleAddr 60 (ast noStartFile) with
  | ok o =>
    rw [h] at run
    simp only [Bool.and_eq_true, beq_iff_eq] at run
    obtain ⟨⟨h1, h2⟩, h3⟩ := run
    refine ⟨_, o, named_of_plain (by decide +kernel), earlier_of_flat (by decide +kernel), h, h1, fun fuel => ?_⟩
    simp only [unpack, h2, abortOnError, h3, Res.bind_ok]
    rfl
  | ub w => rw [h] at run; cases run
  | abort w => rw [h] at run; cases run
  | diverge => rw [h] at run; cases run

end Verif.Props
