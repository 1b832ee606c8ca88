import Verif.Lemmas.CompiledProgram
import Verif.Props.Unpack

/-!
# Property C66: the generated compiler runs the actions of the description

The phase `semantic`, the generators of tables, the C compiler as far as names are concerned, and the phase driver together, for all
descriptions.
-/

namespace Verif.Props
open Verif.Str Verif.Ids Verif.Semantic Verif.Compiled
open Verif.Spec.Semantic (TypesNamed Earlier)
open Verif.Spec.Unpack (Compiler ident)
open Verif.Spec.Compiled

variable {W : Type}

/-- C66, which descriptions compile: the tables generated for an accepted description are accepted by the C compiler exactly if no name
is one that the generated code needs for itself, and every action is referred to by its name (or as `null`, which ends a table). -/
theorem C66_compiles {addr : Loc → Nat} {fuel : Nat} {A : Parse.Ast} {o : Semantic.Out} (ha : Spec.Semantic.Apart addr)
    (hp : TypesNamed A) (he : Earlier A) (h : checks addr fuel A = .ok o) {s : Nat} {p : Parse.Phase} (hs : A.phases[s]? = some p) :
    (∃ C, compile (declsOf A) s = some C) ↔ Free A ∧ ∀ q ∈ A.phases, ∀ n ∈ q.actions, Named A n ∨ Null n :=
  compile_iff (checks_facts ha hp he h).1.right hs

/-- C66, there is one program: the compiler of an accepted description runs one program. -/
theorem C66_unique {addr : Loc → Nat} {fuel : Nat} {A : Parse.Ast} {o : Semantic.Out} (ha : Spec.Semantic.Apart addr)
    (hp : TypesNamed A) (he : Earlier A) (h : checks addr fuel A = .ok o) {s : Nat} {T : Spec.Life.Tree} (hc : Compiler A s T) :
    ∃ p a, A.phases[s]? = some p ∧ p.start = true ∧ o.start = some s ∧ Program A p.actions a ∧ ∀ b, Program A p.actions b → b = a := by
  obtain ⟨hf, _⟩ := checks_facts ha hp he h
  obtain ⟨p, h1, h2, h3⟩ := id hc
  obtain ⟨a, h4, _⟩ := program_of h3
  exact ⟨p, a, h1, h2, Unpack.start_eq hf hc, h4, fun b hb => program_unique hf.right hb h4⟩

/-- C66, what runs: a description that has been accepted and that compiles, with actions referred to by name.  With any user code and
from any state of the driver, `CCNrun` on the generated tables does what the driver does on the program of the description: the same
functions are called in the same order with the same action ids, the same phases are skipped or repeated, and the run ends alike, in the
same state.  (In particular it does not leave the tables.)  Missing: descriptions that do not compile (`C66_uid_false`,
`C66_cleanup_false`), and references by a unique id called `null` (`C66_null_false`). -/
theorem C66_program_partial {addr : Loc → Nat} {fuel : Nat} {A : Parse.Ast} {o : Semantic.Out} (ha : Spec.Semantic.Apart addr)
    (hp : TypesNamed A) (he : Earlier A) (h : checks addr fuel A = .ok o) {s : Nat} {p : Parse.Phase} (hs : A.phases[s]? = some p)
    (hf : Free A) (hb : ByName A) {a : PD.Acts Lab} (hP : Program A p.actions a) :
    ∃ C, compile (declsOf A) s = some C ∧ ∃ N, ∀ fuel ≥ N, ∀ (S : PD.Sem Lab W) (rounds : Nat) (d : PD.Drv W),
      CCNrun S rounds C fuel d = PD.CCNrun S rounds p.name.orig (p.gate.map fun g => .gate g.orig) p.cycle a d := by
  have hr := (checks_facts ha hp he h).1.right
  obtain ⟨C, hC⟩ := (compile_iff hr hs).2 ⟨hf, fun q hq n hn => Or.inl (hb q hq n hn)⟩
  refine ⟨C, hC, depth a, fun fuel hfu S rounds d => ?_⟩
  obtain ⟨table, h1, h2⟩ := root_loads hr hb hC hs hP
  rw [ccnrun_eq S rounds h1 h2 hfu, Option.map_map]
  rfl

/-- C66, what is called at which number: in a run of the compiler, everything that happens has the number of the first phase or of an
occurrence of an action in the description, what is called for a pass or traversal is its function or its table, and what is asked for a
phase is its gate.  Missing: as for `C66_program_partial`. -/
theorem C66_numbers_partial {addr : Loc → Nat} {fuel : Nat} {A : Parse.Ast} {o : Semantic.Out} (ha : Spec.Semantic.Apart addr)
    (hp : TypesNamed A) (he : Earlier A) (h : checks addr fuel A = .ok o) {s : Nat} {T : Spec.Life.Tree} (hc : Compiler A s T)
    (hf : Free A) (hb : ByName A) :
    ∃ C, compile (declsOf A) s = some C ∧ ∃ N, ∀ fuel ≥ N, ∀ (S : PD.Sem Lab W) (rounds : Nat) (d : PD.Drv W),
      ∀ e ∈ (CCNrun S rounds C fuel d).ev,
        (Spec.PD.eid e = 1 ∧ (∀ i l c, e ≠ .leaf i l c) ∧
          ∀ i l b, e = .gate i l b → ∃ p g, A.phases[s]? = some p ∧ p.gate = some g ∧ l = .gate g.orig) ∨
        ∃ n y, Spec.PD.eid e = n + 2 ∧ (Spec.Life.occ T)[n]? = some y ∧ (∀ i l c, e = .leaf i l c → Does A y l) ∧
          ∀ i l b, e = .gate i l b → Gates A y l := by
  obtain ⟨p, h1, h2, h3⟩ := id hc
  obtain ⟨a, h4, h5⟩ := program_of h3
  obtain ⟨C, hC, N, hN⟩ := C66_program_partial (W := W) ha hp he h h1 hf hb h4
  refine ⟨C, hC, N, fun fuel hfu S rounds d e hm => ?_⟩
  rw [hN fuel hfu] at hm
  obtain ⟨g1, z, g2, g3⟩ := C17_ids S rounds _ _ _ _ d e hm
  rw [Spec.PD.preRoot] at g2
  cases hn : Spec.PD.eid e - 0 - 1 with
  | zero =>
    left
    rw [hn] at g2
    cases g2
    refine ⟨by omega, ?_, ?_⟩
    · rintro i l c rfl
      exact g3
    · rintro i l b rfl
      simp only [Spec.PD.Belongs] at g3
      obtain ⟨g, hg, rfl⟩ := Option.map_eq_some_iff.1 g3
      exact ⟨p, g, h1, hg, rfl⟩
  | succ n =>
    right
    rw [hn, List.getElem?_cons_succ] at g2
    obtain ⟨y, hy, ht⟩ := (tied_occ h5).2 n z g2
    refine ⟨n, y, by omega, hy, ?_, ?_⟩
    · rintro i l c rfl
      cases z with
      | leaf nm l' =>
        simp only [Spec.PD.Belongs] at g3
        subst g3
        exact ht
      | phase => exact g3.elim
    · rintro i l b rfl
      cases z with
      | leaf nm l' => exact g3.elim
      | phase nm g' c' => exact ht.2 l g3

/-- The check is the one that is generated for the description: it stops the compiler if it reports something about the tree. -/
def Checking (cs : List Life.Chk) (tree : W → Life.Node) (S : PD.Sem Lab W) : Prop :=
  ∀ w n, S.check w n = false → Life.chk n cs (tree w) = .ok []

/-- Nothing is wrong with the tree at action number `n`. -/
def Sane (A : Parse.Ast) (S : Induce.Spec) (T : Spec.Life.Tree) (n : Nat) (N : Life.Node) : Prop :=
  ∀ k kids attrs r, Spec.Life.Within (Life.Node.mk k kids attrs) N → ¬ Spec.Unpack.Wrong A S T n k kids.list attrs r

/-- C66, no action is started on a tree that violates the lifetimes of the description: two compilers for the same description, with the
generated check turned on and never turned off, whose passes and traversals do the same whenever nothing is wrong with the tree at their
number, do the same.  So it does not matter what a pass would do with a tree that it must not see.  Missing: as for
`C65_check_partial` and `C66_program_partial`. -/
theorem C66_guarded_partial {addr : Loc → Nat} {fuel fuel' : Nat} {A : Parse.Ast} {o : Semantic.Out} {u : Unpack.Out}
    (ha : Spec.Semantic.Apart addr) (hp : TypesNamed A) (he : Earlier A) (h : checks addr fuel A = .ok o) (h0 : o.errors = 0)
    (hu : Unpack.unpack fuel' A o = .ok u) {s : Nat} {T : Spec.Life.Tree} (hc : Compiler A s T) (hP : Spec.Unpack.Plain A s T)
    (hF : Spec.Unpack.Flat T) (hS : Spec.Unpack.Single A) (hG : Spec.Unpack.Agree A) {cs : List Life.Chk} (hg : Life.genAll u.decls = .ok cs)
    (hf : Free A) (hb : ByName A) :
    ∃ C, compile (declsOf A) s = some C ∧ ∃ N, ∀ fuel ≥ N, ∀ (tree : W → Life.Node) (S S' : PD.Sem Lab W), Checking cs tree S →
      S.check = S'.check → S.gate = S'.gate → (∀ l w n, Sane A o.spec T n (tree w) → S.leaf l w n = S'.leaf l w n) →
      (∀ l w n, .setTreeCheck false ∉ (S.leaf l w n).calls) → ∀ (rounds : Nat) (d : PD.Drv W), d.treeCheck = true →
      CCNrun S rounds C fuel d = CCNrun S' rounds C fuel d := by
  obtain ⟨p, h1, h2, h3⟩ := id hc
  obtain ⟨a, h4, h5⟩ := program_of h3
  obtain ⟨C, hC, N, hN⟩ := C66_program_partial (W := W) ha hp he h h1 hf hb h4
  refine ⟨C, hC, N, fun fuel hfu tree S S' hk e1 e2 e3 e4 rounds d hd => ?_⟩
  rw [hN fuel hfu, hN fuel hfu]
  refine run_same ⟨e1, e2, fun l w n hw => e3 l w n ?_, fun l w n _ => e4 l w n⟩ _ _ _ _ _ hd
  intro k kids attrs r hw' hwr
  have := (C65_check_partial ha hp he h h0 hu hc hP hF hS hG hg (hk w n hw) r).2 ⟨_, k, kids, attrs, hw', rfl, hwr⟩
  cases this

/-! ## Samples -/

/-- `start phase All { scan; optimise; gen; }  cycle Optimise { gate = wanted, actions = { Rename; } }  pass scan = doScan;`
`pass gen { uid = cg }  traversal Rename { uid = RN }  root node X { children { X y }, attributes { string s { disallowed [-> gen) } } }` -/
def programFile : List Spec.Syntax.Entry :=
  [.phase (.mk true false (nm "All" 0) none none none
      (.cons (.ref (nm "scan" 0)) (.cons (.ref (nm "optimise" 0)) (.one (.ref (nm "gen" 0)))))),
    .phase (.mk false true (nm "Optimise" 0) none none (some (nm "wanted" 0)) (.one (.ref (nm "Rename" 0)))),
    .pass (.short (nm "scan" 0) (nm "doScan" 0)), .pass (.long (nm "gen" 0) none (some (nm "cg" 0)) none),
    .traversal ⟨nm "Rename" 0, none, nm "RN" 0, none, []⟩,
    .node ⟨true, nm "X" 0, [⟨nm "X" 0, nm "y" 0, none⟩],
      [⟨.prim .string, nm "s" 0, some [.lifetime ⟨.disallowed, some (⟨true, []⟩, ⟨false, [nm "gen" 0]⟩)⟩]⟩], [], [], false⟩]

/-- Bytes of a text, for samples. -/
def by8 (s : String) : CStr := s.toUTF8.toList

/-- Its program. -/
def programActs : PD.Acts Lab :=
  .leaf (by8 "scan") (.pass (by8 "doScan")) (.phase (by8 "Optimise") (some (.gate (by8 "wanted"))) true
    (.leaf (by8 "Rename") (.trav (by8 "rename_vtable")) .nil) (.leaf (by8 "gen") (.pass (by8 "CGgen")) .nil))

/-- Its compiler. -/
def programTree : Spec.Life.Tree :=
  .leaf (ident (nm "scan" 0)) none (.phase 0 (ident (nm "Optimise" 0)) none
    (.leaf (ident (nm "Rename" 0)) (some (ident (nm "RN" 0))) .nil) (.leaf (ident (nm "gen" 0)) (some (ident (nm "cg" 0))) .nil))

theorem program_compiler : Compiler (ast programFile) 1 programTree :=
  ⟨_, rfl, rfl, .pass (p := ⟨nm "scan" 0, none, none, some (nm "doScan" 0)⟩) (by decide +kernel) (Or.inl rfl)
    (.phase (p := ⟨nm "Optimise" 0, false, true, none, none, some (nm "wanted" 0), [nm "Rename" 0]⟩) rfl
      (Or.inl (by decide +kernel)) (.traversal (t := ⟨nm "Rename" 0, none, nm "RN" 0, none, [], 0⟩) (by decide +kernel) (Or.inl rfl) .nil)
      (.pass (p := ⟨nm "gen" 0, none, some (nm "cg" 0), none⟩) (by decide +kernel) (Or.inl rfl) .nil))⟩

theorem program_acts : Program (ast programFile) [nm "scan" 0, nm "optimise" 0, nm "gen" 0] programActs := by
  obtain ⟨a, ha, e⟩ : ∃ a, Program (ast programFile) [nm "scan" 0, nm "optimise" 0, nm "gen" 0] a ∧ a = programActs :=
    ⟨_, .pass (p := ⟨nm "scan" 0, none, none, some (nm "doScan" 0)⟩) (by decide +kernel) (Or.inl rfl)
      (.phase (p := ⟨nm "Optimise" 0, false, true, none, none, some (nm "wanted" 0), [nm "Rename" 0]⟩) (by decide +kernel)
        (Or.inl (by decide +kernel)) (.traversal (t := ⟨nm "Rename" 0, none, nm "RN" 0, none, [], 0⟩) (by decide +kernel) (Or.inl rfl) .nil)
        (.pass (p := ⟨nm "gen" 0, none, some (nm "cg" 0), none⟩) (by decide +kernel) (Or.inl rfl) .nil)), by decide +kernel⟩
  exact e ▸ ha

/-- As checks. -/
theorem free_of {A : Parse.Ast} (h : (∀ n ∈ A.nodes, ¬ Null n.name) ∧ (∀ s ∈ A.nodesets, ¬ Null s.name) ∧
    (∀ p ∈ A.phases, ¬ Null p.name ∧ ¬ Spec.Str.SameName p.name.orig cleanup) ∧
    (∀ t ∈ A.traversals, ¬ Null t.name ∧ ¬ Null t.uid ∧ ∀ x ∈ own, ¬ Spec.Str.SameName t.name.orig x) ∧
    ∀ p ∈ A.passes, ¬ Null p.name) : Free A := ⟨h.1, h.2.1, h.2.2.1, h.2.2.2.1, h.2.2.2.2⟩

theorem program_free : Free (ast programFile) := free_of (by unfold Null; decide +kernel)

theorem program_named : ByName (ast programFile) := by unfold ByName Named; decide +kernel

/-- User code for samples: the gate is open, `doScan` makes the tree one node, and the check is that of the description; the world
counts the calls. -/
def programSem (cs : List Life.Chk) : PD.Sem Lab Nat where
  leaf l w _ := { world := w + 1, exits := false, calls := match l with
    | .trav _ => if w < 2 then [.notify] else []
    | _ => [] }
  gate _ w := (w, true)
  check w n := match Life.chk n cs (.mk 0 (.none .nil) [decide (w = 3)]) with
    | .ok [] => false
    | _ => true

/-- The theorems about C66 apply to the sample; the traversal is run twice, and the string that is there afterwards does no harm at
`gen`. -/
example : TypesNamed (ast programFile) ∧ Earlier (ast programFile) ∧ Compiler (ast programFile) 1 programTree ∧
    Spec.Unpack.Plain (ast programFile) 1 programTree ∧ Spec.Unpack.Flat programTree ∧ Spec.Unpack.Single (ast programFile) ∧
    Spec.Unpack.Agree (ast programFile) ∧ Free (ast programFile) ∧ ByName (ast programFile) ∧
    ∃ o u cs C, checks sampleAddr 60 (ast programFile) = .ok o ∧ o.errors = 0 ∧ Unpack.unpack 60 (ast programFile) o = .ok u ∧
      Life.genAll u.decls = .ok cs ∧ compile (declsOf (ast programFile)) 1 = some C ∧
      Checking cs (fun w => .mk 0 (.none .nil) [decide (w = 3)]) (programSem cs) ∧
      (CCNrun (programSem cs) 9 C 9 (PD.initial 0)).out = .run ∧
      (CCNrun (programSem cs) 9 C 9 (PD.initial 0)).ev =
        [.check 1, .round 1, .check 2, .leaf 2 (.pass (by8 "doScan")) [], .done 2, .check 3, .gate 3 (.gate (by8 "wanted")) true, .round 3,
          .check 4, .leaf 4 (.trav (by8 "rename_vtable")) [.notify], .done 4, .round 3, .check 4,
          .leaf 4 (.trav (by8 "rename_vtable")) [], .done 4, .done 3, .check 5, .leaf 5 (.pass (by8 "CGgen")) [], .done 5, .done 1] := by
  refine ⟨named_of_plain (by decide +kernel), earlier_of_flat (by decide +kernel), program_compiler, ⟨by decide, fun j h1 h2 => ?_⟩, ?_,
    ⟨by decide +kernel, by decide +kernel, by decide +kernel, by decide +kernel⟩, agree_of (by decide +kernel), program_free,
    program_named, ?_⟩
  · have e : (ast programFile).phases.length = 2 := by decide +kernel
    omega
  · intro q n u body h
    simp only [programTree, Spec.Life.occ, List.mem_cons, List.mem_append, List.not_mem_nil, or_false, reduceCtorEq, false_or] at h
    obtain ⟨rfl, rfl, rfl, rfl⟩ := Spec.Life.Item.phase.inj h
    rfl
  · have run : (match checks sampleAddr 60 (ast programFile) with
      | .ok o => match Unpack.unpack 60 (ast programFile) o with
        | .ok u => match Life.genAll u.decls, compile (declsOf (ast programFile)) 1 with
          | .ok cs, some C => o.errors == 0 && decide ((CCNrun (programSem cs) 9 C 9 (PD.initial 0)).out = .run ∧
            (CCNrun (programSem cs) 9 C 9 (PD.initial 0)).ev =
              [.check 1, .round 1, .check 2, .leaf 2 (.pass (by8 "doScan")) [], .done 2, .check 3, .gate 3 (.gate (by8 "wanted")) true,
                .round 3, .check 4, .leaf 4 (.trav (by8 "rename_vtable")) [.notify], .done 4, .round 3, .check 4,
                .leaf 4 (.trav (by8 "rename_vtable")) [], .done 4, .done 3, .check 5, .leaf 5 (.pass (by8 "CGgen")) [], .done 5, .done 1])
          | _, _ => false
        | _ => false
      | _ => false) = true := by decide +kernel
    split at run
    · rename_i o ho
      split at run
      · rename_i u hu
        split at run
        · rename_i cs C hcs hC
          simp only [Bool.and_eq_true, beq_iff_eq, decide_eq_true_eq] at run
          refine ⟨o, u, cs, C, ho, run.1, hu, hcs, hC, fun w n hw => ?_, run.2.1, run.2.2⟩
          simp only [programSem] at hw
          split at hw
          · assumption
          · cases hw
        · cases run
      · cases run
    · cases run

/-! ## Where it is false -/

/-- C66 is false for actions that are referred to by their unique ids, as the phase `Optimise` in `lifeFile`: the description is accepted by
all phases of the generator, but the code does not compile. -/
theorem C66_uid_false : ∃ A s T, TypesNamed A ∧ Earlier A ∧ Compiler A s T ∧ Free A ∧
    (∃ o u, checks sampleAddr 60 A = .ok o ∧ o.errors = 0 ∧ Unpack.unpack 60 A o = .ok u) ∧ compile (declsOf A) s = none := by
  obtain ⟨o, u, cs, h1, h2, h3, _⟩ := lifeRun_ok (A := ast lifeFile) (i := 3) (N := lifeNode) (m := [[false], [true]]) (rs := [])
    (by decide +kernel)
  exact ⟨ast lifeFile, 1, lifeTree, named_of_plain (by decide +kernel), earlier_of_flat (by decide +kernel), life_compiler,
    free_of (by unfold Null; decide +kernel), ⟨o, u, h1, h2, h3⟩, by
      have : (compile (declsOf (ast lifeFile)) 1).isNone = true := by decide +kernel
      simpa using this⟩

/-- `start phase All { cleanup; }  phase cleanup { scan; }` -/
def cleanupFile : List Spec.Syntax.Entry :=
  [.phase (.mk true false (nm "All" 0) none none none (.one (.ref (nm "cleanup" 0)))),
    .phase (.mk false false (nm "cleanup" 0) none none none (.one (.ref (nm "scan" 0)))), .pass (.plain (nm "scan" 0)),
    .node ⟨true, nm "X" 0, [⟨nm "X" 0, nm "y" 0, none⟩], [], [], [], false⟩]

/-- C66 is false for a phase called `cleanup`: `cleanup_ids_table` is defined twice. -/
theorem C66_cleanup_false : ∃ A s T, TypesNamed A ∧ Earlier A ∧ Compiler A s T ∧ ByName A ∧
    (∃ o u, checks sampleAddr 60 A = .ok o ∧ o.errors = 0 ∧ Unpack.unpack 60 A o = .ok u) ∧ compile (declsOf A) s = none := by
  obtain ⟨o, u, cs, h1, h2, h3, _⟩ := lifeRun_ok (A := ast cleanupFile) (i := 1) (N := .mk 0 (.none .nil) []) (m := [[false]]) (rs := [])
    (by decide +kernel)
  refine ⟨ast cleanupFile, 1, .phase 0 (ident (nm "cleanup" 0)) none (.leaf (ident (nm "scan" 0)) none .nil) .nil,
    named_of_plain (by decide +kernel), earlier_of_flat (by decide +kernel), ⟨_, rfl, rfl, ?_⟩, by unfold ByName Named; decide +kernel,
    ⟨o, u, h1, h2, h3⟩, ?_⟩
  · exact .phase (p := ⟨nm "cleanup" 0, false, false, none, none, none, [nm "scan" 0]⟩) rfl (Or.inl rfl)
      (.pass (p := ⟨nm "scan" 0, none, none, none⟩) (by decide +kernel) (Or.inl rfl) .nil) .nil
  · have : (compile (declsOf (ast cleanupFile)) 1).isNone = true := by decide +kernel
    simpa using this

/-- `start phase All { null; gen; }  pass scan { uid = null }  pass gen;` -/
def nullFile : List Spec.Syntax.Entry :=
  [.phase (.mk true false (nm "All" 0) none none none (.cons (.ref (nm "null" 0)) (.one (.ref (nm "gen" 0))))),
    .pass (.long (nm "scan" 0) none (some (nm "null" 0)) none), .pass (.plain (nm "gen" 0)),
    .node ⟨true, nm "X" 0, [⟨nm "X" 0, nm "y" 0, none⟩], [], [], [], false⟩]

/-- C66 is false for a unique id `null`: the description is accepted and its code compiles, the program has two passes, and the compiler
runs none, whatever they are. -/
theorem C66_null_false : ∃ A s p a C, TypesNamed A ∧ Earlier A ∧ A.phases[s]? = some p ∧ p.start = true ∧ Free A ∧
    (∃ o u, checks sampleAddr 60 A = .ok o ∧ o.errors = 0 ∧ Unpack.unpack 60 A o = .ok u) ∧ compile (declsOf A) s = some C ∧
    Program A p.actions a ∧ (Spec.PD.pre a).length = 2 ∧
    ∀ (S : PD.Sem Lab Nat) (rounds fuel : Nat) (d : PD.Drv Nat), ∀ e ∈ (CCNrun S (rounds + 1) C (fuel + 1) d).ev, ∀ i l c, e ≠ .leaf i l c := by
  obtain ⟨o, u, cs, h1, h2, h3, _⟩ := lifeRun_ok (A := ast nullFile) (i := 1) (N := .mk 0 (.none .nil) []) (m := [[false]]) (rs := [])
    (by decide +kernel)
  have hC : compile (declsOf (ast nullFile)) 0 = some
      ⟨[⟨by8 "All", .phase none [6, 1, 6] false⟩, ⟨by8 "gen", .pass 1⟩, ⟨by8 "scan", .pass 2⟩, ⟨by8 "Free", .traversal 1⟩,
        ⟨by8 "Cleanup", .phase none [4, 6] false⟩], [.passError, .named (by8 "gen"), .named (by8 "NULLscan")],
        [by8 "ccn_error_vtable", by8 "ccn_free_vtable", by8 "ccn_check_vtable", by8 "ccn_copy_vtable"], 6, 0⟩ := by
    have : decide (((compile (declsOf (ast nullFile)) 0).map fun C => (C.actions, C.passes, C.travs, C.null, C.root)) = some
      ([⟨by8 "All", .phase none [6, 1, 6] false⟩, ⟨by8 "gen", .pass 1⟩, ⟨by8 "scan", .pass 2⟩, ⟨by8 "Free", .traversal 1⟩,
        ⟨by8 "Cleanup", .phase none [4, 6] false⟩], [.passError, .named (by8 "gen"), .named (by8 "NULLscan")],
        [by8 "ccn_error_vtable", by8 "ccn_free_vtable", by8 "ccn_check_vtable", by8 "ccn_copy_vtable"], 6, 0)) = true := by
      decide +kernel
    have := of_decide_eq_true this
    rw [Option.map_eq_some_iff] at this
    obtain ⟨⟨a, b, c, d, e⟩, h1, h2⟩ := this
    simp only [Prod.mk.injEq] at h2
    obtain ⟨rfl, rfl, rfl, rfl, rfl⟩ := h2
    exact h1
  refine ⟨ast nullFile, 0, _, _, _, named_of_plain (by decide +kernel), earlier_of_flat (by decide +kernel), rfl, rfl,
    free_of (by unfold Null; decide +kernel), ⟨o, u, h1, h2, h3⟩, hC,
    .pass (p := ⟨nm "scan" 0, none, some (nm "null" 0), none⟩) (by decide +kernel) (Or.inr ⟨_, rfl, rfl⟩)
      (.pass (p := ⟨nm "gen" 0, none, none, none⟩) (by decide +kernel) (Or.inl rfl) .nil), rfl, ?_⟩
  intro S rounds fuel d e he
  rw [ccnrun_eq S (rounds + 1) (b := .nil) (by rfl) .nil (by simp [depth])] at he
  obtain ⟨g1, z, g2, g3⟩ := C17_ids S (rounds + 1) _ _ _ _ _ e he
  rintro i l c rfl
  rw [Spec.PD.preRoot, Spec.PD.pre] at g2
  cases hn : Spec.PD.eid (PD.Event.leaf i l c) - 0 - 1 with
  | zero => rw [hn] at g2; cases g2; exact g3
  | succ n => rw [hn] at g2; simp at g2

end Verif.Props
