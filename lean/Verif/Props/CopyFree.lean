import Verif.Lemmas.CopyFree
import Verif.Props.Trav
import Verif.Model.CheckAttrs

/-!
# Copying and releasing trees (C37, C38)
-/

namespace Verif.Props
open Verif.Trav Verif.Spec.Trav Verif.Str

/-! ## Declarations, tables and a tree for the examples

Node types: 1 has two children (one of them set by the constructor) and attributes that are a string, a link, a number
and a number that is inherited; 2 has nothing; 3 has one child and a string. -/

def cDs : List NodeD :=
  [⟨[true, false], [⟨.string, false, false, true⟩, ⟨.link, false, false, false⟩, ⟨.plain, false, false, true⟩,
    ⟨.plain, true, false, false⟩]⟩,
   ⟨[], []⟩,
   ⟨[false], [⟨.string, false, false, false⟩]⟩]

/-- The lowest free address above the example tree. -/
def cNew (m : Mem) : Option Addr := (List.range 50).find? fun a => (m a).isNone

def cEnv : Env where
  vtable := [[], ccn_copy_vtable cNew cDs, ccn_free_vtable cDs]
  initTable := [.nop, .nop, .nop]
  freeTable := [.nop, .nop, .nop]
  passes := []
  newFrame s := tNew s.frames
  newData s := tNew s.dmem

theorem cNew_none {m : Mem} {a : Addr} (h : cNew m = some a) : m a = none := by
  have := List.find?_some h
  simpa using this

theorem cEnv_copy : CopyEnv cEnv cNew cDs 1 := ⟨rfl, rfl, rfl, fun _ _ h => tNew_none h, fun _ _ h => cNew_none h⟩

theorem cEnv_free : FreeEnv cEnv cDs 2 := ⟨rfl, rfl, rfl, fun _ _ h => tNew_none h⟩

/-- The tree: node 1 with the children node 3 (whose child is node 2) and none, a string, a link to node 2, a number. -/
def cTree : Tree := .mk 1 (1, 2, 3, 4) (some [102])
  (.some (.mk 3 (5, 5, 1, 9) none (.some (.mk 2 (6, 6, 1, 1) none .nil []) .nil) [.str none]) (.none .nil))
  [.str (some [115]), .link (some 14), .plain 8, .hidden]

def cMem : Mem := fun a =>
  if a = 10 then some (.node ⟨1, some 11, some 11, some 16, 2, 1, 2, 3, 4⟩)
  else if a = 11 then some (.data ⟨1, [some 12, none], [.plain (.ptr (some 15)), .plain (.ptr (some 14)), .plain (.word 8),
    .nested (.word 1) (.word 5)]⟩)
  else if a = 12 then some (.node ⟨3, some 13, some 13, none, 1, 5, 5, 1, 9⟩)
  else if a = 13 then some (.data ⟨3, [some 14], [.plain (.ptr none)]⟩)
  else if a = 14 then some (.node ⟨2, none, none, none, 0, 6, 6, 1, 1⟩)
  else if a = 15 then some (.str [115])
  else if a = 16 then some (.str [102])
  else if a = 17 then some (.str [120])
  else none

def cSt : St := { mem := cMem, frames := fun _ => none, dmem := fun _ => none, cur := none, trace := [] }

theorem cTree_at : TreeAt cDs cMem cTree 10 [10, 11, 16, 12, 13, 14, 15] := by
  have h2 : TreeAt cDs cMem (.mk 2 (6, 6, 1, 1) none .nil []) 14 [14] := by
    simp only [TreeAt]
    exact ⟨_, _, [], [], [], [], [], [], rfl, rfl, rfl, rfl, rfl, rfl, Or.inl ⟨rfl, rfl, rfl, rfl, rfl, rfl⟩,
      by simp [KidsAt], rfl, rfl⟩
  have h3 : TreeAt cDs cMem (.mk 3 (5, 5, 1, 9) none (.some (.mk 2 (6, 6, 1, 1) none .nil []) .nil) [.str none]) 12
      [12, 13, 14] := by
    unfold TreeAt
    refine ⟨_, _, [some 14], [.plain (.ptr none)], [13], [], [14], [], rfl, rfl, rfl, rfl, rfl, rfl,
      Or.inr ⟨by simp, 13, rfl, rfl, rfl, fun _ => rfl, rfl⟩, ?_, ?_, rfl⟩
    · unfold KidsAt
      exact ⟨14, [], [14], [], rfl, h2, by simp [KidsAt], rfl⟩
    · exact ⟨[], [], ⟨none, none, rfl, rfl, rfl⟩, rfl, rfl⟩
  unfold cTree TreeAt
  refine ⟨_, _, [some 12, none], [.plain (.ptr (some 15)), .plain (.ptr (some 14)), .plain (.word 8),
    .nested (.word 1) (.word 5)], [11], [16], [12, 13, 14], [15], rfl, rfl, rfl, rfl, rfl, ⟨rfl, rfl⟩,
      Or.inr ⟨by simp, 11, rfl, rfl, rfl, fun _ => rfl, rfl⟩, ?_, ?_, rfl⟩
  · unfold KidsAt
    refine ⟨12, [none], [12, 13, 14], [], rfl, h3, ?_, rfl⟩
    simp [KidsAt]
  · refine ⟨[15], [], ⟨some 15, some [115], rfl, rfl, rfl, rfl⟩, ?_, rfl⟩
    refine ⟨[], [], ⟨some 14, rfl, rfl, rfl⟩, ?_, rfl⟩
    refine ⟨[], [], ⟨8, rfl, rfl, rfl⟩, ?_, rfl⟩
    exact ⟨[], [], ⟨⟨_, _, rfl⟩, rfl, rfl⟩, rfl, rfl⟩

/-! ## C37 -/

/-- **C37.** `CCNcopy` of a tree returns a tree that is equal (shape, types, locations, file names, plain attributes,
strings, targets of links) in memory that was free before (`fp'`: its nodes, structs and strings); nothing that was in
memory has changed, nothing else has been allocated, and the stack of traversals is as before.  What is missing: the
values of inherited and synthesized attributes are not copied (`AVal.hidden`). -/
theorem C37_copy_partial {E : Env} {new : Mem → Option Addr} {Ds : List NodeD} {cpy n : Nat} (hE : CopyEnv E new Ds cpy)
    {t : Tree} {a : Addr} {fp : List Addr} {s : St} (ht : TreeAt Ds s.mem t a fp) (hn : need t < n) :
    OrOom (CCNcopy E cpy n (some a) s) fun r => ∃ q fp', r.1 = some q ∧ TreeAt Ds r.2.mem t q fp' ∧
      New s.mem r.2.mem fp' ∧ r.2.cur = s.cur ∧ r.2.frames = s.frames ∧ r.2.dmem = s.dmem := by
  obtain ⟨k, rfl⟩ : ∃ k, n = k + 1 := ⟨n - 1, by omega⟩
  have h := start_nop (E := E) (tr := cpy) (R := runProg (call E k)) hE.init hE.fini hE.frame (a := a) (s := s)
    (P := fun p m => ∃ q fp', p = some q ∧ TreeAt Ds m t q fp' ∧ New s.mem m fp') fun s1 hm hat => by
      refine (copy_node hE t (k := k) (by omega) hat (by rw [hm]; exact ht)).mono fun r hr => ?_
      obtain ⟨q, fp', h1, h2, h3, h4⟩ := hr
      exact ⟨h4, q, fp', h1, h2, by rw [← hm]; exact h3⟩
  refine OrOom.mono h fun r hr => ?_
  obtain ⟨⟨h1, h2, h3⟩, q, fp', h4, h5, h6⟩ := hr
  exact ⟨q, fp', h4, h5, h6, h1, h2, h3⟩

/-- The original is still there after copying, and shares nothing with the copy. -/
theorem C37_independent_partial {Ds : List NodeD} {t : Tree} {a : Addr} {fp fp' : List Addr} {m m' : Mem}
    (ht : TreeAt Ds m t a fp) (hN : New m m' fp') : TreeAt Ds m' t a fp ∧ ∀ b, b ∈ fp → b ∉ fp' :=
  ⟨ht.grow hN, fun b hb hb' => ht.live t b hb (hN.fresh b hb')⟩

example : CopyEnv cEnv cNew cDs 1 ∧ TreeAt cDs cSt.mem cTree 10 [10, 11, 16, 12, 13, 14, 15] ∧ need cTree < 20 :=
  ⟨cEnv_copy, cTree_at, by decide⟩

set_option maxRecDepth 4000 in
example : ∃ r s', CCNcopy cEnv 1 20 (some 10) cSt = .ok (r, s') ∧
    (r, [1, 3, 4, 5, 6].map s'.mem) =
    (some 0, [some (.data ⟨1, [some 3, none], [.plain (.ptr (some 6)), .plain (.ptr (some 14)), .plain (.word 8),
        .nested (.word 0) .undef]⟩),
      some (.node ⟨3, some 4, some 4, none, 1, 5, 5, 1, 9⟩), some (.data ⟨3, [some 5], [.plain (.ptr none)]⟩),
      some (.node ⟨2, none, none, none, 0, 6, 6, 1, 1⟩), some (.str [115])]) :=
  of_seen (f := fun y => (y.1, [1, 3, 4, 5, 6].map y.2.mem)) (by decide)

/-- **C37**, without a tree: the copy of NULL is NULL. -/
theorem C37_null {E : Env} {new : Mem → Option Addr} {Ds : List NodeD} {cpy n : Nat} (hE : CopyEnv E new Ds cpy) (s : St) :
    OrOom (CCNcopy E cpy (n + 1) none s) fun r => r.1 = none ∧ r.2.mem = s.mem ∧ r.2.cur = s.cur ∧
      r.2.frames = s.frames ∧ r.2.dmem = s.dmem := by
  refine (start_null hE.init hE.fini hE.frame s).mono fun r hr => ?_
  exact ⟨hr.2.1, hr.2.2, hr.1.1, hr.1.2.1, hr.1.2.2⟩

example : ∃ r s', CCNcopy cEnv 1 20 none cSt = .ok (r, s') ∧ r = none := of_seen (f := fun y => y.1) (by decide)

set_option maxRecDepth 4000 in
/-- **C37 is false** for inherited and synthesized attributes: the fourth attribute of node 10 is set and has the value
5, the one of the copy is not set (the code says that they are not copied). -/
theorem C37_inherited_false : ∃ E new Ds, CopyEnv E new Ds 1 ∧ ∃ s r s', CCNcopy E 1 20 (some 10) s = .ok (r, s') ∧
    ∃ d d' : DataB, s.mem 11 = some (.data d) ∧ s'.mem 1 = some (.data d') ∧ r = some 0 ∧
      d.attrs[3]? = some (.nested (.word 1) (.word 5)) ∧ d'.attrs[3]? = some (.nested (.word 0) .undef) := by
  refine ⟨cEnv, cNew, cDs, cEnv_copy, cSt, _, _, rfl, _, _, rfl, rfl, ?_, ?_, ?_⟩ <;> decide

/-! ## C38 -/

/-- **C38.** `CCNfree` of a tree returns NULL, and releases exactly the blocks of the tree: its nodes, their structs and
strings (releasing a block that is not allocated is undefined behaviour in the model, so each is released once).  All
other blocks are as before, in particular targets of links outside of the tree.  What is missing: declarations with
inherited or synthesized strings, for which the generated code cannot be compiled (`freeBuilds`). -/
theorem C38_free_partial {E : Env} {Ds : List NodeD} {free n : Nat} (hE : FreeEnv E Ds free) (hB : freeBuilds Ds = true)
    (hI : ∀ D, D ∈ Ds → D.kids.length ≤ 2147483647)
    {t : Tree} {a : Addr} {fp : List Addr} {s : St} (ht : TreeAt Ds s.mem t a fp) (hfp : fp.Nodup) (hn : need t < n) :
    OrOom (CCNfree E free n (some a) s) fun r => r.1 = none ∧ r.2.mem = del fp s.mem ∧ r.2.cur = s.cur ∧
      r.2.frames = s.frames ∧ r.2.dmem = s.dmem := by
  obtain ⟨k, rfl⟩ : ∃ k, n = k + 1 := ⟨n - 1, by omega⟩
  have h := start_nop (E := E) (tr := free) (R := runProg (call E k)) hE.init hE.fini hE.frame (a := a) (s := s)
    (P := fun p m => p = none ∧ m = del fp s.mem) fun s1 hm hat => by
      obtain ⟨s', h1, h2, h3⟩ := free_node hE hB hI t (k := k) (by omega) hat (by rw [hm]; exact ht) hfp
      exact Or.inr ⟨_, h1, h3, rfl, by rw [h2, hm]⟩
  refine OrOom.mono h fun r hr => ?_
  exact ⟨hr.2.1, hr.2.2, hr.1.1, hr.1.2.1, hr.1.2.2⟩

example : FreeEnv cEnv cDs 2 ∧ freeBuilds cDs = true ∧ (∀ D, D ∈ cDs → D.kids.length ≤ 2147483647) ∧
    TreeAt cDs cSt.mem cTree 10 [10, 11, 16, 12, 13, 14, 15] ∧ [10, 11, 16, 12, 13, 14, 15].Nodup ∧ need cTree < 20 := by
  refine ⟨cEnv_free, rfl, ?_, cTree_at, by decide, by decide⟩
  intro D hD
  simp [cDs] at hD
  rcases hD with rfl | rfl | rfl <;> simp

set_option maxRecDepth 4000 in
example : ∃ r s', CCNfree cEnv 2 20 (some 10) cSt = .ok (r, s') ∧ (r, (List.range 50).filter fun a => (s'.mem a).isSome) =
    (none, [17]) := of_seen (f := fun y => (y.1, (List.range 50).filter fun a => (y.2.mem a).isSome)) (by decide)

/-- In the model, releasing a block that is not allocated is undefined behaviour; so `C38_free_partial` does say that
nothing is released twice. -/
theorem C38_twice {m : Mem} {a : Addr} (h : m a = none) : (Verif.Trav.MEMfree (some a) m).isUB = true := by
  simp [Verif.Trav.MEMfree, h, Res.isUB]

example : cMem 0 = none := rfl

/-- **C38**, without a tree. -/
theorem C38_null {E : Env} {Ds : List NodeD} {free n : Nat} (hE : FreeEnv E Ds free) (s : St) :
    OrOom (CCNfree E free (n + 1) none s) fun r => r.1 = none ∧ r.2.mem = s.mem ∧ r.2.cur = s.cur ∧
      r.2.frames = s.frames ∧ r.2.dmem = s.dmem := by
  refine (start_null hE.init hE.fini hE.frame s).mono fun r hr => ?_
  exact ⟨hr.2.1, hr.2.2, hr.1.1, hr.1.2.1, hr.1.2.2⟩

example : ∃ r s', CCNfree cEnv 2 20 none cSt = .ok (r, s') ∧ r = none := of_seen (f := fun y => y.1) (by decide)

/-- **C38 is false** for a node with a synthesized string (`AT_string` is number 4 of the enumeration): the checks accept it, but `DELx` uses the member `y` of a
struct that has only the member `_y`, so the generated compiler cannot be built. -/
theorem C38_builds_false : ∃ a : Propagate.Attr, a.type = .basic 4 ∧ a.syn = true ∧
    CheckAttrs.CHAstart ⟨[(false, [a])], []⟩ = 0 ∧ freeBuilds [⟨[], [⟨.string, a.inh, a.syn, a.ctor⟩]⟩] = false :=
  ⟨⟨0, .basic 4, 0, false, false, true, false, [], 0⟩, rfl, rfl, rfl, rfl⟩

/-- Copying and releasing the copy leaves memory as it was. -/
theorem C38_copy_free_partial {E : Env} {new : Mem → Option Addr} {Ds : List NodeD} {cpy free n : Nat}
    (hC : CopyEnv E new Ds cpy) (hF : FreeEnv E Ds free) (hB : freeBuilds Ds = true)
    (hI : ∀ D, D ∈ Ds → D.kids.length ≤ 2147483647)
    {t : Tree} {a : Addr} {fp : List Addr} {s : St} (ht : TreeAt Ds s.mem t a fp) (hn : need t < n) :
    OrOom (do
      let r ← CCNcopy E cpy n (some a) s
      CCNfree E free n r.1 r.2) fun r => r.1 = none ∧ r.2.mem = s.mem := by
  refine (C37_copy_partial hC ht hn).bind fun r hr => ?_
  obtain ⟨q, fp', h1, h2, h3, _⟩ := hr
  rw [h1]
  refine (C38_free_partial hF hB hI h2 h3.nodup hn).mono fun r' hr' => ⟨hr'.1, ?_⟩
  rw [hr'.2.1]
  funext b
  by_cases hb : b ∈ fp'
  · rw [del_in hb, h3.fresh b hb]
  · rw [del_out hb]
    cases hm : s.mem b with
    | some x => rw [h3.same b (by simp [hm]), hm]
    | none =>
      cases hx : r.2.mem b with
      | none => rfl
      | some x => rcases h3.only b (by simp [hx]) with h | h
                  · exact absurd hm h
                  · exact absurd h hb

set_option maxRecDepth 8000 in
example : ∃ r s', (do
      let r ← CCNcopy cEnv 1 20 (some 10) cSt
      CCNfree cEnv 2 20 r.1 r.2) = .ok (r, s') ∧ (List.range 50).all (fun a => decide (s'.mem a = cMem a)) = true :=
  of_seen (f := fun y => (List.range 50).all (fun a => decide (y.2.mem a = cMem a))) (by decide)

end Verif.Props
