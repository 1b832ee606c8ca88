import Verif.Lemmas.Trav

/-!
# The traversal core (C15, C16)
-/

namespace Verif.Props
open Verif.Trav Verif.Spec.Trav

/-! ## A small compiler for the examples

Node types: 1 with three children, 2 without.  Traversals: 1 has data (a counter), 2 has none.  Handlers of traversal 1
count, start traversal 2 on themselves and use `TRAVpush` and `TRAVpop`; traversal 2 removes nodes of type 2 at address
40. -/

def tNew (m : Addr → Option α) : Option Addr := (List.range 100).find? fun a => (m a).isNone

def tEnv : Env where
  vtable := [[TRAVerror, TRAVerror, TRAVerror],
    [TRAVerror, TRAVchildrenH, fun a => .data (fun vs => .ok (.undef, Val.word 7 :: vs)) fun _ =>
      .call (.push 2) fun _ => .call (.travDo (some a)) fun _ => .call .pop fun _ =>
      .call (.travStart (some a) 2) fun r => .ret r],
    [TRAVerror, TRAVchildrenH, fun a => .ret (if a = 40 then none else some a)]]
  initTable := [.nop, .data [.word 0] (.data (fun vs => .ok (.undef, vs)) fun _ => .ret none), .nop]
  freeTable := [.nop, .data (.ret none), .nop]
  passes := [PASSerror]
  newFrame s := tNew s.frames
  newData s := tNew s.dmem

def tLeaf (d : Addr) : Blk := .node ⟨2, some d, none, none, 0, 1, 1, 1, 1⟩

def tMem : Mem := fun a =>
  if a = 10 then some (.node ⟨1, some 11, some 11, none, 3, 1, 1, 1, 1⟩)
  else if a = 11 then some (.data ⟨1, [some 20, none, some 40], []⟩)
  else if a = 20 then some (tLeaf 21)
  else if a = 40 then some (tLeaf 41)
  else none

def tSt : St := { mem := tMem, frames := fun _ => none, dmem := fun _ => none, cur := none, trace := [] }

theorem tNew_none {m : Addr → Option α} {a : Addr} (h : tNew m = some a) : m a = none := by
  have := List.find?_some h
  simpa using this

theorem tEnv_proper : Proper tEnv where
  match_ := by
    intro ty vs f h
    match ty, h with
    | 0, h => simp [tEnv] at h
    | 1, _ => simp [tEnv]
    | 2, h => simp [tEnv] at h
    | ty + 3, h => simp [tEnv] at h
  frame := fun s a h => tNew_none h
  data := fun s a h => tNew_none h
  handlers := by
    intro row hrow h hh a
    simp only [tEnv, List.mem_cons, List.not_mem_nil, or_false] at hrow
    rcases hrow with rfl | rfl | rfl <;> simp only [List.mem_cons, List.not_mem_nil, or_false] at hh
    · rcases hh with rfl | rfl | rfl <;> simp [TRAVerror, Paired]
    · rcases hh with rfl | rfl | rfl <;> simp [TRAVerror, TRAVchildrenH, Paired]
    · rcases hh with rfl | rfl | rfl <;> simp [TRAVerror, TRAVchildrenH, Paired]
  passes := by
    intro f hf p
    simp only [tEnv, List.mem_cons, List.not_mem_nil, or_false] at hf
    subst hf
    simp [PASSerror, Paired]
  inits := by
    intro vs f hf
    simp [tEnv] at hf
    simp [hf.2, Paired]
  finis := by
    intro f hf
    simp [tEnv] at hf
    simp [hf, Paired]

/-- Look at the end of a run. -/
def seen {α : Type} (f : Ptr × St → α) : Res (Ptr × St) → Option α
  | .ok y => some (f y)
  | _ => none

theorem of_seen {α : Type} {f : Ptr × St → α} {x : Res (Ptr × St)} {v : α} (h : seen f x = some v) :
    ∃ r s', x = .ok (r, s') ∧ f (r, s') = v := by
  cases x with
  | ok y => exact ⟨y.1, y.2, rfl, by simpa [seen] using h⟩
  | _ => simp [seen] at h

/-! ## C15 -/

/-- **C15.** When `TRAVstart` returns, the current traversal is the one that was current before, and all traversals in
use before are in use afterwards, with the same kind, predecessor and data; no others are in use.  The traversal that
was started (`a`, of kind `ty`) is initialised first and released last, exactly once; in between (`t`), handlers run
for it only while no inner traversal is open, inner traversals are opened and closed in order, and none of them uses
the place of an open one.  This holds at any depth, for all handlers, passes and functions `init`/`fini` that pair
their pushes and pops. -/
theorem C15_start_partial {E : Env} (hE : Proper E) {n : Nat} {p r : Ptr} {ty : Nat} {s s' : St}
    (h : call E n (.travStart p ty) s = .ok (r, s')) :
    s'.cur = s.cur ∧ s'.frames = s.frames ∧ s'.dmem = s.dmem ∧
      ∃ a t, s.frames a = none ∧ s'.trace = s.trace ++ (.init a ty :: t ++ [.fini a ty]) ∧
        Steps (fun b => InUse s b ∨ b = a) (some a) [] t [] := by
  cases n with
  | zero => simp [call] at h
  | succ n => exact travStart_good hE (runOk_of_callOk (callOk hE n)) h

set_option maxRecDepth 4000 in
example : Proper tEnv ∧ ∃ r s', call tEnv 9 (.travStart (some 10) 1) tSt = .ok (r, s') ∧ (r, s'.trace) =
    (some 10, [.init 0 1, .visit 0 10, .visit 0 20, .init 1 2, .visit 1 20, .fini 1 2, .init 1 2, .visit 1 20, .fini 1 2,
      .visit 0 40, .init 1 2, .visit 1 40, .fini 1 2, .init 1 2, .visit 1 40, .fini 1 2, .fini 0 1]) :=
  ⟨tEnv_proper, of_seen (f := fun y => (y.1, y.2.trace)) (by decide)⟩

/-- **C15**, for the other functions that handlers call: they leave the stack of traversals as it is, and of the data
of traversals they change at most that of the current one. -/
theorem C15_calls_partial {E : Env} (hE : Proper E) {n : Nat} {p r : Ptr} {s s' : St} {o : Op}
    (ho : o = .travDo p ∨ o = .travOpt p ∨ o = .travChildren p) (h : call E n o s = .ok (r, s')) :
    s'.cur = s.cur ∧ s'.frames = s.frames ∧
      (∀ a fr d e, s.cur = some a → s.frames a = some fr → fr.data = some d → e ≠ d → s'.dmem e = s.dmem e) ∧
      (∀ e, (s'.dmem e).isSome = (s.dmem e).isSome) := by
  have hg : Good E s s' [] := by
    have := callOk hE n o s r s' h
    rcases ho with rfl | rfl | rfl <;> exact this
  obtain ⟨⟨hc, hf, hd, hl⟩, _⟩ := hg
  refine ⟨hc, hf, fun a fr d e h1 h2 h3 h4 => hd e ?_, hl⟩
  simp [curData, h1, h2, h3, h4]

/-- The state inside traversal 1. -/
def tIn : St := { tSt with frames := fun a => if a = 5 then some ⟨none, 1, some 6⟩ else none, cur := some 5,
                           dmem := fun a => if a = 6 then some [] else none }

set_option maxRecDepth 4000 in
example : ∃ r s', call tEnv 9 (.travChildren (some 10)) tIn = .ok (r, s') ∧ s'.dmem 6 = some [.word 7, .word 7] :=
  of_seen (f := fun y => y.2.dmem 6) (by decide)

/-- **C15**, ending: `TRAVstart` returns what the handlers return, and nothing in the core goes wrong, if the user's
`fini` function returns; the tables must agree on the traversals that have data. -/
theorem C15_ends_partial {E : Env} (hE : Proper E) {n : Nat} {p r : Ptr} {ty : Nat} {s s₁ s₂ : St} {i : DataFree}
    (hi : E.freeTable[ty]? = some i)
    (hm : ∀ f, i = .data f → ∃ vs g, E.initTable[ty]? = some (.data vs g))
    (h₁ : TRAVpush E (runProg (call E n)) ty s = .ok s₁) (h₂ : TRAVopt E (runProg (call E n)) p s₁ = .ok (r, s₂))
    (hf : ∀ f, i = .data f → (runProg (call E n) f s₂).isOk = true) :
    ∃ s', call E (n + 1) (.travStart p ty) s = .ok (r, s') := by
  have hR := runOk_of_callOk (callOk hE n)
  obtain ⟨a, fr, g1, g2, rfl, g4⟩ := push_data hE hR h₁
  obtain ⟨⟨kc, kf, kd, kl⟩, _⟩ := travOpt_good hE hR h₂
  have hp : ∃ s', TRAVpop E (runProg (call E n)) s₂ = .ok s' := by
    refine pop_ok hE hR (kc.trans g1) (by rw [kf]; exact g2) hi fun f e => ⟨?_, hf f e⟩
    obtain ⟨vs, g, e'⟩ := hm f e
    obtain ⟨d, e1, e2⟩ := g4 vs g e'
    exact ⟨d, e1, by rw [kl]; exact e2⟩
  obtain ⟨s', hp⟩ := hp
  exact ⟨s', by simp [call, TRAVstart, h₁, h₂, hp]⟩

/-- The state after the first traversal of the example is pushed. -/
def tPushed : St := { tSt with cur := some 0,
                               frames := upd (upd tSt.frames 0 (some ⟨none, 1, none⟩)) 0 (some ⟨none, 1, some 0⟩),
                               dmem := upd (upd tSt.dmem 0 (some [.word 0])) 0 (some [.word 0]), trace := [.init 0 1] }

set_option maxRecDepth 4000 in
example : tEnv.freeTable[1]? = some (.data (.ret none)) ∧ TRAVpush tEnv (runProg (call tEnv 8)) 1 tSt = .ok tPushed ∧
    (∃ r s₂, TRAVopt tEnv (runProg (call tEnv 8)) (some 10) tPushed = .ok (r, s₂) ∧ r = some 10) ∧
    ∀ s₂, (runProg (call tEnv 8) (.ret none) s₂).isOk = true :=
  ⟨rfl, rfl, of_seen (f := fun y => y.1) (by decide), fun _ => rfl⟩

/-- The tables of the example, with a handler that pushes a traversal and does not pop it. -/
def uEnv : Env := { tEnv with vtable := [[], [TRAVerror, TRAVerror, fun a => .call (.push 2) fun _ => .ret (some a)]],
                              passes := [] }

set_option maxRecDepth 4000 in
/-- **C15 is false** for handlers that call `TRAVpush` (which `dynamic_core.h` offers) without `TRAVpop`: the
traversal started outside stays current, and its data is not released. -/
theorem C15_unpaired_false : ∃ E, Sane E ∧ ∃ s r s', call E 9 (.travStart (some 20) 1) s = .ok (r, s') ∧
    s.cur = none ∧ s'.cur = some 0 ∧ s'.frames ≠ s.frames ∧ s'.dmem ≠ s.dmem := by
  refine ⟨uEnv, ⟨?_, fun s a h => tNew_none h, fun s a h => tNew_none h⟩, tSt, _, _, rfl, rfl, by decide, ?_, ?_⟩
  · exact tEnv_proper.match_
  · intro h
    have := congrFun h 0
    revert this
    decide
  · intro h
    have := congrFun h 0
    revert this
    decide

/-! ## C16 -/

/-- **C16.** `TRAVchildren(n)` returns `n`, and goes through the children in order: a missing child stays missing, on
every other child the handler for the current traversal and the type of the child is run once, and its result is
stored in the place of the child; nothing else happens.  Handlers may do anything, also to `n`. -/
theorem C16_rounds {E : Env} {k : Nat} {n : Addr} {r : Ptr} {s s' : St}
    (h : call E (k + 1) (.travChildren (some n)) s = .ok (r, s')) :
    r = some n ∧ Rounds E (runProg (call E k)) n 0 s s' := by
  simp only [call, TRAVchildren, Res.bind_eq_ok] at h
  obtain ⟨s1, h1, h2⟩ := h
  simp at h2
  obtain ⟨rfl, rfl⟩ := h2
  exact ⟨rfl, rounds_of_childLoop n _ _ _ _ h1⟩

/-- **C16**, for handlers that leave `n` alone (in states with a property `Inv` that handlers keep): afterwards the children of `n` are the results (`rs`), in the places
of the children, missing children are missing, and nothing else in `n` has changed. -/
theorem C16_sweep {E : Env} {k : Nat} {n d : Addr} {b : NodeB} {db : DataB} {r : Ptr} {s s' : St}
    (h : call E (k + 1) (.travChildren (some n)) s = .ok (r, s'))
    (hn : s.mem n = some (.node b)) (hb : b.children = some d) (hd : s.mem d = some (.data db))
    (hc : b.numChildren = db.kids.length)
    (Inv : St → Prop) (hI : Inv s)
    (H : ∀ c, some c ∈ db.kids → ∀ s r s₁, Inv s → Handles E (runProg (call E k)) c s r s₁ →
      s₁.mem n = s.mem n ∧ s₁.mem d = s.mem d ∧ ∀ i, Inv (store s₁ n i r)) :
    ∃ rs, Sweep E (runProg (call E k)) n 0 db.kids rs s s' ∧ s'.mem n = some (.node b) ∧
      s'.mem d = some (.data { db with kids := rs }) := by
  obtain ⟨_, h1⟩ := C16_rounds h
  exact sweep_of_rounds hb Inv db.kids [] db s s' h1 hn hd rfl hc hI H

/-- Traversal 2 of the example, inside. -/
def tIn2 : St := { tSt with frames := fun a => if a = 5 then some ⟨none, 2, none⟩ else none, cur := some 5 }

set_option maxRecDepth 4000 in
example : ∃ r s', call tEnv 9 (.travChildren (some 10)) tIn2 = .ok (r, s') ∧
    (s'.mem 11, s'.trace) = (some (.data ⟨1, [some 20, none, none], []⟩), [.visit 5 20, .visit 5 40]) :=
  of_seen (f := fun y => (y.2.mem 11, y.2.trace)) (by decide)

/-- The invariant of the example. -/
def tInv (s : St) : Prop := s.cur = some 5 ∧ s.frames 5 = some ⟨none, 2, none⟩ ∧ s.mem 10 = tMem 10 ∧
  s.mem 20 = tMem 20 ∧ s.mem 40 = tMem 40 ∧ ∃ db, s.mem 11 = some (.data db)

example : tInv tIn2 ∧ ∀ c, some c ∈ [some 20, none, some 40] → ∀ s r s₁, tInv s →
    Handles tEnv (runProg (call tEnv 8)) c s r s₁ →
    s₁.mem 10 = s.mem 10 ∧ s₁.mem 11 = s.mem 11 ∧ ∀ i, tInv (store s₁ 10 i r) := by
  refine ⟨⟨rfl, rfl, rfl, rfl, rfl, _, rfl⟩, ?_⟩
  intro c hc s r s₁ hI hh
  obtain ⟨h1, h2, h3, h4, h5, db, h6⟩ := hI
  obtain ⟨f, fr, row, b, h, g1, g2, g3, g4, g5, g6⟩ := hh
  rw [h1] at g1; cases g1
  rw [h2] at g2; cases g2
  simp [tEnv] at g3; subst g3
  have hb : b.ty = 2 := by
    simp at hc
    rcases hc with rfl | rfl
    · rw [h4] at g4; simp [tMem, tLeaf] at g4; subst g4; rfl
    · rw [h5] at g4; simp [tMem, tLeaf] at g4; subst g4; rfl
  rw [hb] at g5
  simp at g5; subst g5
  simp [runProg] at g6
  obtain ⟨_, rfl⟩ := g6
  refine ⟨rfl, rfl, fun i => ?_⟩
  have : store { s with trace := s.trace ++ [.visit 5 c] } 10 i r = { s with
      trace := s.trace ++ [.visit 5 c], mem := fun a => if a = 11 then some (.data { db with kids := db.kids.set i r }) else s.mem a } := by
    simp [store, h3, tMem, h6]
  rw [this]
  exact ⟨h1, h2, by simpa using h3, by simpa using h4, by simpa using h5, { db with kids := db.kids.set i r }, by simp⟩

end Verif.Props
