import Verif.Lemmas.Compiled
import Verif.Lemmas.Targets
import Verif.Spec.Declared

/-!
# Lemmas about the functions of a generated compiler
-/

namespace Verif.Declared
open Verif.Str Verif.Ids Verif.Tables Verif.Semantic Verif.Spec.Declared
open Verif.Spec.Str (lowerB upperB SameName)
open Verif.Spec.Targets (Target handler Aimed Numbered)
open Verif.Spec.Compiled (passFunction)
open Verif.Spec.Sets (Has elems)
open Verif.Spec.Semantic (Pairs Earlier)
open Verif.Targets (unwrap_sets tables_ok)

variable {A : Parse.Ast} {tab : List (Ste Decl)}

/-! ### Names -/

/-- A small letter. -/
def low (c : UInt8) : Bool := decide (97 ≤ c ∧ c ≤ 122)

/-- No small letter. -/
def Up (s : CStr) : Prop := ∀ c ∈ s, low c = false

/-- A small letter first. -/
def Low (s : CStr) : Prop := ∃ c cs, s = c :: cs ∧ low c = true

theorem low_upperB (c : UInt8) : low (upperB c) = false := by
  revert c; apply u8_forall; decide +kernel

theorem low_lowerB (c : UInt8) (h : Spec.Text.isLetter c = true) : low (lowerB c) = true := by
  revert c; apply u8_forall; decide +kernel

theorem lowerB_ne (c : UInt8) : lowerB c ≠ 73 ∧ lowerB c ≠ 70 := by
  revert c; apply u8_forall; decide +kernel

theorem up_upper (s : CStr) : Up (s.map upperB) := by
  intro c hc
  obtain ⟨b, _, rfl⟩ := List.mem_map.1 hc
  exact low_upperB b

theorem low_node (hl : Lettered A) {n : Parse.Node} (hn : n ∈ A.nodes) : Low (n.name.orig.map lowerB) := by
  obtain ⟨c, cs, h1, h2⟩ := hl n hn
  exact ⟨lowerB c, cs.map lowerB, by rw [h1]; rfl, low_lowerB c h2⟩

theorem split_eq : ∀ {u v a b : CStr}, Up u → Up v → Low a → Low b → u ++ a = v ++ b → u = v ∧ a = b
  | [], [], _, _, _, _, _, _, e => ⟨rfl, e⟩
  | [], c :: v, _, _, _, hv, ⟨d, ds, ha, hd⟩, _, e => by
    rw [ha] at e
    injection e with e _
    have := hv c (by simp)
    rw [← e, hd] at this
    cases this
  | c :: u, [], _, _, hu, _, _, ⟨d, ds, hb, hd⟩, e => by
    rw [hb] at e
    injection e with e _
    have := hu c (by simp)
    rw [e, hd] at this
    cases this
  | c :: u, d :: v, a, b, hu, hv, ha, hb, e => by
    injection e with e1 e2
    obtain ⟨h1, h2⟩ := split_eq (fun x hx => hu x (by simp [hx])) (fun x hx => hv x (by simp [hx])) ha hb e2
    exact ⟨by rw [e1, h1], h2⟩

theorem up_system {x : CStr} (hx : x ∈ systemUids) : Up x := by
  simp only [systemUids, List.mem_cons, List.not_mem_nil, or_false] at hx
  rcases hx with rfl | rfl | rfl <;> (unfold Up; decide)

theorem low_user {x : CStr} (hx : x ∈ userNames) : Low x := by
  simp only [userNames, List.mem_cons, List.not_mem_nil, or_false] at hx
  rcases hx with rfl | rfl <;> exact ⟨_, _, rfl, by decide⟩

/-- `TRAV` -/
def trav : CStr := [84, 82, 65, 86]

theorem data_split {x : CStr} (hx : x ∈ dataNames) : ∃ y, x = trav ++ y ∧ Low y ∧ y.length = 8 ∧ (∃ c ∈ y, c = 73 ∨ c = 70) ∧ y.head? = some 100 := by
  simp only [dataNames, List.mem_cons, List.not_mem_nil, or_false] at hx
  rcases hx with rfl | rfl
  · exact ⟨[100, 97, 116, 97, 73, 110, 105, 116], rfl, ⟨_, _, rfl, by decide⟩, rfl, ⟨73, by decide, .inl rfl⟩, rfl⟩
  · exact ⟨[100, 97, 116, 97, 70, 114, 101, 101], rfl, ⟨_, _, rfl, by decide⟩, rfl, ⟨70, by decide, .inr rfl⟩, rfl⟩

theorem Low.append {a : CStr} (h : Low a) (b : CStr) : Low (a ++ b) := by
  obtain ⟨c, cs, rfl, h⟩ := h
  exact ⟨c, cs ++ b, rfl, h⟩

theorem up_trav : Up trav := by unfold Up; decide

theorem same_of_upper {u x : CStr} (h : u.map upperB = x) : SameName u x := by
  rw [← h, SameName, List.map_map]
  exact congrArg (u.map ·) (funext fun b => (lower_upper b).symm)

theorem lower_fix {x : CStr} (h : x.map lowerB = x) {u : CStr} : SameName u x ↔ u.map lowerB = x := by rw [SameName, h]

theorem upper_fix {x : CStr} (h : x.map upperB = x) {u : CStr} : SameName u x ↔ u.map upperB = x := by
  rw [SameName, map_lower_iff_upper, h]

/-- A function for data has the name of no other function that is not for data. -/
theorem data_node (hl : Lettered A) {x o u : CStr} (hx : x ∈ dataNames) (hu : Up u) {n : Parse.Node} (hn : n ∈ A.nodes) :
    x ++ o ≠ u ++ n.name.orig.map lowerB := by
  intro e
  obtain ⟨y, rfl, h1, _, ⟨c, h2, h3⟩, _⟩ := data_split hx
  rw [List.append_assoc] at e
  obtain ⟨_, e⟩ := split_eq up_trav hu (h1.append o) (low_node hl hn) e
  have : c ∈ n.name.orig.map lowerB := by rw [← e]; exact List.mem_append_left _ h2
  obtain ⟨b, _, rfl⟩ := List.mem_map.1 this
  have := lowerB_ne b
  rcases h3 with h3 | h3
  · exact this.1 h3
  · exact this.2 h3

theorem data_user {x o u z : CStr} (hx : x ∈ dataNames) (hu : Up u) (hz : z ∈ userNames) : x ++ o ≠ u ++ z := by
  intro e
  obtain ⟨y, rfl, h1, _, _, h4⟩ := data_split hx
  rw [List.append_assoc] at e
  obtain ⟨_, e⟩ := split_eq up_trav hu (h1.append o) (low_user hz) e
  obtain ⟨c, cs, rfl, _⟩ := h1
  simp only [List.head?_cons, Option.some.injEq] at h4
  subst h4
  rw [← e] at hz
  simp only [userNames, List.mem_cons, List.not_mem_nil, or_false, List.cons_append, List.cons.injEq] at hz
  rcases hz with ⟨h, _⟩ | ⟨h, _⟩ <;> revert h <;> decide

theorem data_data {x y o p : CStr} (hx : x ∈ dataNames) (hy : y ∈ dataNames) (e : x ++ o = y ++ p) : x = y ∧ o = p := by
  have key : ∀ {z : CStr}, z ∈ dataNames → z.length = 12 := by
    intro z hz
    simp only [dataNames, List.mem_cons, List.not_mem_nil, or_false] at hz
    rcases hz with rfl | rfl <;> rfl
  exact List.append_inj e (by rw [key hx, key hy])

/-! ### Lists of functions -/

/-- No two functions have the same name. -/
def Single (l : List Fn) : Prop := l.Pairwise fun f g => f.1 ≠ g.1

theorem filter_single {l : List Fn} (h : Single l) {r : Fn} (hr : r ∈ l) : l.filter (fun d => decide (d.1 = r.1)) = [r] := by
  induction l with
  | nil => cases hr
  | cons a l ih =>
    obtain ⟨h1, h2⟩ := List.pairwise_cons.1 h
    rcases List.mem_cons.1 hr with rfl | hr
    · rw [List.filter_cons_of_pos (by simp)]
      congr 1
      exact List.filter_eq_nil_iff.2 fun b hb => by simpa using fun e => h1 b hb (Eq.symm e)
    · rw [List.filter_cons_of_neg (by simpa using h1 r hr)]
      exact ih h2 hr

theorem single_filter {l : List Fn} (h : ∀ r ∈ l, l.filter (fun d => decide (d.1 = r.1)) = [r]) : Single l := by
  induction l with
  | nil => exact .nil
  | cons a l ih =>
    have h1 := h a (by simp)
    rw [List.filter_cons_of_pos (by simp)] at h1
    injection h1 with _ h1
    have h2 : ∀ b ∈ l, a.1 ≠ b.1 := fun b hb e => by
      have := List.filter_eq_nil_iff.1 h1 b hb
      exact this (by simpa using Eq.symm e)
    refine List.pairwise_cons.2 ⟨h2, ih fun r hr => ?_⟩
    have h3 := h r (by simp [hr])
    rwa [List.filter_cons_of_neg (by simpa using h2 r hr)] at h3

theorem single_append {l m : List Fn} : Single (l ++ m) ↔ Single l ∧ Single m ∧ ∀ f ∈ l, ∀ g ∈ m, f.1 ≠ g.1 := List.pairwise_append

theorem single_map {α : Type} {l : List α} {f : α → Fn} : Single (l.map f) ↔ (l.map fun a => (f a).1).Nodup := by
  rw [Single, List.pairwise_map, List.Nodup, List.pairwise_map]

theorem single_reverse {l : List Fn} : Single l.reverse ↔ Single l := by
  rw [Single, List.pairwise_reverse]
  exact ⟨fun h => h.imp fun h e => h (Eq.symm e), fun h => h.imp fun h e => h (Eq.symm e)⟩

/-! ### The generators -/

theorem setliteral_none (t : Sets.Tree) : DGAHsetliteral none t = [] := by
  induction t with
  | null => rfl
  | node a b i l r ihl ihr => rw [DGAHsetliteral, ihl, ihr]; rfl

theorem setliteral_mem {p : CStr} {t : Sets.Tree} {f : Fn} :
    f ∈ DGAHsetliteral (some p) t ↔ f ∈ (preorder t).map fun i => (p ++ i.lwr, Sig.node) := by
  induction t with
  | null => exact Iff.rfl
  | node a b i l r ihl ihr =>
    simp only [DGAHsetliteral, DGAHid, preorder, List.mem_append, List.map_cons, List.map_append, List.mem_cons, List.not_mem_nil, or_false,
      ihl, ihr]
    constructor
    · rintro (h | h | h | h)
      · exact .inl h
      · exact .inl h
      · exact .inr (.inl h)
      · exact .inr (.inr h)
    · rintro (h | h | h)
      · exact .inl h
      · exact .inr (.inr (.inl h))
      · exact .inr (.inr (.inr h))

theorem stubs_eq (p : CStr) (t : Sets.Tree) : DUGTsetliteral p t = (preorder t).map fun i => (p ++ i.lwr, Sig.node) := by
  induction t with
  | null => rfl
  | node a b i l r ihl ihr => rw [DUGTsetliteral, preorder, List.map_cons, List.map_append, ihl, ihr]

theorem dgta_eq (p : CStr) (l : List Id) : DGTAinode p l = l.map fun i => (p ++ i.lwr, Sig.node) := by
  induction l with
  | nil => rfl
  | cons n l ih => rw [DGTAinode, ih]; rfl

theorem dugt_eq (p : CStr) (l : List Id) : DUGTinode p l = (l.map fun i => (p ++ i.lwr, Sig.node)).reverse := by
  induction l with
  | nil => rfl
  | cons n l ih => rw [DUGTinode, ih, List.map_cons, List.reverse_cons]

theorem system_eq (p : CStr) (l : List Id) : systemInode p l = l.map fun i => (p ++ i.lwr, Sig.node) := by
  induction l with
  | nil => rfl
  | cons n l ih => rw [systemInode, ih]; rfl

theorem passes_eq (l : List Pass) : DUGPipass l = l.map fun p => (DGHpassFuncName p, Sig.node) := by
  induction l with
  | nil => rfl
  | cons n l ih => rw [DUGPipass, ih]; rfl

theorem passDecls_eq (l : List Pass) : DGAHipass l = l.map fun p => (passDecl p, Sig.node) := by
  induction l with
  | nil => rfl
  | cons n l ih => rw [DGAHipass, ih]; rfl

/-- The two functions for the data of a traversal. -/
def dataOf2 (t : Trav) : List Fn :=
  match t.data with
  | true => [(sData true ++ t.name.orig, .data), (sData false ++ t.name.orig, .data)]
  | false => []

/-- The two functions of the user for the data of a traversal. -/
def userOf2 (t : Trav) : List Fn :=
  match t.data with
  | true => [(t.iprefix.upr ++ sInit, .plain), (t.iprefix.upr ++ sFini, .plain)]
  | false => []

/-- The functions of a traversal. -/
def stubsOf (nodes : List Id) (x : Trav × Sets.Tree) : List Fn :=
  match x.2.isNull with
  | false => DUGTsetliteral x.1.iprefix.upr x.2
  | true => DUGTinode x.1.iprefix.upr nodes

/-- The declarations of a traversal. -/
def headsOf (nodes : List Id) (x : Trav × Sets.Tree) : List Fn :=
  match x.2.isNull with
  | false => DGAHsetliteral (some x.1.iprefix.upr) x.2
  | true => DGTAinode x.1.iprefix.upr nodes

theorem dgtdch_eq (l : List Trav) : DGTDCHitraversal l = l.flatMap dataOf2 := by
  induction l with
  | nil => rfl
  | cons n l ih => rw [DGTDCHitraversal, ih]; rfl

theorem dgtdc_eq (l : List Trav) : DGTDCdefs l = l.flatMap dataOf2 := by
  induction l with
  | nil => rfl
  | cons n l ih => rw [DGTDCdefs, ih]; rfl

theorem calls_eq (l : List Trav) : DGTDCcalls l = l.flatMap userOf2 := by
  induction l with
  | nil => rfl
  | cons n l ih => rw [DGTDCcalls, ih]; rfl

theorem heads_eq (nodes : List Id) (l : List (Trav × Sets.Tree)) : DGAHitraversal nodes l = l.flatMap (headsOf nodes) := by
  induction l with
  | nil => rfl
  | cons n l ih => obtain ⟨t, s⟩ := n; rw [DGAHitraversal, ih]; rfl

theorem files_eq (nodes : List Id) (l : List (Trav × Sets.Tree)) :
    DUGTitraversal nodes l = l.flatMap fun x => userOf2 x.1 ++ stubsOf nodes x := by
  induction l with
  | nil => rfl
  | cons n l ih => obtain ⟨t, s⟩ := n; rw [DUGTitraversal, ih]; rfl

/-! ### Traversals -/

/-- A traversal as the generators read it. -/
def travOf (t : Parse.Traversal) : Trav := ⟨idOf t.name, idOf t.uid, t.index, !t.data.isEmpty⟩

/-- What a traversal has after resolution. -/
def Inodes (A : Parse.Ast) (t : Parse.Traversal) (x : Sets.Tree) : Prop :=
  (t.nodes = none → x = .null) ∧ ∀ e, t.nodes = some e → IsTree A e x

theorem inodesOf_ok {st : Unwrap.St} : ∀ (ts : List Parse.Traversal) (qs : List (Option Nat)),
    (∀ (j : Nat) e, (ts.filterMap (·.nodes))[j]? = some e → ∃ q t, qs[j]? = some q ∧ Unwrap.litAt st q = .ok t ∧ IsTree A e t) →
    ∃ l, inodesOf st ts qs = .ok l ∧ Pairs (Inodes A) ts l
  | [], _, _ => ⟨[], rfl, .nil⟩
  | t :: ts, qs, H => by
    cases hn : t.nodes with
    | none =>
      obtain ⟨l, h1, h2⟩ := inodesOf_ok ts qs (by simpa [List.filterMap_cons, hn] using H)
      refine ⟨.null :: l, ?_, .cons ⟨fun _ => rfl, (fun e he => by rw [hn] at he; cases he)⟩ h2⟩
      rw [inodesOf.eq_def]
      simp only [hn, h1, Res.bind_ok]
    | some e =>
      simp only [List.filterMap_cons, hn] at H
      obtain ⟨q, tr, h1, h2, h3⟩ := H 0 e rfl
      cases qs with
      | nil => cases h1
      | cons q' qs =>
        simp only [List.getElem?_cons_zero, Option.some.injEq] at h1
        subst h1
        obtain ⟨l, h4, h5⟩ := inodesOf_ok ts qs fun j e he => by
          obtain ⟨q, tr, g1, g2⟩ := H (j + 1) e he
          exact ⟨q, tr, g1, g2⟩
        refine ⟨tr :: l, ?_, .cons ⟨(fun hc => by rw [hn] at hc; cases hc), fun e' he => ?_⟩ h5⟩
        · rw [inodesOf.eq_def]
          simp only [hn, h2, h4, Res.bind_ok]
        · rw [hn] at he
          cases he
          exact h3

theorem nodes_nodup (h : Right A tab) : (A.nodes.map fun n => n.name.orig.map lowerB).Nodup :=
  Compiled.nodup_of fun i j a b ha hb e => Compiled.node_inj h ha hb e

theorem nodup_prefix {p : CStr} {l : List CStr} (h : l.Nodup) : (l.map (p ++ ·)).Nodup := by
  rw [List.Nodup, List.pairwise_map]
  exact h.imp fun h e => h (List.append_cancel_left e)

/-- What the generators write for a traversal. -/
structure Written (A : Parse.Ast) (t : Parse.Traversal) (x : Sets.Tree) : Prop where
  heads : ∀ f, f ∈ headsOf (A.nodes.map fun n => idOf n.name) (travOf t, x) ↔ ∃ n ∈ A.nodes, Target t A n ∧ f = (handler t n, .node)
  stubs : ∀ f, f ∈ stubsOf (A.nodes.map fun n => idOf n.name) (travOf t, x) ↔ ∃ n ∈ A.nodes, Target t A n ∧ f = (handler t n, .node)
  once : Single (stubsOf (A.nodes.map fun n => idOf n.name) (travOf t, x))

theorem written_of (h : Right A tab) (hm : Aimed A) {t : Parse.Traversal} (ht : t ∈ A.traversals) {x : Sets.Tree} (hx : Inodes A t x) :
    Written A t x := by
  have all : x.isNull = true → t.nodes = none := fun hn => by
    cases hc : t.nodes with
    | none => rfl
    | some e =>
      obtain ⟨n, _, h2⟩ := hm t ht (by rw [hc]; simp)
      rw [Target, hc] at h2
      obtain ⟨i, hi, _⟩ := (Targets.has_iff h (hx.2 e hc) n.name.orig).2 h2
      cases x with
      | null => cases hi
      | node => cases hn
  cases hn : x.isNull with
  | true =>
    have hnone := all hn
    have every : ∀ f, f ∈ (A.nodes.map fun n => idOf n.name).map (fun i => ((idOf t.uid).upr ++ i.lwr, Sig.node)) ↔
        ∃ n ∈ A.nodes, Target t A n ∧ f = (handler t n, .node) := by
      intro f
      simp only [List.map_map, List.mem_map, Function.comp_apply, Target, hnone, true_and]
      constructor
      · rintro ⟨n, h1, rfl⟩
        exact ⟨n, h1, rfl⟩
      · rintro ⟨n, h1, rfl⟩
        exact ⟨n, h1, rfl⟩
    refine ⟨fun f => ?_, fun f => ?_, ?_⟩
    · simp only [headsOf, hn, dgta_eq]
      exact every f
    · simp only [stubsOf, hn, dugt_eq, List.mem_reverse]
      exact every f
    · simp only [stubsOf, hn, dugt_eq]
      rw [single_reverse, single_map]
      have := nodup_prefix (p := (idOf t.uid).upr) (nodes_nodup h)
      rw [List.map_map] at this ⊢
      exact this
  | false =>
    cases hc : t.nodes with
    | none =>
      rw [hx.1 hc] at hn
      cases hn
    | some e =>
      have it := hx.2 e hc
      have ok := h.travExpr ht hc
      have some' : ∀ f, f ∈ (preorder x).map (fun i => ((idOf t.uid).upr ++ i.lwr, Sig.node)) ↔
          ∃ n ∈ A.nodes, Target t A n ∧ f = (handler t n, .node) := by
        intro f
        simp only [List.mem_map]
        constructor
        · rintro ⟨i, hi, rfl⟩
          obtain ⟨k, n, _, h2, h3⟩ := entries_nodes h ok it hi
          refine ⟨n, List.mem_of_getElem? h2, ?_, ?_⟩
          · rw [Target, hc]
            exact (Targets.has_iff h it _).1 ⟨i, (preorder_perm x).mem_iff.1 hi, Eq.symm h3⟩
          · rw [handler, (it.wf i ((preorder_perm x).mem_iff.1 hi)).1, ← h3]
            rfl
        · rintro ⟨n, h1, h2, rfl⟩
          rw [Target, hc] at h2
          obtain ⟨i, hi, h3⟩ := (Targets.has_iff h it _).2 h2
          refine ⟨i, (preorder_perm x).mem_iff.2 hi, ?_⟩
          rw [handler, (it.wf i hi).1, h3]
          rfl
      refine ⟨fun f => ?_, fun f => ?_, ?_⟩
      · simp only [headsOf, hn, setliteral_mem]
        exact some' f
      · simp only [stubsOf, hn, stubs_eq]
        exact some' f
      · simp only [stubsOf, hn, stubs_eq]
        rw [single_map]
        have h1 : (preorder x).Pairwise fun a b => ¬ SameName a.orig b.orig :=
          (List.Perm.pairwise_iff (fun hab hba => hab (Eq.symm hba)) (preorder_perm x)).2 it.once
        rw [List.Nodup, List.pairwise_map]
        refine h1.imp_of_mem fun {a b} ha hb hne e => hne ?_
        have e := List.append_cancel_left e
        rwa [(it.wf a ((preorder_perm x).mem_iff.1 ha)).1, (it.wf b ((preorder_perm x).mem_iff.1 hb)).1] at e

end Verif.Declared
