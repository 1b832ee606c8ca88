import Verif.Lemmas.TargetsTable
import Verif.Lemmas.TravFuel

/-!
# Lemmas about the nodes that a traversal visits
-/

namespace Verif.Targets
open Verif.Str Verif.Trav Verif.Spec.Targets
open Verif.Spec.Graph (Path)

variable {A : Parse.Ast} {m : Mem}

/-- What holds for a node type and, with it, for what can be below, holds for all nodes of a tree. -/
theorem walk_all {U : Nat → Prop} (hU : ∀ q q', U q → Below A q q' → U q') {a : Addr} {k : Nat} {l : List (Addr × Nat)}
    (h : Walk A m a k l) : U k → ∀ x ∈ l, U x.2 := by
  refine Walk.rec (motive_1 := fun a k l _ => U k → ∀ x ∈ l, U x.2)
    (motive_2 := fun cs ps l _ => ∀ q n, A.nodes[q]? = some n → U q → (∀ c ∈ cs, c ∈ n.children) → ∀ x ∈ l, U x.2) ?_ ?_ ?_ ?_ ?_ h
  · intro a k b n e d l h1 h2 h3 h4 h5 h6 h7 h8 ih hk x hx
    rcases List.mem_cons.1 hx with rfl | hx
    · exact hk
    · exact ih k n h2 hk (fun c hc => hc) x hx
  · intro a k b n h1 h2 h3 h4 h5 hk x hx
    obtain rfl := List.mem_singleton.1 hx
    exact hk
  · intro q n _ _ _ x hx
    cases hx
  · intro c cs ps l h ih q n hq hU' hc x hx
    exact ih q n hq hU' (fun c' h' => hc c' (List.mem_cons_of_mem _ h')) x hx
  · intro c cs p k n' ps l l' h1 h2 h3 h4 ih1 ih2 q n hq hU' hc x hx
    rcases List.mem_append.1 hx with hx | hx
    · exact ih1 (hU q k hU' ⟨n, n', hq, h1, c, hc c (List.mem_cons_self ..), h2⟩) x hx
    · exact ih2 q n hq hU' (fun c' h' => hc c' (List.mem_cons_of_mem _ h')) x hx

variable {E : Env} {t : Parse.Traversal} {f : Addr} {fr : Frame} {r : List (Addr → Prog)}

/-- The row goes through the nodes that the traversal is for, and is as generated for others. -/
def Goes (A : Parse.Ast) (t : Parse.Traversal) (r : List (Addr → Prog)) : Prop :=
  ∀ (k : Nat) n, A.nodes[k]? = some n → ∃ g, r[k + 1]? = some (funOf (fun _ => TRAVchildrenH) g) ∧ Spec.Targets.Entry A t k n g

theorem children_eq {n k : Nat} {a : Addr} {s s' : St} (h : childLoop E (runProg (call E n)) k (some a) 0 s = .ok s') (hk : k ≤ n) :
    runProg (call E (n + 1)) (TRAVchildrenH a) s = .ok (some a, s') := by
  rw [TRAVchildrenH, runProg]
  simp only [call, TRAVchildren]
  rw [(loop_le (fun p s => Res.Le.refl _) (some a) hk 0 s).ok h]
  rfl

/-- Runs of a traversal through trees: if it is known what happens at a node, given what happens below, it is known what happens. -/
theorem walk_run {P : List (Addr × Nat) → List (Addr × Nat) → Prop} (hnil : P [] []) (happ : ∀ v l v' l', P v l → P v' l' → P (v ++ v') (l ++ l'))
    (top : ∀ (a : Addr) (k : Nat) (b : NodeB) (n : Parse.Node) (l vs : List (Addr × Nat)), Walk A m a k ((a, k) :: l) →
      m a = some (.node b) → A.nodes[k]? = some n → b.ty = k + 1 → P vs l →
      (∃ n0, ∀ n, n0 ≤ n → ∀ s : St, s.mem = m → s.cur = some f → s.frames f = some fr →
        runProg (call E n) (TRAVchildrenH a) s = .ok (some a, { s with trace := s.trace ++ events f vs })) →
      ∃ vs, P vs ((a, k) :: l) ∧ ∃ n0, ∀ n, n0 ≤ n → ∀ s : St, s.mem = m → s.cur = some f → s.frames f = some fr →
        TRAVdo E (runProg (call E n)) (some a) s = .ok (some a, { s with trace := s.trace ++ events f vs }))
    {a : Addr} {k : Nat} {l : List (Addr × Nat)} (h : Walk A m a k l) :
    ∃ vs, P vs l ∧ ∃ n0, ∀ n, n0 ≤ n → ∀ s : St, s.mem = m → s.cur = some f → s.frames f = some fr →
      TRAVdo E (runProg (call E n)) (some a) s = .ok (some a, { s with trace := s.trace ++ events f vs }) := by
  refine Walk.rec (motive_1 := fun a k l _ => ∃ vs, P vs l ∧ ∃ n0, ∀ n, n0 ≤ n → ∀ s : St, s.mem = m → s.cur = some f →
      s.frames f = some fr → TRAVdo E (runProg (call E n)) (some a) s = .ok (some a, { s with trace := s.trace ++ events f vs }))
    (motive_2 := fun cs ps l _ => ∃ vs, P vs l ∧ ∃ n0, ∀ n, n0 ≤ n → ∀ (a : Addr) (b : NodeB) (e : Addr) (d : DataB) (i : Nat),
      m a = some (.node b) → b.children = some e → m e = some (.data d) → b.numChildren = d.kids.length → d.kids.length ≤ INT_MAX →
      i ≤ d.kids.length → d.kids.drop i = ps → ∀ s : St, s.mem = m → s.cur = some f → s.frames f = some fr →
      childLoop E (runProg (call E n)) (ps.length + 1) (some a) i s = .ok { s with trace := s.trace ++ events f vs }) ?_ ?_ ?_ ?_ ?_ h
  · intro a k b n e d l h1 h2 h3 h4 h5 h6 h7 h8 ih
    obtain ⟨vs, hv, n0, hrun⟩ := ih
    refine top a k b n l vs (.mk h1 h2 h3 h4 h5 h6 h7 h8) h1 h2 h3 hv ⟨max n0 (d.kids.length + 1) + 1, fun N hN s hm hc hfr => ?_⟩
    obtain ⟨N, rfl⟩ : ∃ N', N = N' + 1 := ⟨N - 1, by omega⟩
    have hN' : max n0 (d.kids.length + 1) ≤ N := by omega
    exact children_eq (hrun N (Nat.le_trans (Nat.le_max_left _ _) hN') a b e d 0 h1 h4 h5 h6 h7 (Nat.zero_le _) rfl s hm hc hfr)
      (Nat.le_trans (Nat.le_max_right _ _) hN')
  · intro a k b n h1 h2 h3 h4 h5
    refine top a k b n [] [] (.leaf h1 h2 h3 h4 h5) h1 h2 h3 hnil ⟨2, fun N hN s hm hc hfr => ?_⟩
    obtain ⟨N, rfl⟩ : ∃ N', N = N' + 1 := ⟨N - 1, by omega⟩
    refine children_eq (k := 1) ?_ (by omega)
    have en : nodeAt s.mem (some a) = .ok (a, b) := by simp only [nodeAt, hm, h1]
    rw [childLoop, en, Res.bind_ok, if_neg (by simp only; omega)]
    simp only [events, List.map_nil, List.append_nil]
  · refine ⟨[], hnil, 0, fun N _ a b e d i h1 h2 h3 h4 h5 h6 h7 s hm hc hfr => ?_⟩
    have : d.kids.length ≤ i := by simpa using h7
    have en : nodeAt s.mem (some a) = .ok (a, b) := by simp only [nodeAt, hm, h1]
    rw [childLoop, en, Res.bind_ok, if_neg (by simp only; omega)]
    simp only [events, List.map_nil, List.append_nil]
  · intro c cs ps l h ih
    obtain ⟨vs, hv, n0, hrun⟩ := ih
    refine ⟨vs, hv, n0, fun N hN a b e d i h1 h2 h3 h4 h5 h6 h7 s hm hc hfr => ?_⟩
    have hk : d.kids[i]? = some none := by rw [← List.head?_drop, h7]; rfl
    have hi : i < d.kids.length := (List.getElem?_eq_some_iff.1 hk).1
    have hd : d.kids.drop (i + 1) = ps := by rw [← List.tail_drop, h7]; rfl
    have en : nodeAt s.mem (some a) = .ok (a, b) := by simp only [nodeAt, hm, h1]
    have ed : dataAt s.mem b.children = .ok (e, d) := by simp only [dataAt, h2, hm, h3]
    rw [childLoop, en, Res.bind_ok, if_pos (by simp only; omega), getChild, en, Res.bind_ok]
    simp only [ed, Res.bind_ok, hk, TRAVopt, setChild, en, if_true, if_pos hi, if_pos (show i < INT_MAX by omega)]
    rw [set_self _ _ _ hk, upd_self s.mem e _ (by rw [hm, h3])]
    exact hrun N hN a b e d (i + 1) h1 h2 h3 h4 h5 (by omega) hd s hm hc hfr
  · intro c cs p k n ps l l' h1 h2 h3 h4 ih1 ih2
    obtain ⟨vs, hv, n0, hrun⟩ := ih1
    obtain ⟨vs', hv', n0', hrun'⟩ := ih2
    refine ⟨vs ++ vs', happ _ _ _ _ hv hv', max n0 n0',
      fun N hN a b e d i h1 h2 h3 h4 h5 h6 h7 s hm hc hfr => ?_⟩
    have hk : d.kids[i]? = some (some p) := by rw [← List.head?_drop, h7]; rfl
    have hi : i < d.kids.length := (List.getElem?_eq_some_iff.1 hk).1
    have hd : d.kids.drop (i + 1) = ps := by rw [← List.tail_drop, h7]; rfl
    have en : nodeAt s.mem (some a) = .ok (a, b) := by simp only [nodeAt, hm, h1]
    have ed : dataAt s.mem b.children = .ok (e, d) := by simp only [dataAt, h2, hm, h3]
    have hdo := hrun N (Nat.le_trans (Nat.le_max_left _ _) hN) s hm hc hfr
    rw [childLoop, en, Res.bind_ok, if_pos (by simp only; omega), getChild, en, Res.bind_ok]
    simp only [ed, Res.bind_ok, hk, TRAVopt, hdo, setChild, en, if_true, if_pos hi, if_pos (show i < INT_MAX by omega)]
    rw [set_self _ _ _ hk, upd_self s.mem e _ (by rw [hm, h3])]
    have := hrun' N (Nat.le_trans (Nat.le_max_right _ _) hN) a b e d (i + 1) h1 h2 h3 h4 h5 (by omega) hd
      { s with trace := s.trace ++ events f vs } (by exact hm) (by exact hc) (by exact hfr)
    simp only [List.append_assoc, events, List.map_append] at this ⊢
    exact this

theorem walk_visits (hr : E.vtable[fr.ty]? = some r) (hg : Goes A t r) {a : Addr} {k : Nat} {l : List (Addr × Nat)} (h : Walk A m a k l) :
    ∃ vs, Visits A t vs l ∧ ∃ n0, ∀ n, n0 ≤ n → ∀ s : St, s.mem = m → s.cur = some f → s.frames f = some fr →
      TRAVdo E (runProg (call E n)) (some a) s = .ok (some a, { s with trace := s.trace ++ events f vs }) := by
  refine walk_run (P := Visits A t) ⟨.slnil, rfl⟩ (fun v l v' l' hv hv' =>
    ⟨hv.1.append hv'.1, by rw [List.filter_append, List.filter_append, hv.2, hv'.2]⟩) ?_ h
  intro a k b n l vs hw h1 h2 h3 hv ⟨n0, hrun⟩
  obtain ⟨g, g1, g2⟩ := hg k n h2
  have enter : ∀ (N : Nat) (s : St), s.mem = m → s.cur = some f → s.frames f = some fr → TRAVdo E (runProg (call E N)) (some a) s =
      runProg (call E N) (funOf (fun _ => TRAVchildrenH) g a) { s with trace := s.trace ++ [.visit f a] } := fun N s hm hc hfr => by
    simp only [TRAVdo, hc, hfr, hr, nodeAt, hm, h1, Res.bind_ok, h3, g1]
  by_cases hnop : g = .travNop
  · subst hnop
    have hnt : ¬ Target t A n := fun ht => by cases g2.user ht
    refine ⟨[(a, k)], ⟨?_, ?_⟩, 0, fun N _ s hm hc hfr => ?_⟩
    · exact List.Sublist.cons_cons _ (List.nil_sublist _)
    · have hall := walk_all (U := fun q => ∃ n, A.nodes[q]? = some n ∧ ¬ Target t A n ∧
          ¬ ∃ j m, A.nodes[j]? = some m ∧ Target t A m ∧ Path (Below A) q j) (by
        rintro q q' ⟨nq, e1, e2, e3⟩ hb
        obtain ⟨_, n', _, e4, _⟩ := id hb
        exact ⟨n', e4, fun ht => e3 ⟨q', n', e4, ht, .edge hb⟩, fun ⟨j, m, e5, e6, e7⟩ => e3 ⟨j, m, e5, e6, .step hb e7⟩⟩) hw
        ⟨n, h2, hnt, fun hp => by cases g2.through hnt hp⟩
      have none : ∀ x ∈ (a, k) :: l, ¬ Aim A t x := fun x hx ⟨n', e1, e2⟩ => by
        obtain ⟨n'', e3, e4, _⟩ := hall x hx
        rw [e1] at e3
        cases e3
        exact e4 e2
      rw [List.filter_eq_nil_iff.2, List.filter_eq_nil_iff.2]
      · intro x hx
        simpa using none x hx
      · intro x hx
        simpa using none x (List.mem_singleton.1 hx ▸ List.mem_cons_self ..)
    · rw [enter N s hm hc hfr, funOf, TRAVnop, runProg]
      rfl
  · have hg' : funOf (fun _ => TRAVchildrenH) g = TRAVchildrenH := by
      by_cases ht : Target t A n
      · rw [g2.user ht]; rfl
      · rcases g2.other ht with e | e
        · rw [e]; rfl
        · exact absurd e hnop
    refine ⟨(a, k) :: vs, ⟨hv.1.cons_cons _, ?_⟩, n0, fun N hN s hm hc hfr => ?_⟩
    · rw [List.filter_cons, List.filter_cons, hv.2]
    · rw [enter N s hm hc hfr, hg', hrun N hN _ (by exact hm) (by exact hc) (by exact hfr)]
      simp only [events, List.map_cons, List.append_assoc, List.singleton_append]

/-! ### Without shortcuts -/

theorem walk_kids {cs : List Parse.Child} {ps : List Ptr} {l : List (Addr × Nat)} (h : WalkKids A m cs ps l)
    (hw : ∀ p k l', Walk A m p k l' → l'.length ≤ l.length → Fits A m p k) : ∀ (i : Nat) (p : Addr), ps[i]? = some (some p) →
    ∃ c k n, cs[i]? = some c ∧ A.nodes[k]? = some n ∧ Allows A c n ∧ Fits A m p k := by
  induction cs generalizing ps l with
  | nil => cases h with | nil => intro i p hp; cases hp
  | cons c cs ih =>
    intro i p hp
    cases h with
    | none h =>
      cases i with
      | zero => cases hp
      | succ i => exact ih h hw i p hp
    | some h1 h2 h3 h4 =>
      cases i with
      | zero =>
        cases hp
        exact ⟨c, _, _, rfl, h1, h2, hw _ _ _ h3 (by simp)⟩
      | succ i => exact ih h4 (fun p k l' g1 g2 => hw p k l' g1 (by simp; omega)) i p hp

open Classical in
theorem walk_fits : ∀ (N : Nat) {a : Addr} {k : Nat} {l : List (Addr × Nat)}, l.length ≤ N → Walk A m a k l → Fits A m a k := by
  intro N
  induction N with
  | zero => intro a k l hl h; cases h <;> simp at hl
  | succ N ih =>
    intro a k l hl h
    cases h with
    | @mk _ _ b _ _ _ _ h1 h2 h3 h4 h5 h6 h7 h8 =>
      have hk := walk_kids h8 fun p k l' g1 g2 => ih (by simp at hl; omega) g1
      have key : ∀ i p, Kid m b i p → ∃ c k n', _ ∧ A.nodes[k]? = some n' ∧ Allows A c n' ∧ Fits A m p k := fun i p hK => by
        obtain ⟨e, d, g1, g2, g3, g4⟩ := hK
        rw [h4] at g1
        cases g1
        rw [h5] at g2
        cases g2
        exact hk i p g4
      have hpos : ∀ i p, Kid m b i p → ∀ p', Kid m b i p' → p' = p := fun i p hK p' hK' => by
        obtain ⟨e, d, g1, g2, g3, g4⟩ := hK
        obtain ⟨e', d', g1', g2', g3', g4'⟩ := hK'
        rw [g1] at g1'
        cases g1'
        rw [g2] at g2'
        cases g2'
        rw [g4] at g4'
        cases g4'
        rfl
      refine .mk (fun i => if hi : ∃ p, Kid m b i p then (key i hi.choose hi.choose_spec).choose_spec.choose else 0) h1 h2 h3
        (fun i p hK => ?_) (fun i p hK => ?_)
      · have hi : ∃ p, Kid m b i p := ⟨p, hK⟩
        rw [dif_pos hi]
        obtain ⟨n', g1, g2, g3, g4⟩ := (key i hi.choose hi.choose_spec).choose_spec.choose_spec
        exact ⟨_, n', g1, g2, g3⟩
      · have hi : ∃ p, Kid m b i p := ⟨p, hK⟩
        rw [dif_pos hi]
        obtain ⟨n', g1, g2, g3, g4⟩ := (key i hi.choose hi.choose_spec).choose_spec.choose_spec
        rw [← hpos i _ hK _ hi.choose_spec]
        exact g4
    | @leaf _ _ b _ h1 h2 h3 h4 h5 =>
      have none : ∀ i p, ¬ Kid m b i p := fun i p ⟨_, _, _, _, g, _⟩ => by omega
      exact .mk (fun _ => 0) h1 h2 h3 (fun i p hK => absurd hK (none i p)) (fun i p hK => absurd hK (none i p))

open Classical in
/-- The compiler without shortcuts goes to all nodes. -/
theorem walk_whole (hr : E.vtable[fr.ty]? = some (row A (fun _ => TRAVchildrenH) t)) {a : Addr} {k : Nat} {l : List (Addr × Nat)}
    (h : Walk A m a k l) :
    ∃ n0, ∀ n, n0 ≤ n → ∀ s : St, s.mem = m → s.cur = some f → s.frames f = some fr →
      TRAVdo E (runProg (call E n)) (some a) s = .ok (some a, { s with trace := s.trace ++ events f l }) := by
  obtain ⟨vs, rfl, hx⟩ := walk_run (E := E) (f := f) (fr := fr) (P := fun v l => v = l) rfl (fun v l v' l' e e' => by rw [e, e']) (by
    intro a k b n l vs hw h1 h2 h3 hv hrun
    subst hv
    obtain ⟨n0, hrun⟩ := hrun
    refine ⟨_, rfl, n0, fun N hN s hm hc hfr => ?_⟩
    have hk : (row A (fun _ => TRAVchildrenH) t)[k + 1]? = some (if Target t A n then TRAVchildrenH else through A k) := by
      simp [row, h2]
    have enter : TRAVdo E (runProg (call E N)) (some a) s =
        runProg (call E N) ((if Target t A n then TRAVchildrenH else through A k) a) { s with trace := s.trace ++ [.visit f a] } := by
      simp only [TRAVdo, hc, hfr, hr, nodeAt, hm, h1, Res.bind_ok, h3, hk]
    have hfit := walk_fits _ (Nat.le_refl _) hw
    have := hrun N hN { s with trace := s.trace ++ [.visit f a] } hm hc hfr
    rw [enter]
    split
    · rw [this]
      simp only [events, List.map_cons, List.append_assoc, List.singleton_append]
    · rw [through, runProg]
      simp only [hm, if_pos hfit, Res.bind_ok]
      rw [TRAVchildrenH] at this
      simp only [hm] at this
      rw [this]
      simp only [events, List.map_cons, List.append_assoc, List.singleton_append]) h
  exact hx

end Verif.Targets
