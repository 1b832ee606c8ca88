import Verif.Lemmas.Induce

/-!
# Lemmas about induced dependencies: the rounds over all graphs
-/

namespace Verif.Induce
open Verif.Graph Verif.Spec.Induce
open Verif.Spec.Graph (Edge Path)

/-- The edge is wherever its type occurs. -/
def Applied (S : Spec) (e : PEdge) (L : List (Production × Graph)) : Prop := ∀ x ∈ L, AppliedTo S e x.2 x.2.nodes

/-- While there are no errors: all graphs are closed and have what is said directly; and every edge inside a node is waiting
in the new list, or is in the graphs done so far, and will be or is in the others. -/
structure Comp (S : Spec) (C N : List PEdge) (D R : List (Production × Graph)) : Prop where
  full : ∀ x ∈ D ++ R, Closed x.2 ∧ Anti x.2 ∧ ∀ a b, Direct x.1 a b → EdgeP x.2 a b
  applied : ∀ e ∈ C, Applied S e D
  cov : ∀ x ∈ D ++ R, ∀ a b, a.1 = b.1 → EdgeP x.2 a b →
    conv S (a, b) ∈ N ∨ (Applied S (conv S (a, b)) D ∧ (conv S (a, b) ∈ C ∨ Applied S (conv S (a, b)) R))

/-- What a round preserves: `C` are the edges of this round, `N` those for the next, `D` the graphs done, `R` the others. -/
structure RInv (S : Spec) (C N : List PEdge) (D R : List (Production × Graph)) (err : Nat) : Prop where
  good : ∀ x ∈ D ++ R, GOk S x.1 x.2 ∧ Pl S x.1 x.2
  indC : ∀ e ∈ C, IndOk S e
  indN : ∀ e ∈ N, IndOk S e
  circ : err ≠ 0 → Circular S
  comp : err = 0 → Comp S C N D R

/-- The pairs without an edge in all graphs. -/
def mtot (L : List (Production × Graph)) : Nat := (L.map fun x => missing x.2).sum

theorem mtot_append (L L' : List (Production × Graph)) : mtot (L ++ L') = mtot L + mtot L' := by
  simp [mtot]

theorem mtot_cons (x : Production × Graph) (L : List (Production × Graph)) : mtot (x :: L) = missing x.2 + mtot L := by
  simp [mtot]

theorem round_step {S} (h : SpecOk S) {C N D R err p g} (v : RInv S C N D ((p, g) :: R) err) :
    ∃ g' raw err' F, (∀ fuel, F ≤ fuel → add_induced_edges fuel S g C err = .ok (g', raw, err')) ∧
      RInv S C (combine_edgelists S N raw) (D ++ [(p, g')]) R err' ∧ missing g' ≤ missing g ∧
      (raw ≠ [] → missing g' < missing g) := by
  obtain ⟨ok, pl⟩ := v.good (p, g) (by simp)
  obtain ⟨g', raw, err', F, r, t, k, c, m⟩ := add_induced_edges_spec h v.indC err ok pl
  refine ⟨g', raw, err', F, r, ⟨?_, v.indC, ind_combine h v.indN k, ?_, ?_⟩, t.miss, m⟩
  · intro x hx
    simp only [List.append_assoc, List.mem_append, List.mem_cons, List.not_mem_nil, or_false] at hx
    rcases hx with hx | rfl | hx
    · exact v.good x (by simp [hx])
    · exact ⟨t.ok, pl.step t.nodes⟩
    · exact v.good x (by simp [hx])
  · intro hne
    by_cases he : err = 0
    · exact t.circ (by omega)
    · exact v.circ he
  · intro he'
    have hle := t.le
    have he : err = 0 := by omega
    have hee : err' = err := by omega
    obtain ⟨cl, ap⟩ := c hee
    have cm := v.comp he
    obtain ⟨_, an0, dr0⟩ := cm.full (p, g) (by simp)
    have apD : ∀ e, Applied S e D → AppliedTo S e g' g'.nodes → Applied S e (D ++ [(p, g')]) := by
      intro e h1 h2 x hx
      rcases List.mem_append.1 hx with hx | hx
      · exact h1 x hx
      · simp only [List.mem_singleton] at hx
        subst hx
        exact h2
    -- old edges stay covered
    have old : ∀ x ∈ D ++ (p, g) :: R, ∀ a b, a.1 = b.1 → EdgeP x.2 a b →
        conv S (a, b) ∈ combine_edgelists S N raw ∨ (Applied S (conv S (a, b)) (D ++ [(p, g')]) ∧
          (conv S (a, b) ∈ C ∨ Applied S (conv S (a, b)) R)) := by
      intro x hx a b hab hE
      rcases cm.cov x hx a b hab hE with h1 | ⟨h1, h2⟩
      · exact Or.inl ((mem_combine _ _ _ _).2 (Or.inl h1))
      · refine Or.inr ⟨apD _ h1 ?_, ?_⟩
        · rcases h2 with h2 | h2
          · exact ap _ h2
          · have := (h2 (p, g) (by simp)).step t
            rw [t.nodes]
            exact this
        · rcases h2 with h2 | h2
          · exact Or.inl h2
          · exact Or.inr fun y hy => h2 y (List.mem_cons_of_mem _ hy)
    refine ⟨?_, ?_, ?_⟩
    · intro x hx
      simp only [List.append_assoc, List.mem_append, List.mem_cons, List.not_mem_nil, or_false] at hx
      rcases hx with hx | rfl | hx
      · exact cm.full x (by simp [hx])
      · exact ⟨cl, t.anti hee an0, fun a b hd => t.keep a b (dr0 a b hd)⟩
      · exact cm.full x (by simp [hx])
    · intro e he
      exact apD e (cm.applied e he) (ap e he)
    · intro x hx a b hab hE
      simp only [List.append_assoc, List.mem_append, List.mem_cons, List.not_mem_nil, or_false] at hx
      rcases hx with hx | rfl | hx
      · exact old x (by simp [hx]) a b hab hE
      · rcases t.new a b hE with h1 | ⟨e, he, _, h2, h3, h4⟩ | h1
        · exact old (p, g) (by simp) a b hab h1
        · have hce : conv S (a, b) = e := by
            have := (v.indC e he).1
            apply Prod.ext
            · exact Prod.ext h2 h3
            · refine Prod.ext ?_ h4
              show get_node_type S b.1 = e.2.1
              rw [← hab, h2, this]
          rw [hce]
          exact Or.inr ⟨apD e (cm.applied e he) (ap e he), Or.inl he⟩
        · exact Or.inl ((mem_combine _ _ _ _).2 (Or.inr ⟨_, h1 hab, rfl⟩))
      · exact old x (by simp [hx]) a b hab hE

theorem combine_ne {S : Spec} {N raw : List PEdge} (h : combine_edgelists S N raw ≠ []) : N ≠ [] ∨ raw ≠ [] := by
  by_cases hN : N = []
  · exact Or.inr fun hr => h (combine_nil hN hr)
  · exact Or.inl hN

theorem roundGraphs_spec {S} (h : SpecOk S) {C : List PEdge} {R : List (Production × Graph)} (gs : List Graph) :
    ∀ (ps : List Production) (N : List PEdge) (D : List (Production × Graph)) (err : Nat), ps.length = gs.length →
    RInv S C N D (ps.zip gs ++ R) err →
    ∃ gs' N' err' F, (∀ fuel, F ≤ fuel → roundGraphs fuel S C N err gs = .ok (gs', N', err')) ∧ gs'.length = gs.length ∧
      RInv S C N' (D ++ ps.zip gs') R err' ∧ mtot (ps.zip gs') ≤ mtot (ps.zip gs) ∧
      (N' ≠ [] → N ≠ [] ∨ mtot (ps.zip gs') < mtot (ps.zip gs)) := by
  induction gs with
  | nil =>
    intro ps N D err _ v
    refine ⟨[], N, err, 0, fun _ _ => rfl, rfl, ?_, Nat.le_refl _, fun h => Or.inl h⟩
    simpa using v
  | cons g gs ih =>
    intro ps N D err hl v
    cases ps with
    | nil => simp at hl
    | cons p ps =>
      obtain ⟨g1, raw, e1, F1, r1, v1, m1, l1⟩ := round_step h v
      obtain ⟨gs', N', e2, F2, r2, n2, v2, m2, l2⟩ := ih ps _ _ e1 (by simpa using hl) v1
      refine ⟨g1 :: gs', N', e2, max F1 F2, ?_, by simp [n2], ?_, ?_, ?_⟩
      · intro fuel hf
        simp only [roundGraphs, r1 fuel (by omega), r2 fuel (by omega), Res.bind_ok]
      · simpa using v2
      · simp only [List.zip_cons_cons, mtot_cons]
        omega
      · intro hN
        simp only [List.zip_cons_cons, mtot_cons]
        rcases l2 hN with h1 | h1
        · rcases combine_ne h1 with h1 | h1
          · exact Or.inl h1
          · have := l1 h1
            exact Or.inr (by omega)
        · exact Or.inr (by omega)

/-- The productions that the graphs under a key are of. -/
def prodsOf (S : Spec) (k : Nat) : List Production :=
  match S.nodes.find? fun n => n.addr == k with
  | some n => [.node n]
  | none =>
    match S.sets.find? fun s => s.addr == k with
    | some s => s.members.reverse.map (.member s)
    | none => []

/-- The graphs of the table with their productions. -/
def pairs (S : Spec) (T : List (Nat × List Graph)) : List (Production × Graph) :=
  T.flatMap fun e => (prodsOf S e.1).zip e.2

/-- Every key has a graph for each of its productions. -/
def Shape (S : Spec) (T : List (Nat × List Graph)) : Prop := ∀ e ∈ T, (prodsOf S e.1).length = e.2.length

theorem roundKeys_spec {S} (h : SpecOk S) {C : List PEdge} (T : List (Nat × List Graph)) :
    ∀ (N : List PEdge) (D : List (Production × Graph)) (err : Nat), Shape S T → RInv S C N D (pairs S T) err →
    ∃ T' N' err' F, (∀ fuel, F ≤ fuel → roundKeys fuel S C N err T = .ok (T', N', err')) ∧ Shape S T' ∧
      T'.map (·.1) = T.map (·.1) ∧ RInv S C N' (D ++ pairs S T') [] err' ∧ mtot (pairs S T') ≤ mtot (pairs S T) ∧
      (N' ≠ [] → N ≠ [] ∨ mtot (pairs S T') < mtot (pairs S T)) := by
  induction T with
  | nil =>
    intro N D err sh v
    refine ⟨[], N, err, 0, fun _ _ => rfl, sh, rfl, ?_, Nat.le_refl _, fun h => Or.inl h⟩
    simpa [pairs] using v
  | cons e T ih =>
    intro N D err sh v
    obtain ⟨k, gs⟩ := e
    obtain ⟨gs', N1, e1, F1, r1, n1, v1, m1, l1⟩ := roundGraphs_spec h gs (prodsOf S k) N D err (sh (k, gs) (by simp))
      (by simpa [pairs] using v)
    obtain ⟨T', N2, e2, F2, r2, s2, k2, v2, m2, l2⟩ := ih N1 _ e1 (fun e he => sh e (List.mem_cons_of_mem _ he)) v1
    refine ⟨(k, gs') :: T', N2, e2, max F1 F2, ?_, ?_, by simp [k2], ?_, ?_, ?_⟩
    · intro fuel hf
      simp only [roundKeys, r1 fuel (by omega), r2 fuel (by omega), Res.bind_ok]
    · intro e he
      rcases List.mem_cons.1 he with rfl | he
      · have := sh (k, gs) (by simp)
        simp only at this ⊢
        omega
      · exact s2 e he
    · simpa [pairs] using v2
    · simp only [pairs, List.flatMap_cons, mtot_append] at m2 ⊢
      omega
    · intro hN
      simp only [pairs, List.flatMap_cons, mtot_append] at m2 l2 ⊢
      rcases l2 hN with h1 | h1
      · rcases l1 h1 with h1 | h1
        · exact Or.inl h1
        · exact Or.inr (by omega)
      · exact Or.inr (by omega)

/-- What holds between the rounds. -/
structure SInv (S : Spec) (st : Sav) : Prop where
  shape : Shape S st.graphs
  inv : RInv S st.induced [] [] (pairs S st.graphs) st.errors

/-- The end of a round is the start of the next. -/
theorem RInv.next {S C N L err} (v : RInv S C N L [] err) : RInv S N [] [] L err := by
  refine ⟨by simpa using v.good, v.indN, by simp, v.circ, fun he => ?_⟩
  have cm := v.comp he
  refine ⟨by simpa using cm.full, (fun e _ x hx => by cases hx), ?_⟩
  intro x hx a b hab hE
  refine Or.inr ⟨(fun x hx => by cases hx), ?_⟩
  rcases cm.cov x (by simpa using hx) a b hab hE with h1 | ⟨h1, _⟩
  · exact Or.inl h1
  · exact Or.inr h1

theorem rounds_spec {S} (h : SpecOk S) (m : Nat) : ∀ {st : Sav}, SInv S st → mtot (pairs S st.graphs) ≤ m →
    ∃ st' F, (∀ fuel k, F ≤ fuel → F ≤ k → rounds fuel S k st = .ok st') ∧ SInv S st' ∧ st'.induced = [] ∧
      st'.graphs.map (·.1) = st.graphs.map (·.1) := by
  induction m using Nat.strongRecOn with
  | ind m ih =>
    intro st v hm
    cases hi : st.induced with
    | nil =>
      refine ⟨st, 1, ?_, v, hi, rfl⟩
      intro fuel k _ hk
      obtain ⟨k, rfl⟩ : ∃ k', k = k' + 1 := ⟨k - 1, by omega⟩
      simp only [rounds, hi]
    | cons e l =>
      obtain ⟨T, N, err, F, r, s, kk, w, m1, l1⟩ := roundKeys_spec h st.graphs [] [] st.errors v.shape v.inv
      have w' : SInv S ⟨T, N, err⟩ := ⟨s, by simpa using w.next⟩
      have step : ∀ fuel k, F ≤ fuel → rounds fuel S (k + 1) st = rounds fuel S k ⟨T, N, err⟩ := by
        intro fuel k hf
        have := r fuel hf
        rw [rounds, hi]
        rw [hi] at this
        simp only [this, Res.bind_ok]
      by_cases hN : N = []
      · subst hN
        refine ⟨⟨T, [], err⟩, F + 2, ?_, w', rfl, kk⟩
        intro fuel k hf hk
        obtain ⟨k, rfl⟩ : ∃ k', k = k' + 2 := ⟨k - 2, by omega⟩
        rw [step fuel (k + 1) (by omega)]
        rfl
      · have hlt : mtot (pairs S T) < mtot (pairs S st.graphs) := by
          rcases l1 hN with h1 | h1
          · exact absurd rfl h1
          · exact h1
        obtain ⟨st', F', r', v', i', k'⟩ := ih (mtot (pairs S T)) (by omega) (st := ⟨T, N, err⟩) w' (Nat.le_refl _)
        refine ⟨st', max F F' + 1, ?_, v', i', k'.trans kk⟩
        intro fuel k hf hk
        obtain ⟨k, rfl⟩ : ∃ k', k = k' + 1 := ⟨k - 1, by omega⟩
        rw [step fuel k (by omega)]
        exact r' fuel k (by omega) (by omega)

/-- In a closed graph without circles, dependencies do not need detours through more than edges. -/
theorem edge_trans {g : Graph} (nd : g.nodes.Nodup) (cl : Closed g) (an : Anti g) (ir : ∀ i, ¬ Edge g i i) {x y z : Place}
    (h1 : EdgeP g x y) (h2 : EdgeP g y z) : EdgeP g x z := by
  obtain ⟨i, j, hi, hj, e1⟩ := h1
  obtain ⟨j', k, hj', hk, e2⟩ := h2
  have := at_inj nd hj hj'
  subst this
  have hij : i ≠ j := fun h => ir i (by rw [h] at e1 ⊢; exact e1)
  have hjk : j ≠ k := fun h => ir j (by rw [← h] at e2; exact e2)
  have hik : i ≠ k := fun h => an i j hij e1 (by rw [h]; exact e2)
  exact ⟨i, k, hi, hk, cl i k j hik hij (Ne.symm hjk) e1 e2⟩

/-- At the end, without errors, the graphs have all dependencies. -/
theorem dep_edge {S} (h : SpecOk S) {L : List (Production × Graph)} (v : RInv S [] [] [] L 0)
    (hL : ∀ p, Production.In S p → ∃ g, (p, g) ∈ L) {p x y} (hd : Dep S p x y) : ∀ g, (p, g) ∈ L → EdgeP g x y := by
  have cm := v.comp rfl
  induction hd with
  | direct hp hd => exact fun g hg => (cm.full _ (by simpa using hg)).2.2 _ _ hd
  | trans _ _ ih1 ih2 =>
    intro g hg
    obtain ⟨cl, an, _⟩ := cm.full _ (by simpa using hg)
    obtain ⟨ok, _⟩ := v.good _ (by simpa using hg)
    exact edge_trans ok.nodup cl an ok.irrefl (ih1 g hg) (ih2 g hg)
  | @induced p q o o' t a b hd hs hq ha hb ih =>
    intro g hg
    have hp := dep_in hd
    obtain ⟨g0, hg0⟩ := hL p hp
    obtain ⟨ok, pl⟩ := v.good _ (by simpa using hg)
    have hE := ih g0 hg0
    have ty : get_node_type S o = t := type_sym h.toChecked hp hs
    have ty' : get_node_type S o' = t := type_sym h.toChecked hq (has_sym ha)
    have := cm.cov _ (by simpa using hg0) (o, a) (o, b) rfl hE
    rcases this with h1 | ⟨_, h1 | h1⟩
    · cases h1
    · cases h1
    · have h2 := h1 (q, g) (by simpa using hg) (o', a) (pl.has _ _ _ ha)
      exact h2 (by simp [conv, ty, ty']) (pl.has _ _ _ ha) (pl.has _ _ _ hb)

end Verif.Induce
