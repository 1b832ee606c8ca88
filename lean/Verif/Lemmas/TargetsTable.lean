import Verif.Lemmas.Targets
import Verif.Lemmas.TargetsRun
import Verif.Lemmas.Compiled

/-!
# Lemmas about the table of tables of a description
-/

namespace Verif.Targets
open Verif.Str Verif.Ids Verif.Grammar Verif.Tables Verif.Trav Verif.Semantic
open Verif.Spec.Semantic (Earlier)
open Verif.Spec.Targets
open Verif.Spec.Graph (Path)
open Verif.Spec.Compiled (Free)

variable {A : Parse.Ast} {tab : List (Ste Decl)}

theorem link_ok {code : CStr → Addr → Prog} {ts : List Table} (hd : (ts.map (·.name)).Nodup) :
    ∀ {names : List CStr}, (∀ n ∈ names, ∃ t ∈ ts, t.name = n) → ∃ L, link code ts names = .ok L ∧
      ∀ (j : Nat) t, t ∈ ts → names[j]? = some t.name → L[j]? = some (t.entries.map (funOf code))
  | [], _ => ⟨[], rfl, fun j t _ h => by cases h⟩
  | n :: rest, hn => by
    obtain ⟨L, h1, h2⟩ := link_ok (code := code) hd (names := rest) (fun n h => hn n (List.mem_cons_of_mem _ h))
    obtain ⟨t, h3, rfl⟩ := hn n (List.mem_cons_self ..)
    refine ⟨t.entries.map (funOf code) :: L, by rw [link, find_table hd h3]; simp only [h1, Res.bind_ok], fun j t' h4 h5 => ?_⟩
    cases j with
    | zero =>
      simp only [List.getElem?_cons_zero, Option.some.injEq] at h5
      have e1 := find_table hd h3
      have e2 := find_table hd h4
      rw [h5, e2] at e1
      cases e1
      rfl
    | succ j => exact h2 j t' h4 h5

theorem names_found {hs : List (List Reach.Handler)} (hl : hs.length = A.traversals.length) :
    ∀ n ∈ DGTTast (Compiled.declsOf A), ∃ t ∈ DGTVast (nameOf A) (Compiled.declsOf A).travs hs ++ DGSTast (Compiled.declsOf A).nodes,
      t.name = n := by
  intro n hn
  obtain ⟨j, hj⟩ := List.getElem?_of_mem hn
  have sys : ∀ pre name, GenSystemTraversalVtable pre name (Compiled.declsOf A).nodes ∈ DGSTast (Compiled.declsOf A).nodes →
      n = sCcn ++ name ++ sVtable → ∃ t ∈ DGTVast (nameOf A) (Compiled.declsOf A).travs hs ++ DGSTast (Compiled.declsOf A).nodes,
        t.name = n := fun pre name h e => ⟨_, List.mem_append_right _ h, e.symm⟩
  rw [DGTTast, travTable_map] at hn
  simp only [List.cons_append, List.mem_cons, List.mem_append, List.mem_map, List.not_mem_nil, or_false] at hn
  rcases hn with e | ⟨t, ht, e⟩ | e | e | e
  · exact sys none sError (by simp [DGSTast]) e
  · obtain ⟨k, hk⟩ := List.getElem?_of_mem ht
    have hk' : k < hs.length := by
      have := (List.getElem?_eq_some_iff.1 hk).1
      simp only [Compiled.declsOf, List.length_map] at this
      omega
    exact ⟨_, List.mem_append_left _ (user_mem (names := nameOf A) hk (List.getElem?_eq_getElem hk')), e⟩
  · exact sys (some sDEL) sFree (by simp [DGSTast]) e
  · exact sys (some sCHK) sCheck (by simp [DGSTast]) e
  · exact sys (some sCPY) sCopy (by simp [DGSTast]) e

theorem own_eq (code : CStr → Addr → Prog) (pre name : CStr) :
    (GenSystemTraversalVtable (some pre) name (Compiled.declsOf A).nodes).entries.map (funOf code) = own A code pre := by
  rw [GenSystemTraversalVtable, system_map]
  simp only [Compiled.declsOf, own, List.map_cons, List.map_map, funOf]
  rfl

theorem error_eq (code : CStr → Addr → Prog) :
    (GenSystemTraversalVtable none sError (Compiled.declsOf A).nodes).entries.map (funOf code) = TRAVerror :: A.nodes.map fun _ => TRAVerror := by
  rw [GenSystemTraversalVtable, system_map]
  simp only [Compiled.declsOf, List.map_cons, List.map_map, funOf]
  rfl

theorem cut_row {code : CStr → Addr → Prog} {t : Parse.Traversal} {es : List Reach.Handler} (hl : es.length = A.nodes.length)
    (h : ∀ (k : Nat) n, A.nodes[k]? = some n → ∃ f, es[k]? = some f ∧ Spec.Targets.Entry A t k n (render (idOf t.uid).upr (nameOf A) f))
    {k : Nat} {g : Addr → Prog} (hk : (row A code t)[k]? = some g) :
    ∃ g', (((Reach.Handler.error :: es).map (render (idOf t.uid).upr (nameOf A))).map (funOf code))[k]? = some g' ∧
      Cut A (row A code t) k g g' := by
  cases k with
  | zero =>
    rw [row] at hk
    cases hk
    exact ⟨TRAVerror, rfl, .same _⟩
  | succ k =>
    have rowk : ∀ (q : Nat) n, A.nodes[q]? = some n → ¬ Target t A n → (row A code t)[q + 1]? = some (through A q) := fun q n hq hn => by
      simp only [row, List.getElem?_cons_succ, List.getElem?_mapIdx, hq, Option.map_some, if_neg hn]
    have hk0 := hk
    simp only [row, List.getElem?_cons_succ, List.getElem?_mapIdx, Option.map_eq_some_iff] at hk
    obtain ⟨n, hn, rfl⟩ := hk
    obtain ⟨f, h1, h2⟩ := h k n hn
    refine ⟨funOf code (render (idOf t.uid).upr (nameOf A) f), by simp [h1], ?_⟩
    by_cases ht : Target t A n
    · rw [if_pos ht, h2.user ht]
      exact .same _
    · rw [if_neg ht]
      rcases h2.other ht with e | e
      · rw [e]
        exact .children k
      · rw [e]
        refine .skip (U := fun q => ∃ n, A.nodes[q]? = some n ∧ ¬ Target t A n ∧
          ¬ ∃ j m, A.nodes[j]? = some m ∧ Target t A m ∧ Path (Below A) q j) k rfl ⟨n, hn, ht, fun hp => ?_⟩ ?_
        · have := h2.through ht hp
          rw [this] at e
          cases e
        · rintro q ⟨nq, g1, g2, g3⟩
          refine ⟨nq, g1, rowk q nq g1 g2, fun c hc q' n' g4 g5 => ?_⟩
          have hb : Below A q q' := ⟨nq, n', g1, g4, c, hc, g5⟩
          refine ⟨n', g4, fun ht' => g3 ⟨q', n', g4, ht', .edge hb⟩, ?_⟩
          rintro ⟨j, m, g6, g7, g8⟩
          exact g3 ⟨j, m, g6, g7, .step hb g8⟩

theorem vtable_ok (h : Right A tab) (he : Earlier A) (hn : Numbered A) (ha : Aimed A) (hf : Free A) :
    ∃ N, ∀ fuel, N ≤ fuel → ∀ code, ∃ V, vtable code fuel A tab = .ok V ∧ Shortcut A (table A code) V ∧
      ∀ (j : Nat) t, A.traversals[j]? = some t → ∃ r, V[j + 1]? = some r ∧ ∀ (k : Nat) n, A.nodes[k]? = some n → ∃ f,
        r[k + 1]? = some (funOf code f) ∧ Spec.Targets.Entry A t k n f := by
  obtain ⟨N, hN⟩ := tables_ok h he hn ha
  refine ⟨N, fun fuel hfu code => ?_⟩
  obtain ⟨hs, h1, h2, h3⟩ := hN fuel hfu
  have hl : hs.length = (Compiled.declsOf A).travs.length := by simp [Compiled.declsOf, h2]
  have hnd := Props.table_names_nodup (Compiled.named_of h hf) (names := nameOf A) hl
  obtain ⟨L, h4, h5⟩ := link_ok (code := code) hnd (names_found h2)
  have user : ∀ (j : Nat) t, A.traversals[j]? = some t → ∃ es, hs[j]? = some (.error :: es) ∧
      L[j + 1]? = some (((Reach.Handler.error :: es).map (render (idOf t.uid).upr (nameOf A))).map (funOf code)) ∧
      es.length = A.nodes.length ∧ ∀ (k : Nat) n, A.nodes[k]? = some n → ∃ f, es[k]? = some f ∧
        Spec.Targets.Entry A t k n (render (idOf t.uid).upr (nameOf A) f) := fun j t ht => by
    obtain ⟨es, g1, g2, g3⟩ := h3 j t ht
    have htd : (Compiled.declsOf A).travs[j]? = some ⟨idOf t.name, idOf t.uid, t.index, !t.data.isEmpty⟩ := by
      simp [Compiled.declsOf, ht]
    exact ⟨es, g1, h5 (j + 1) _ (List.mem_append_left _ (user_mem (names := nameOf A) htd g1)) (Props.vtable_user htd), g2, g3⟩
  refine ⟨L, by rw [vtable, h1, Res.bind_ok, h4], ?_, fun j t ht => ?_⟩
  rotate_left
  · obtain ⟨es, g1, g2, _, g3⟩ := user j t ht
    refine ⟨_, g2, fun k n hk => ?_⟩
    obtain ⟨f, g4, g5⟩ := g3 k n hk
    exact ⟨_, by simp [g4], g5⟩
  have whole : ∀ (j : Nat) (r r' : List (Addr → Prog)), L[j]? = some r' → r' = r → ∃ r', L[j]? = some r' ∧
      ∀ (k : Nat) h, r[k]? = some h → ∃ h', r'[k]? = some h' ∧ Cut A r k h h' := fun j r r' h6 e => by
    subst e
    exact ⟨r', h6, fun k h hk => ⟨h, hk, .same _⟩⟩
  have sys : ∀ j pre name, GenSystemTraversalVtable pre name (Compiled.declsOf A).nodes ∈ DGSTast (Compiled.declsOf A).nodes →
      [sCcn ++ sFree ++ sVtable, sCcn ++ sCheck ++ sVtable, sCcn ++ sCopy ++ sVtable][j]? = some (sCcn ++ name ++ sVtable) →
      L[A.traversals.length + 1 + j]? = some ((GenSystemTraversalVtable pre name (Compiled.declsOf A).nodes).entries.map (funOf code)) :=
    fun j pre name g1 g2 => by
    refine h5 _ _ (List.mem_append_right _ g1) ?_
    have := Props.vtable_system (a := Compiled.declsOf A) j
    simp only [Compiled.declsOf, List.length_map] at this
    rw [g2] at this
    exact this
  intro j r hj
  rw [table] at hj
  cases j with
  | zero =>
    cases hj
    exact whole 0 _ _ (h5 0 _ (List.mem_append_right _ (by simp [DGSTast] : GenSystemTraversalVtable none sError _ ∈ _)) rfl) (error_eq code)
  | succ j =>
    simp only [List.cons_append, List.getElem?_cons_succ] at hj
    by_cases hlt : j < A.traversals.length
    · rw [List.getElem?_append_left (by simpa using hlt), List.getElem?_map, Option.map_eq_some_iff] at hj
      obtain ⟨t, ht, rfl⟩ := hj
      obtain ⟨es, _, g1, g2, g3⟩ := user j t ht
      exact ⟨_, g1, fun k g hk => cut_row g2 g3 hk⟩
    · rw [List.getElem?_append_right (by simp; omega)] at hj
      simp only [List.length_map] at hj
      obtain ⟨i, rfl⟩ : ∃ i, j = A.traversals.length + i := ⟨j - A.traversals.length, by omega⟩
      rw [Nat.add_sub_cancel_left] at hj
      have e : A.traversals.length + i + 1 = A.traversals.length + 1 + i := by omega
      rw [e]
      match i, hj with
      | 0, hj =>
        cases hj
        exact whole _ _ _ (sys 0 (some sDEL) sFree (by simp [DGSTast]) rfl) (own_eq code _ _)
      | 1, hj =>
        cases hj
        exact whole _ _ _ (sys 1 (some sCHK) sCheck (by simp [DGSTast]) rfl) (own_eq code _ _)
      | 2, hj =>
        cases hj
        exact whole _ _ _ (sys 2 (some sCPY) sCopy (by simp [DGSTast]) rfl) (own_eq code _ _)

end Verif.Targets
