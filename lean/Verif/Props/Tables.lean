import Verif.Lemmas.Tables
import Verif.Props.Reach

/-!
# Properties C39 and C40: generated tables
-/

namespace Verif.Props
open Verif.Str Verif.Ids Verif.Reach Verif.Tables Verif.Spec.Tables Verif.Spec.Reach Verif.Spec.Graph
open Verif.Propagate (Entry)

theorem table_names_nodup {a : Decls} (hn : Named a) {names : Nat → Id} {tables : List (List Handler)}
    (hl : tables.length = a.travs.length) : ((DGTVast names a.travs tables ++ DGSTast a.nodes).map (·.name)).Nodup := by
  rw [List.map_append, user_names hl]
  exact (distinct_of_named hn).tables

theorem trav_value {a : Decls} (hn : Named a) {k : Nat} {t : Trav} (ht : a.travs[k]? = some t) :
    value (DGEast a).trav (sTRAV ++ t.iprefix.upr) = some (k + 1) := by
  refine value_eq (distinct_of_named hn).travs ?_
  rw [DGEast]
  simp only []
  rw [enum_trav, itraversal_map, getElem?_mid _ _ _ _ (by
    rw [List.length_map]; exact (List.getElem?_eq_some_iff.1 ht).1), List.getElem?_map, ht]
  rfl

theorem node_value {a : Decls} (hn : Named a) {k : Nat} {t : Id} (ht : a.nodes[k]? = some t) :
    value (DGEast a).node (sNT ++ t.upr) = some (k + 1) := by
  refine value_eq (distinct_of_named hn).nodes ?_
  rw [DGEast]
  simp only []
  rw [enum_other (by decide), inode_map, getElem?_mid _ _ _ _ (by
    rw [List.length_map]; exact (List.getElem?_eq_some_iff.1 ht).1), List.getElem?_map, ht]
  rfl

theorem node_null {a : Decls} (hn : Named a) : value (DGEast a).node (sNT ++ sNULL) = some 0 :=
  value_eq (distinct_of_named hn).nodes (by rw [DGEast]; simp only []; rw [enum_other (by decide)]; rfl)

theorem trav_null {a : Decls} (hn : Named a) : value (DGEast a).trav (sTRAV ++ sNULL) = some 0 :=
  value_eq (distinct_of_named hn).travs (by rw [DGEast]; simp only []; rw [enum_trav]; rfl)

/-- The enumerators of the traversals of the system. -/
theorem trav_system {a : Decls} (hn : Named a) (j : Nat) (x : CStr) (hx : [sFree, sCheck, sCpy][j]? = some x) :
    value (DGEast a).trav (sTRAV ++ x) = some (a.travs.length + 1 + j) := by
  refine value_eq (distinct_of_named hn).travs ?_
  rw [DGEast]
  simp only []
  rw [enum_trav, itraversal_map]
  have := getElem?_end (sTRAV ++ sNULL) (a.travs.map fun t => sTRAV ++ t.iprefix.upr)
    [sTRAV ++ sFree, sTRAV ++ sCheck, sTRAV ++ sCpy, 95 :: sTRAV ++ sSIZE] j
  rw [List.length_map] at this
  rw [this]
  match j, hx with
  | 0, hx => cases hx; rfl
  | 1, hx => cases hx; rfl
  | 2, hx => cases hx; rfl

theorem vtable_user {a : Decls} {k : Nat} {t : Trav} (ht : a.travs[k]? = some t) :
    (DGTTast a)[k + 1]? = some (t.name.lwr ++ sVtable) := by
  rw [DGTTast, travTable_map, List.cons_append, getElem?_mid _ _ _ _ (by
    rw [List.length_map]; exact (List.getElem?_eq_some_iff.1 ht).1), List.getElem?_map, ht]
  rfl

theorem vtable_system {a : Decls} (j : Nat) :
    (DGTTast a)[a.travs.length + 1 + j]? = [sCcn ++ sFree ++ sVtable, sCcn ++ sCheck ++ sVtable, sCcn ++ sCopy ++ sVtable][j]? := by
  rw [DGTTast, travTable_map, List.cons_append]
  have := getElem?_end (sCcn ++ sError ++ sVtable) (a.travs.map fun t => t.name.lwr ++ sVtable)
    [sCcn ++ sFree ++ sVtable, sCcn ++ sCheck ++ sVtable, sCcn ++ sCopy ++ sVtable] j
  rw [List.length_map] at this
  exact this

/-- C40: for each user traversal and each node type, the function that `TRAVdo` finds is the handler of the user if the
type is targeted; otherwise it is `TRAVchildren` or `TRAVnop`, and `TRAVchildren` if a targeted type can be below it.  For
`NT_NULL` it is `TRAVerror`.

Missing: names that the generators use themselves (`C40_null_false`), which `Named` excludes. -/
theorem C40_user_partial (a : Decls) (hn : Named a) (env : Env) (r : Resolved env) (fuel : Nat) (hf : env.num < fuel) (n : Nat)
    (ts : List (Nat × List Entry)) (names : Nat → Id) (hnodes : a.nodes = env.nodes.map names)
    (htravs : a.travs.map (·.index) = ts.map (·.1)) (hd : (ts.map (·.1)).Nodup) (hlt : ∀ i l, (i, l) ∈ ts → i < n)
    (hl : ∀ i l, (i, l) ∈ ts → ∀ e, e ∈ l → ∃ k, e = .node k ∧ k < env.num) (s : RS) :
    ∃ rows tables, RCBast env fuel n ts (fun _ => none) s = .ok rows ∧ DGTVitraversal env rows (a.travs.map (·.index)) = .ok tables ∧
      ∀ (k : Nat) t i l, a.travs[k]? = some t → ts[k]? = some (i, l) → ∃ x,
        value (DGEast a).trav (sTRAV ++ t.iprefix.upr) = some x ∧
        (∀ z, value (DGEast a).node (sNT ++ sNULL) = some z →
          travFunc (DGTTast a) (DGTVast names a.travs tables ++ DGSTast a.nodes) x z = .ok .travError) ∧
        ∀ v, v < env.num → ∃ y f, value (DGEast a).node (sNT ++ (names v).upr) = some y ∧
          travFunc (DGTTast a) (DGTVast names a.travs tables ++ DGSTast a.nodes) x y = .ok f ∧
          (l = [] ∨ .node v ∈ l → f = .named (t.iprefix.upr ++ (names v).lwr)) ∧
          (l ≠ [] → .node v ∉ l → (f = .travChildren ∨ f = .travNop) ∧
            ((∃ w, .node w ∈ l ∧ Path (HasChild env) v w) → f = .travChildren)) := by
  obtain ⟨rows, tables, h1, h2, h3, h4⟩ := C28_tables_partial env r fuel hf n ts hd hlt hl s
  have hlen : tables.length = a.travs.length := by
    have := congrArg List.length htravs
    simp only [List.length_map] at this
    omega
  refine ⟨rows, tables, h1, by rw [htravs]; exact h2, fun k t i l ht hts => ?_⟩
  obtain ⟨table, h5, h6, h7⟩ := h4 k i l hts
  have hm := List.mem_append_left (DGSTast a.nodes) (user_mem (names := names) ht h5)
  refine ⟨k + 1, trav_value hn ht, fun z hz => ?_, fun v hv => ?_⟩
  · rw [node_null hn] at hz
    cases hz
    exact travFunc_eq (table_names_nodup hn hlen) hm (vtable_user ht) rfl
  · obtain ⟨p, hp⟩ := List.mem_iff_getElem?.1 ((r.nodes v).2 hv)
    obtain ⟨h, h8, h9⟩ := h7 p v hp
    refine ⟨p + 1, render t.iprefix.upr names h, node_value hn (by rw [hnodes, List.getElem?_map, hp]; rfl),
      travFunc_eq (table_names_nodup hn hlen) hm (vtable_user ht) ?_, fun hu => ?_, fun hne hv => ?_⟩
    · simp only [List.map_cons, List.getElem?_cons_succ, List.getElem?_map, h8, Option.map_some]
    · have : h = .user v := by
        by_cases hl0 : l = []
        · exact h9.2 hl0
        · exact ((h9.1 hl0).user v).2 ⟨rfl, hu.resolve_left hl0⟩
      rw [this]
      rfl
    · have te := h9.1 hne
      refine ⟨?_, fun hp => ?_⟩
      · cases h with
        | error => exact absurd rfl te.notError
        | user k => exact absurd ((te.user k).1 rfl).2 hv
        | children => exact .inl rfl
        | nop => exact .inr rfl
      · rw [te.through hv hp]
        rfl

/-- C40: the traversals of the system. -/
theorem C40_system_partial (a : Decls) (hn : Named a) (names : Nat → Id) (tables : List (List Handler))
    (hl : tables.length = a.travs.length) (x pre : CStr) (hx : (x, pre) ∈ [(sFree, sDEL), (sCheck, sCHK), (sCpy, sCPY)]) :
    ∃ i, value (DGEast a).trav (sTRAV ++ x) = some i ∧
      (∀ z, value (DGEast a).node (sNT ++ sNULL) = some z →
        travFunc (DGTTast a) (DGTVast names a.travs tables ++ DGSTast a.nodes) i z = .ok .travError) ∧
      ∀ v, v ∈ a.nodes → ∃ j, value (DGEast a).node (sNT ++ v.upr) = some j ∧
        travFunc (DGTTast a) (DGTVast names a.travs tables ++ DGSTast a.nodes) i j = .ok (.named (pre ++ v.lwr)) := by
  have key : ∀ (j : Nat) name, [sFree, sCheck, sCpy][j]? = some x → [sFree, sCheck, sCopy][j]? = some name →
      GenSystemTraversalVtable (some pre) name a.nodes ∈ DGSTast a.nodes →
      [sCcn ++ sFree ++ sVtable, sCcn ++ sCheck ++ sVtable, sCcn ++ sCopy ++ sVtable][j]? =
        some (GenSystemTraversalVtable (some pre) name a.nodes).name →
      ∃ i, value (DGEast a).trav (sTRAV ++ x) = some i ∧
      (∀ z, value (DGEast a).node (sNT ++ sNULL) = some z →
        travFunc (DGTTast a) (DGTVast names a.travs tables ++ DGSTast a.nodes) i z = .ok .travError) ∧
      ∀ v, v ∈ a.nodes → ∃ j, value (DGEast a).node (sNT ++ v.upr) = some j ∧
        travFunc (DGTTast a) (DGTVast names a.travs tables ++ DGSTast a.nodes) i j = .ok (.named (pre ++ v.lwr)) := by
    intro j name h1 _ h3 h4
    have hm := List.mem_append_right (DGTVast names a.travs tables) h3
    refine ⟨_, trav_system hn j x h1, fun z hz => ?_, fun v hv => ?_⟩
    · rw [node_null hn] at hz
      cases hz
      exact travFunc_eq (table_names_nodup hn hl) hm (by rw [vtable_system, h4]) rfl
    · obtain ⟨p, hp⟩ := List.mem_iff_getElem?.1 hv
      refine ⟨p + 1, node_value hn hp, travFunc_eq (table_names_nodup hn hl) hm (by rw [vtable_system, h4]) ?_⟩
      rw [GenSystemTraversalVtable, system_map]
      simp only [List.getElem?_cons_succ, List.getElem?_map, hp, Option.map_some]
  simp only [List.mem_cons, Prod.mk.injEq, List.not_mem_nil, or_false] at hx
  rcases hx with ⟨rfl, rfl⟩ | ⟨rfl, rfl⟩ | ⟨rfl, rfl⟩
  · exact key 0 sFree rfl rfl (by simp [DGSTast]) rfl
  · exact key 1 sCheck rfl rfl (by simp [DGSTast]) rfl
  · exact key 2 sCopy rfl rfl (by simp [DGSTast]) rfl

/-- C40: without a traversal every node type is an error. -/
theorem C40_error_partial (a : Decls) (hn : Named a) (names : Nat → Id) (tables : List (List Handler))
    (hl : tables.length = a.travs.length) :
    value (DGEast a).trav (sTRAV ++ sNULL) = some 0 ∧ ∀ j, j < a.nodes.length + 1 →
      travFunc (DGTTast a) (DGTVast names a.travs tables ++ DGSTast a.nodes) 0 j = .ok .travError := by
  refine ⟨trav_null hn, fun j hj => ?_⟩
  refine travFunc_eq (table_names_nodup hn hl) (t := GenSystemTraversalVtable none sError a.nodes)
    (List.mem_append_right _ (by simp [DGSTast])) rfl ?_
  rw [GenSystemTraversalVtable, system_map]
  cases j with
  | zero => rfl
  | succ j =>
    have : j < a.nodes.length := by omega
    simp [this]

/-- C40: constructors and destructors of traversal data. -/
theorem C40_data_partial (a : Decls) (hn : Named a) (init : Bool) :
    (∀ t, t ∈ a.travs → ∃ i, value (DGEast a).trav (sTRAV ++ t.iprefix.upr) = some i ∧
      (DGTDTast init a)[i]? = some (if t.data = true then .named (sData init ++ t.name.orig) else .dataNop)) ∧
    ∀ x, x ∈ [sNULL, sFree, sCheck, sCpy] → ∃ i, value (DGEast a).trav (sTRAV ++ x) = some i ∧
      (DGTDTast init a)[i]? = some .dataNop := by
  rw [DGTDTast, data_map, List.cons_append]
  constructor
  · intro t ht
    obtain ⟨k, hk⟩ := List.mem_iff_getElem?.1 ht
    refine ⟨k + 1, trav_value hn hk, ?_⟩
    rw [getElem?_mid _ _ _ _ (by rw [List.length_map]; exact (List.getElem?_eq_some_iff.1 hk).1), List.getElem?_map, hk]
    cases h : t.data <;> simp [h]
  · have sys : ∀ (j : Nat) x, [sFree, sCheck, sCpy][j]? = some x → ∃ i, value (DGEast a).trav (sTRAV ++ x) = some i ∧
        (Fun.dataNop :: (a.travs.map (fun t => match t.data with
          | true => Fun.named (sData init ++ t.name.orig)
          | false => Fun.dataNop) ++ [Fun.dataNop, .dataNop, .dataNop]))[i]? = some .dataNop := by
      intro j x hx
      refine ⟨_, trav_system hn j x hx, ?_⟩
      have := getElem?_end Fun.dataNop (a.travs.map (fun t => match t.data with
          | true => Fun.named (sData init ++ t.name.orig)
          | false => Fun.dataNop)) [Fun.dataNop, .dataNop, .dataNop] j
      rw [List.length_map] at this
      rw [this]
      match j, hx with
      | 0, _ => rfl
      | 1, _ => rfl
      | 2, _ => rfl
    intro x hx
    simp only [List.mem_cons, List.not_mem_nil, or_false] at hx
    rcases hx with rfl | rfl | rfl | rfl
    · exact ⟨0, trav_null hn, rfl⟩
    · exact sys 0 _ rfl
    · exact sys 1 _ rfl
    · exact sys 2 _ rfl

/-- C40: passes. -/
theorem C40_pass_partial (a : Decls) (hn : Named a) :
    (∀ p, p ∈ a.passes → ∃ i, value (DGEast a).pass (sPASS ++ p.name.upr) = some i ∧
      (DGPTast a)[i]? = some (.named (match p.func, p.iprefix with
        | some f, _ => f.orig
        | none, some u => u.upr ++ p.name.orig
        | none, none => p.name.orig))) ∧
    ∃ i, value (DGEast a).pass (sPASS ++ sNULL) = some i ∧ (DGPTast a)[i]? = some .passError := by
  rw [DGPTast, passTable_map]
  constructor
  · intro p hp
    obtain ⟨k, hk⟩ := List.mem_iff_getElem?.1 hp
    refine ⟨k + 1, value_eq (distinct_of_named hn).passes ?_, ?_⟩
    · rw [DGEast]
      simp only []
      rw [enum_other (by decide), ipass_map, getElem?_mid _ _ _ _ (by
        rw [List.length_map]; exact (List.getElem?_eq_some_iff.1 hk).1), List.getElem?_map, hk]
      rfl
    · rw [List.getElem?_cons_succ, List.getElem?_map, hk]
      rfl
  · exact ⟨0, value_eq (distinct_of_named hn).passes (by rw [DGEast]; simp only []; rw [enum_other (by decide)]; rfl), rfl⟩

/-- C40: the tables have as many entries as they are declared with. -/
theorem C40_sizes_partial (a : Decls) (hn : Named a) (init : Bool) :
    value (DGEast a).trav (95 :: sTRAV ++ sSIZE) = some (DGTTast a).length ∧
    (DGTDTast init a).length = (DGTTast a).length ∧
    value (DGEast a).pass (95 :: sPASS ++ sSIZE) = some (DGPTast a).length ∧
    ∀ t, t ∈ DGSTast a.nodes → value (DGEast a).node (95 :: sNT ++ sSIZE) = some t.entries.length := by
  refine ⟨?_, ?_, ?_, ?_⟩
  · refine value_eq (distinct_of_named hn).travs ?_
    rw [DGEast]
    simp only []
    rw [enum_trav, itraversal_map, DGTTast, travTable_map, List.cons_append]
    have := getElem?_end (sTRAV ++ sNULL) (a.travs.map fun t => sTRAV ++ t.iprefix.upr)
      [sTRAV ++ sFree, sTRAV ++ sCheck, sTRAV ++ sCpy, 95 :: sTRAV ++ sSIZE] 3
    simp only [List.length_map] at this
    simp only [List.length_cons, List.length_append, List.length_map, List.length_nil]
    rw [show a.travs.length + (0 + 1 + 1 + 1) + 1 = a.travs.length + 1 + 3 by omega]
    exact this
  · rw [DGTDTast, data_map, DGTTast, travTable_map]
    simp
  · refine value_eq (distinct_of_named hn).passes ?_
    rw [DGEast]
    simp only []
    rw [enum_other (by decide), ipass_map, DGPTast, passTable_map]
    have := getElem?_end (sPASS ++ sNULL) (a.passes.map fun t => sPASS ++ t.name.upr) [95 :: sPASS ++ sSIZE] 0
    simp only [List.length_map] at this
    simp only [List.length_cons, List.length_map]
    exact this
  · intro t ht
    have hlen : t.entries.length = a.nodes.length + 1 := by
      simp only [DGSTast, List.mem_cons, List.not_mem_nil, or_false] at ht
      rcases ht with rfl | rfl | rfl | rfl <;> simp [GenSystemTraversalVtable, system_map]
    refine value_eq (distinct_of_named hn).nodes ?_
    rw [DGEast]
    simp only []
    rw [enum_other (by decide), inode_map, hlen]
    have := getElem?_end (sNT ++ sNULL) (a.nodes.map fun t => sNT ++ t.upr) [95 :: sNT ++ sSIZE] 0
    simp only [List.length_map] at this
    exact this

/-- C39 for the declared actions: `CCNgetActionFromID` returns the descriptor of the phase, traversal or pass.

Missing: the ids `check`, `free` and `cleanup` (`C39_system_false`). -/
theorem C39_actions_partial (a : Decls) (hn : Named a) (x : CStr) (d : Action) (h : Describes a x d) :
    ∃ i, value (GAAHast a) x = some i ∧ CCNgetActionFromID a i = .ok d := by
  have hm : d ∈ GAAiphase a.phases ++ (GAAitraversal a.travs ++ GAAipass a.passes) ∧ d.id = x := by
    rw [aphase_map, atrav_map, apass_map]
    cases h with
    | phase h => exact ⟨List.mem_append_left _ (List.mem_map.2 ⟨_, h, rfl⟩), rfl⟩
    | trav h => exact ⟨List.mem_append_right _ (List.mem_append_left _ (List.mem_map.2 ⟨_, h, rfl⟩)), rfl⟩
    | pass h => exact ⟨List.mem_append_right _ (List.mem_append_right _ (List.mem_map.2 ⟨_, h, rfl⟩)), rfl⟩
  obtain ⟨k, hk⟩ := List.mem_iff_getElem?.1 hm.1
  have hlt := (List.getElem?_eq_some_iff.1 hk).1
  refine ⟨k, value_eq (distinct_of_named hn).actions ?_, ?_⟩
  · rw [header_eq, List.getElem?_append_left (by rw [List.length_map]; exact hlt), List.getElem?_map, hk, ← hm.2]
    rfl
  · rw [CCNgetActionFromID, GAAast, List.getElem?_append_left hlt, hk]

/-- C39 is false for the ids of the system, in every specification: `check` gives the descriptor of `free`, `free` gives that
of `cleanup`, and `cleanup` is outside of the array. -/
theorem C39_system_false (a : Decls) (hn : Named a) : ∃ i,
    value (GAAHast a) (sID ++ sCheck) = some i ∧ value (GAAHast a) (sID ++ sFree) = some (i + 1) ∧
    value (GAAHast a) (sID ++ sCleanup) = some (i + 2) ∧
    (∃ d, CCNgetActionFromID a i = .ok d ∧ d.id = sID ++ sFree) ∧
    (∃ d, CCNgetActionFromID a (i + 1) = .ok d ∧ d.id = sID ++ sCleanup) ∧ (CCNgetActionFromID a (i + 2)).isUB = true := by
  have key : ∀ j, (GAAHast a)[(GAAiphase a.phases ++ (GAAitraversal a.travs ++ GAAipass a.passes)).length + j]? =
      [sID ++ sCheck, sID ++ sFree, sID ++ sCleanup, sID ++ sNULL][j]? := by
    intro j
    rw [header_eq, List.getElem?_append_right (by rw [List.length_map]; omega), List.length_map]
    congr 1
    omega
  have arr : ∀ j, (GAAast a)[(GAAiphase a.phases ++ (GAAitraversal a.travs ++ GAAipass a.passes)).length + j]? =
      [(⟨sID ++ sFree, [70, 114, 101, 101], .traversal (sTRAV ++ sFree)⟩ : Action),
        ⟨sID ++ sCleanup, [67, 108, 101, 97, 110, 117, 112], .phase none (sCleanup ++ sIdsTable) false (sID ++ sCleanup)⟩][j]? := by
    intro j
    rw [GAAast, List.getElem?_append_right (by omega)]
    congr 1
    omega
  refine ⟨(GAAiphase a.phases ++ (GAAitraversal a.travs ++ GAAipass a.passes)).length, value_eq (distinct_of_named hn).actions ?_,
    value_eq (distinct_of_named hn).actions ?_, value_eq (distinct_of_named hn).actions ?_, ?_, ?_, ?_⟩
  · exact key 0
  · exact key 1
  · exact key 2
  · have h0 := arr 0
    rw [Nat.add_zero] at h0
    exact ⟨_, by rw [CCNgetActionFromID, h0]; rfl, rfl⟩
  · exact ⟨_, by rw [CCNgetActionFromID, arr 1]; rfl, rfl⟩
  · rw [CCNgetActionFromID, arr 2]
    rfl

/-- C46: the table of a phase lists the enumerators of its actions in order and then `NULL`, if the actions are referred to by
their names. -/
theorem C46_tables_partial (a : Decls) (hn : Named a) (p : Phase) (hp : p ∈ a.phases)
    (href : ∀ r, r ∈ p.actions → r.upr ∈ actionNames a) :
    ∃ t, (p.name.lwr ++ sIdsTable, t) ∈ GITast a ∧ t.length = p.actions.length + 1 ∧
      (∀ (k : Nat) r, p.actions[k]? = some r → ∃ f i d, t[k]? = some f ∧ value (GAAHast a) f = some i ∧
        CCNgetActionFromID a i = .ok d ∧ d.id = sID ++ r.upr) ∧
      t[p.actions.length]? = some (sID ++ sNULL) := by
  refine ⟨GITiactions p.actions ++ [sID ++ sNULL], ?_, by rw [iactions_map]; simp, fun k r hk => ?_, ?_⟩
  · rw [GITast, gitphase_map]
    exact List.mem_cons_of_mem _ (List.mem_map.2 ⟨p, hp, rfl⟩)
  · have hm := href r (List.mem_of_getElem? hk)
    have hd : ∃ d, Describes a (sID ++ r.upr) d ∧ d.id = sID ++ r.upr := by
      rw [actionNames, List.mem_append, List.mem_append, List.mem_map, List.mem_map, List.mem_map] at hm
      rcases hm with ⟨x, hx, he⟩ | ⟨x, hx, he⟩ | ⟨x, hx, he⟩
      · rw [← he]; exact ⟨_, .phase hx, rfl⟩
      · rw [← he]; exact ⟨_, .trav hx, rfl⟩
      · rw [← he]; exact ⟨_, .pass hx, rfl⟩
    obtain ⟨d, hd, hid⟩ := hd
    obtain ⟨i, h1, h2⟩ := C39_actions_partial a hn _ d hd
    refine ⟨_, i, d, ?_, h1, h2, hid⟩
    rw [iactions_map, List.getElem?_append_left (by
      rw [List.length_map]; exact (List.getElem?_eq_some_iff.1 hk).1), List.getElem?_map, hk]
    rfl
  · rw [iactions_map, List.getElem?_append_right (by rw [List.length_map]; omega), List.length_map]
    simp

/-- Phase `s` of traversal `t` (uid `u`) and pass `p`, nodes `x`, `y`. -/
def declsT : Decls :=
  { phases := [⟨mkId [115], none, false, [mkId [116], mkId [112]]⟩]
    travs := [⟨mkId [116], mkId [117], 0, true⟩]
    passes := [⟨mkId [112], none, none⟩]
    nodes := [mkId [121], mkId [120]]
    nodesets := [mkId [109]]
    root := mkId [120] }

theorem namedT : Named declsT := by
  refine ⟨?_, ?_, ?_, ?_, ?_, ?_, ?_, ?_, ?_, ?_, ?_, ?_⟩ <;> decide

/-- The hypotheses hold for the sample, with a node `y` that has a child `x`. -/
example : Named declsT ∧ (∃ env : Env, Resolved env ∧ declsT.nodes = env.nodes.map fun i => if i = 0 then mkId [120] else mkId [121]) ∧
    Describes declsT (sID ++ [84]) ⟨sID ++ [84], [116], .traversal (sTRAV ++ [85])⟩ ∧
    ∀ p, p ∈ declsT.phases → ∀ r, r ∈ p.actions → r.upr ∈ actionNames declsT := by
  refine ⟨namedT, ⟨{ num := 2, nodes := [1, 0], kids := fun i => if i = 1 then [.node 0] else [], sets := [] }, ⟨?_, ?_, ?_⟩, rfl⟩, ?_, by decide⟩
  · intro i
    simp only [List.mem_cons, List.not_mem_nil, or_false]; omega
  · intro i hi c hc
    simp only [] at hc
    split at hc
    · rw [List.mem_singleton] at hc
      exact .inl ⟨0, hc, by decide⟩
    · cases hc
  · intro l hl; cases hl
  · exact .trav (t := ⟨mkId [116], mkId [117], 0, true⟩) (by simp [declsT])

/-- C40 is false for a node with the name `null`, which passes the check for duplicate names: `NT_NULL` is declared twice. -/
theorem C40_null_false : ∃ a : Decls, (∃ tab, BSTast { nodes := a.nodes, nodesets := [] } = .ok tab ∧ tab.length = a.nodes.length) ∧
    ¬ (DGEast a).node.Nodup := by
  refine ⟨{ declsT with nodes := [mkId [110, 117, 108, 108], mkId [120]] }, ⟨_, rfl, by decide⟩, by decide⟩

/-- C46 is false if an action is referred to by its uid, which the symbol table knows too: the name in the table is not
declared. -/
theorem C46_uid_false : ∃ a : Decls, Named a ∧ ∃ p, p ∈ a.phases ∧ (∀ r, r ∈ p.actions → ∃ t, t ∈ a.travs ∧ r = t.iprefix) ∧
    ∃ t f, (p.name.lwr ++ sIdsTable, t) ∈ GITast a ∧ f ∈ t ∧ value (GAAHast a) f = none := by
  refine ⟨{ declsT with phases := [⟨mkId [115], none, false, [mkId [117]]⟩] }, ?_, _, List.mem_cons_self, ?_,
    [sID ++ [85], sID ++ sNULL], sID ++ [85], ?_, List.mem_cons_self, by decide⟩
  · refine ⟨?_, ?_, ?_, ?_, ?_, ?_, ?_, ?_, ?_, ?_, ?_, ?_⟩ <;> decide
  · intro r hr
    rw [List.mem_singleton] at hr
    exact ⟨⟨mkId [116], mkId [117], 0, true⟩, by simp [declsT], hr⟩
  · exact List.mem_cons_of_mem _ List.mem_cons_self

end Verif.Props
