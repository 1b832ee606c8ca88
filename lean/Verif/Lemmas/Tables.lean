import Verif.Spec.Tables

/-!
# Lemmas about enumerations and tables
-/

namespace Verif.Tables
open Verif.Str Verif.Ids Verif.Reach Verif.Spec.Tables

theorem value_eq {e : List CStr} (hd : e.Nodup) {k : Nat} {f : CStr} (h : e[k]? = some f) : value e f = some k := by
  induction e generalizing k with
  | nil => cases h
  | cons x rest ih =>
    rw [List.nodup_cons] at hd
    rw [value, List.findIdx?_cons]
    cases k with
    | zero =>
      simp only [List.getElem?_cons_zero, Option.some.injEq] at h
      simp [h]
    | succ k =>
      rw [List.getElem?_cons_succ] at h
      have hne : x ≠ f := fun he => hd.1 (he ▸ List.mem_of_getElem? h)
      have := ih hd.2 h
      rw [value] at this
      simp [hne, this]

theorem inode_map (l : List Id) : DGEinode l = l.map fun n => sNT ++ n.upr := by
  induction l with
  | nil => rfl
  | cons x r ih => rw [DGEinode, ih]; rfl

theorem inodeset_map (l : List Id) : DGEinodeset l = l.map fun n => sNS ++ n.upr := by
  induction l with
  | nil => rfl
  | cons x r ih => rw [DGEinodeset, ih]; rfl

theorem itraversal_map (l : List Trav) : DGEitraversal l = l.map fun t => sTRAV ++ t.iprefix.upr := by
  induction l with
  | nil => rfl
  | cons x r ih => rw [DGEitraversal, ih]; rfl

theorem ipass_map (l : List Pass) : DGEipass l = l.map fun p => sPASS ++ p.name.upr := by
  induction l with
  | nil => rfl
  | cons x r ih => rw [DGEipass, ih]; rfl

theorem system_map (pre : Option CStr) (l : List Id) : DGSTinode pre l = l.map fun n => match pre with
    | none => .travError
    | some p => .named (p ++ n.lwr) := by
  induction l with
  | nil => rfl
  | cons x r ih => cases pre <;> simp only [DGSTinode, ih, List.map_cons]

theorem travTable_map (l : List Trav) : DGTTitraversal l = l.map fun t => t.name.lwr ++ sVtable := by
  induction l with
  | nil => rfl
  | cons x r ih => rw [DGTTitraversal, ih]; rfl

theorem data_map (init : Bool) (l : List Trav) : DGTDTitraversal init l = l.map fun t => match t.data with
    | true => .named (sData init ++ t.name.orig)
    | false => .dataNop := by
  induction l with
  | nil => rfl
  | cons x r ih => rw [DGTDTitraversal, ih]; rfl

theorem passTable_map (l : List Pass) : DGPTipass l = l.map fun p => .named (DGHpassFuncName p) := by
  induction l with
  | nil => rfl
  | cons x r ih => rw [DGPTipass, ih]; rfl

/-- The enumeration without its parts for traversals. -/
theorem enum_other {pre : CStr} (h : STReq (some sTRAV) (some pre) = false) (fields : List CStr) :
    do_enum fields pre = (pre ++ sNULL) :: (fields ++ [95 :: pre ++ sSIZE]) := by
  rw [do_enum]; simp only [h, List.cons_append, List.append_nil]

theorem enum_trav (fields : List CStr) :
    do_enum fields sTRAV = (sTRAV ++ sNULL) :: (fields ++ [sTRAV ++ sFree, sTRAV ++ sCheck, sTRAV ++ sCpy, 95 :: sTRAV ++ sSIZE]) := by
  rw [do_enum, show STReq (some sTRAV) (some sTRAV) = true by decide]
  simp only [List.cons_append, List.append_assoc, List.nil_append]

/-- Entries after the first. -/
theorem getElem?_mid {α : Type} (x : α) (l r : List α) (k : Nat) (h : k < l.length) : (x :: (l ++ r))[k + 1]? = l[k]? := by
  rw [List.getElem?_cons_succ, List.getElem?_append_left h]

theorem getElem?_end {α : Type} (x : α) (l r : List α) (k : Nat) : (x :: (l ++ r))[l.length + 1 + k]? = r[k]? := by
  rw [show l.length + 1 + k = (l.length + k) + 1 by omega, List.getElem?_cons_succ, List.getElem?_append_right (by omega)]
  congr 1
  omega

theorem find_table {tables : List Table} (hd : (tables.map (·.name)).Nodup) {t : Table} (h : t ∈ tables) :
    tables.find? (fun x => decide (x.name = t.name)) = some t := by
  induction tables with
  | nil => cases h
  | cons x rest ih =>
    rw [List.map_cons, List.nodup_cons] at hd
    rw [List.find?_cons]
    rcases List.mem_cons.1 h with rfl | h
    · simp
    · have hne : x.name ≠ t.name := fun he => hd.1 (by rw [he]; exact List.mem_map_of_mem h)
      simp only [hne, decide_false]
      exact ih hd.2 h

theorem travFunc_eq {vtable : List CStr} {tables : List Table} (hd : (tables.map (·.name)).Nodup) {t : Table} (h : t ∈ tables)
    {k j : Nat} {f : Fun} (hk : vtable[k]? = some t.name) (hj : t.entries[j]? = some f) : travFunc vtable tables k j = .ok f := by
  rw [travFunc, hk]
  simp only [find_table hd h, hj]

theorem user_mem {names : Nat → Id} {ts : List Trav} {hs : List (List Handler)} {k : Nat} {t : Trav} {h : List Handler}
    (ht : ts[k]? = some t) (hh : hs[k]? = some h) :
    { name := t.name.lwr ++ sVtable, entries := h.map (render t.iprefix.upr names) } ∈ DGTVast names ts hs := by
  induction ts generalizing hs k with
  | nil => cases ht
  | cons x rest ih =>
    cases hs with
    | nil => cases hh
    | cons y hs =>
      rw [DGTVast]
      cases k with
      | zero =>
        simp only [List.getElem?_cons_zero, Option.some.injEq] at ht hh
        subst ht hh
        exact List.mem_cons_self
      | succ k => exact List.mem_cons_of_mem _ (ih ht hh)

theorem user_names {names : Nat → Id} {ts : List Trav} {hs : List (List Handler)} (h : hs.length = ts.length) :
    (DGTVast names ts hs).map (·.name) = ts.map fun t => t.name.lwr ++ sVtable := by
  induction ts generalizing hs with
  | nil => simp [DGTVast]
  | cons x rest ih =>
    cases hs with
    | nil => cases h
    | cons y hs => rw [DGTVast, List.map_cons, List.map_cons, ih (by simpa using h)]

theorem hphase_map (l : List Phase) : GAAHiphase l = l.map fun p => sID ++ p.name.upr := by
  induction l with
  | nil => rfl
  | cons x r ih => rw [GAAHiphase, ih]; rfl

theorem htrav_map (l : List Trav) : GAAHitraversal l = l.map fun p => sID ++ p.name.upr := by
  induction l with
  | nil => rfl
  | cons x r ih => rw [GAAHitraversal, ih]; rfl

theorem hpass_map (l : List Pass) : GAAHipass l = l.map fun p => sID ++ p.name.upr := by
  induction l with
  | nil => rfl
  | cons x r ih => rw [GAAHipass, ih]; rfl

theorem aphase_map (l : List Phase) : GAAiphase l = l.map fun p =>
    { id := sID ++ p.name.upr, name := p.name.orig
      body := .phase (p.gate.map (·.orig)) (p.name.lwr ++ sIdsTable) p.cycle (sID ++ p.name.upr) } := by
  induction l with
  | nil => rfl
  | cons x r ih => rw [GAAiphase, ih]; rfl

theorem atrav_map (l : List Trav) : GAAitraversal l = l.map fun t =>
    { id := sID ++ t.name.upr, name := t.name.orig, body := .traversal (sTRAV ++ t.iprefix.upr) } := by
  induction l with
  | nil => rfl
  | cons x r ih => rw [GAAitraversal, ih]; rfl

theorem apass_map (l : List Pass) : GAAipass l = l.map fun p =>
    { id := sID ++ p.name.upr, name := p.name.orig, body := .pass (sPASS ++ p.name.upr) } := by
  induction l with
  | nil => rfl
  | cons x r ih => rw [GAAipass, ih]; rfl

theorem iactions_map (l : List Id) : GITiactions l = l.map fun r => sID ++ r.upr := by
  induction l with
  | nil => rfl
  | cons x r ih => rw [GITiactions, ih]; rfl

theorem gitphase_map (l : List Phase) :
    GITiphase l = l.map fun p => (p.name.lwr ++ sIdsTable, GITiactions p.actions ++ [sID ++ sNULL]) := by
  induction l with
  | nil => rfl
  | cons x r ih => rw [GITiphase, ih]; rfl

/-- The ids of all declared actions, in order. -/
theorem header_eq (a : Decls) : GAAHast a = (GAAiphase a.phases ++ (GAAitraversal a.travs ++ GAAipass a.passes)).map (·.id) ++
    [sID ++ sCheck, sID ++ sFree, sID ++ sCleanup, sID ++ sNULL] := by
  rw [GAAHast, hphase_map, htrav_map, hpass_map, aphase_map, atrav_map, apass_map]
  simp [Function.comp_def]

theorem nodup_prefix {l : List CStr} (h : l.Nodup) (p : CStr) : (l.map (p ++ ·)).Nodup := by
  rw [List.Nodup, List.pairwise_map]
  exact h.imp fun hab he => hab (List.append_cancel_left he)

theorem nodup_suffix {l : List CStr} (h : l.Nodup) (p : CStr) : (l.map (· ++ p)).Nodup := by
  rw [List.Nodup, List.pairwise_map]
  exact h.imp fun hab he => hab (List.append_cancel_right he)

theorem mem_prefix {l : List CStr} {p x : CStr} : p ++ x ∈ l.map (p ++ ·) ↔ x ∈ l := by
  rw [List.mem_map]
  constructor
  · rintro ⟨y, h, he⟩
    rw [← List.append_cancel_left he]; exact h
  · exact fun h => ⟨x, h, rfl⟩

theorem mem_suffix {l : List CStr} {p x : CStr} : x ++ p ∈ l.map (· ++ p) ↔ x ∈ l := by
  rw [List.mem_map]
  constructor
  · rintro ⟨y, h, he⟩
    rw [← List.append_cancel_right he]; exact h
  · exact fun h => ⟨x, h, rfl⟩

/-- An enumeration with a prefix that does not begin with an underscore. -/
theorem enum_nodup {l own : List CStr} (hl : l.Nodup) (ho : own.Nodup) (h : ∀ x, x ∈ l → x ∉ sNULL :: own) (hn : sNULL ∉ own)
    (c : UInt8) (hc : c ≠ 95) (p : CStr) :
    ((c :: p ++ sNULL) :: (l.map (c :: p ++ ·) ++ (own.map (c :: p ++ ·) ++ [95 :: c :: p ++ sSIZE]))).Nodup := by
  have key : (sNULL :: (l ++ own)).Nodup := by
    rw [List.nodup_cons, List.nodup_append]
    refine ⟨fun hm => ?_, hl, ho, fun a ha b hb he => ?_⟩
    · rcases List.mem_append.1 hm with hm | hm
      · exact h _ hm List.mem_cons_self
      · exact hn hm
    · subst he
      exact h a ha (List.mem_cons_of_mem _ hb)
  have := nodup_prefix key (c :: p)
  rw [List.map_cons, List.map_append] at this
  rw [show (c :: p ++ sNULL) :: (l.map (c :: p ++ ·) ++ (own.map (c :: p ++ ·) ++ [95 :: c :: p ++ sSIZE])) =
    ((c :: p ++ sNULL) :: (l.map (c :: p ++ ·) ++ own.map (c :: p ++ ·))) ++ [95 :: c :: p ++ sSIZE] by
      simp only [List.cons_append, List.append_assoc]]
  rw [List.nodup_append]
  refine ⟨this, by simp, fun a ha b hb => ?_⟩
  rw [List.mem_singleton] at hb
  subst hb
  rw [← List.map_append, ← List.map_cons (f := (c :: p ++ ·)), List.mem_map] at ha
  obtain ⟨y, _, rfl⟩ := ha
  intro he
  simp only [List.cons_append, List.cons.injEq] at he
  exact hc he.1

theorem distinct_of_named {a : Decls} (h : Named a) : Distinct a := by
  refine ⟨?_, ?_, ?_, ?_, ?_, ?_⟩
  · have := enum_nodup (own := []) h.nodes (by simp) (fun x hx hm => by
      rw [List.mem_singleton] at hm; exact h.nodesNull (hm ▸ hx)) (by simp) 78 (by decide) [84, 95]
    rw [List.map_map] at this
    rw [DGEast]
    simp only []
    rw [enum_other (by decide), inode_map]
    exact this
  · have := enum_nodup (own := []) h.nodesets (by simp) (fun x hx hm => by
      rw [List.mem_singleton] at hm; exact h.nodesetsNull (hm ▸ hx)) (by simp) 78 (by decide) [83, 95]
    rw [List.map_map] at this
    rw [DGEast]
    simp only []
    rw [enum_other (by decide), inodeset_map]
    exact this
  · have := enum_nodup (own := [sFree, sCheck, sCpy]) h.uids (by decide) h.uidsOwn (by decide) 84 (by decide) [82, 65, 86, 95]
    rw [List.map_map] at this
    rw [DGEast]
    simp only []
    rw [enum_trav, itraversal_map]
    exact this
  · have := enum_nodup (own := []) h.passes (by simp) (fun x hx hm => by
      rw [List.mem_singleton] at hm; exact h.passesNull (hm ▸ hx)) (by simp) 80 (by decide) [65, 83, 83, 95]
    rw [List.map_map] at this
    rw [DGEast]
    simp only []
    rw [enum_other (by decide), ipass_map]
    exact this
  · have key : (a.travs.map (·.name.lwr) ++ [sCcn ++ sCopy, sCcn ++ sCheck, sCcn ++ sFree, sCcn ++ sError]).Nodup := by
      rw [List.nodup_append]
      exact ⟨h.travs, by decide, fun x hx y hy he => h.travsOwn x hx (he ▸ hy)⟩
    have := nodup_suffix key sVtable
    rw [List.map_append, List.map_map] at this
    exact this
  · have key : (a.phases.map (·.name.upr) ++ (a.travs.map (·.name.upr) ++ a.passes.map (·.name.upr)) ++
        [sCheck, sFree, sCleanup, sNULL]).Nodup := by
      rw [List.nodup_append]
      exact ⟨h.actions, by decide, fun x hx y hy he => h.actionsOwn x hx (he ▸ hy)⟩
    have := nodup_prefix key sID
    rw [List.map_append, List.map_append, List.map_append, List.map_map, List.map_map, List.map_map] at this
    rw [GAAHast, hphase_map, htrav_map, hpass_map]
    exact this

end Verif.Tables
