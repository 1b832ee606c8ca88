import Verif.Lemmas.TravData

/-!
# Lemmas about the functions for the data of traversals
-/

namespace Verif.TravData
open Verif.Str Verif.Ids Verif.Semantic
open Verif.Spec.Str (lowerB upperB SameName)
open Verif.Spec.Semantic (Pairs)
open Verif.Spec.TravData
open Verif.NodeGen (Rhs)
open Verif.Trav (Addr Ptr Val St Env upd)

theorem find_eq {α : Type} {l : List α} {p : α → Bool} {x : α} (hm : x ∈ l) (hp : p x = true) (hu : ∀ y ∈ l, p y = true → y = x) :
    l.find? p = some x := by
  cases h : l.find? p with
  | none => rw [List.find?_eq_none] at h; exact absurd hp (h x hm)
  | some y => rw [hu y (List.mem_of_find?_eq_some h) (List.find?_some h)]

theorem unique {α β : Type} {l : List α} {f : α → β} (h : (l.map f).Pairwise (· ≠ ·)) {a b : α} (ha : a ∈ l) (hb : b ∈ l) (e : f a = f b) :
    a = b := by
  rw [List.pairwise_map] at h
  induction h with
  | nil => cases ha
  | cons h1 _ ih =>
    rcases List.mem_cons.1 ha with rfl | ha' <;> rcases List.mem_cons.1 hb with rfl | hb'
    · rfl
    · exact absurd e (h1 _ hb')
    · exact absurd e.symm (h1 _ ha')
    · exact ih ha' hb'

section
variable {A : Parse.Ast} {ws : List Row} {w : Row}

/-- Rows with the same tag, name or macro are the same. -/
theorem row_unique {γ : Type} {f : Parse.Traversal → γ} (hw : ws.map (·.t) = withData A) (h : ((withData A).map f).Pairwise (· ≠ ·)) {v : Row}
    (h1 : v ∈ ws) (h2 : w ∈ ws) (e : f v.t = f w.t) : v = w := by
  rw [← hw, List.map_map] at h
  exact unique h h1 h2 e

theorem member_tag (hw : ws.map (·.t) = withData A) (df : Different A) (h : w ∈ ws) :
    memberTag (codeOf ws) (w.t.name.orig.map lowerB) = some (tag w.t) := by
  unfold memberTag
  rw [find_eq (l := (codeOf ws).union) (x := ⟨tag w.t, w.t.name.orig.map lowerB⟩) (List.mem_map.2 ⟨w, h, rfl⟩) (by simp) ?_]
  · rfl
  · intro y hy hn
    obtain ⟨v, hv, rfl⟩ := List.mem_map.1 hy
    rw [row_unique hw df.names hv h (by simpa using hn)]

theorem fields_of (hw : ws.map (·.t) = withData A) (df : Different A) (h : w ∈ ws) (hok : RowOk A w) :
    fieldsOf (codeOf ws) (tag w.t) = some (w.t.data.map (·.name.orig)) := by
  unfold fieldsOf
  rw [find_eq (l := (codeOf ws).structs) (x := ⟨tag w.t, w.fields⟩) (List.mem_map.2 ⟨w, h, rfl⟩) (by simp) ?_]
  · rw [Option.map_some, row_fields hok]
  · intro y hy hn
    obtain ⟨v, hv, rfl⟩ := List.mem_map.1 hy
    rw [row_unique hw df.tags hv h (by simpa using hn)]

theorem data_ne (x y : CStr) : Tables.sData false ++ x ≠ Tables.sData true ++ y := by
  intro e
  have := List.append_inj_left e rfl
  revert this
  decide

theorem init_func (hw : ws.map (·.t) = withData A) (df : Different A) (h : w ∈ ws) :
    ((codeOf ws).funcs.find? fun g => g.name == Tables.sData true ++ w.t.name.orig) = some (initF w) := by
  refine find_eq (List.mem_flatMap.2 ⟨w, h, List.mem_cons_self ..⟩) (by simp [initF]) ?_
  intro y hy hn
  obtain ⟨v, hv, hy⟩ := List.mem_flatMap.1 hy
  rw [beq_iff_eq] at hn
  rcases List.mem_cons.1 hy with rfl | hy
  · have e : v.t.name.orig = w.t.name.orig := List.append_cancel_left hn
    rw [row_unique hw df.names hv h (congrArg (List.map lowerB) e)]
  · rw [List.mem_singleton.1 hy] at hn
    exact absurd hn (data_ne _ _)

theorem fini_func (hw : ws.map (·.t) = withData A) (df : Different A) (h : w ∈ ws) :
    ((codeOf ws).funcs.find? fun g => g.name == Tables.sData false ++ w.t.name.orig) = some (finiF w) := by
  refine find_eq (List.mem_flatMap.2 ⟨w, h, List.mem_cons_of_mem _ (List.mem_cons_self ..)⟩) (by simp [finiF]) ?_
  intro y hy hn
  obtain ⟨v, hv, hy⟩ := List.mem_flatMap.1 hy
  rw [beq_iff_eq] at hn
  rcases List.mem_cons.1 hy with rfl | hy
  · exact absurd hn.symm (data_ne _ _)
  · rw [List.mem_singleton.1 hy] at hn ⊢
    have e : v.t.name.orig = w.t.name.orig := List.append_cancel_left hn
    rw [row_unique hw df.names hv h (congrArg (List.map lowerB) e)]

theorem idx_mid {pre post : List CStr} {f : CStr} (h : f ∉ pre) : (pre ++ f :: post).idxOf? f = some pre.length := by
  induction pre with
  | nil => simp [List.idxOf?, List.findIdx?_cons]
  | cons a pre ih =>
    have hne : a ≠ f := fun e => h (e ▸ List.mem_cons_self ..)
    have ih := ih fun hm => h (List.mem_cons_of_mem _ hm)
    simp only [List.idxOf?, List.cons_append, List.findIdx?_cons] at ih ⊢
    rw [ih]
    simp [hne]

theorem upd_upd {α : Type} (m : Addr → Option α) (d : Addr) (x y : Option α) : upd (upd m d x) d y = upd m d y := by
  funext b
  simp only [upd]
  split <;> rfl

theorem upd_same {α : Type} (m : Addr → Option α) (d : Addr) (x : Option α) : upd m d x d = x := by simp [upd]

theorem set_mid {α : Type} (pv post : List α) (u v : α) : (pv ++ u :: post).set pv.length v = (pv ++ [v]) ++ post := by
  simp

/-- The assignments fill the block. -/
theorem exec_sets (E : Env) (R : Trav.Prog → St → Res (Ptr × St)) (c : Code) (user : CStr → Option Trav.Prog) (a d : Addr) (tail : List Stmt) :
    ∀ (ds : List Parse.TravData) (rs : List Rhs) (pre : List CStr) (pv : List Val) (s : St) (m : Addr → Option (List Val)), rs.length = ds.length →
      pv.length = pre.length → (pre ++ ds.map (·.name.orig)).Pairwise (· ≠ ·) →
      exec E R c user a (List.zipWith (fun d r => Stmt.set d.name.orig r) ds rs ++ tail) (some (pre ++ ds.map (·.name.orig), some d))
        { s with dmem := upd m d (some (pv ++ ds.map fun _ => Val.undef)) } =
      exec E R c user a tail (some (pre ++ ds.map (·.name.orig), some d)) { s with dmem := upd m d (some (pv ++ rs.map valueOf)) }
  | [], [], _, _, _, _, _, _, _ => rfl
  | x :: ds, r :: rs, pre, pv, s, m, h1, h2, h3 => by
    have hx : x.name.orig ∉ pre := by
      intro hm
      exact (List.pairwise_append.1 h3).2.2 _ hm _ (List.mem_cons_self ..) rfl
    rw [List.zipWith_cons_cons, List.cons_append, exec]
    simp only [List.map_cons, idx_mid hx, upd_same, List.length_append, List.length_cons]
    rw [decide_eq_true (by omega)]
    simp only [upd_upd, ← h2, set_mid]
    have ih := exec_sets E R c user a d tail ds rs (pre ++ [x.name.orig]) (pv ++ [valueOf r]) s m (by simpa using h1) (by simpa using h2)
      (by simpa using h3)
    simp only [List.append_assoc, List.singleton_append] at ih ⊢
    exact ih
  | [], _ :: _, _, _, _, _, h, _, _ => by cases h
  | _ :: _, [], _, _, _, _, h, _, _ => by cases h

theorem init_run (hr : ∀ {t}, t ∈ withData A → (t.data.map (·.name.orig)).Pairwise (· ≠ ·)) (hw : ws.map (·.t) = withData A) (df : Different A)
    (h : w ∈ ws) (hok : RowOk A w) (E : Env) (R : Trav.Prog → St → Res (Ptr × St)) (user : CStr → Option Trav.Prog) (p : Trav.Prog)
    (hu : user (initName w.t) = some p) (a : Addr) (s : St) :
    callEntry E R (codeOf ws) user (.named (Tables.sData true ++ w.t.name.orig)) a s =
      Trav.TRAVdataInit E R (.data (w.rhs.map valueOf) p) a s := by
  have hl : w.rhs.length = w.t.data.length := by simpa using hok.rhs.length
  simp only [callEntry, init_func hw df h, initF, exec, member_tag hw df h, fields_of hw df h hok, Trav.TRAVdataInit]
  cases s.frames a with
  | none => rfl
  | some fr =>
    cases E.newData s with
    | none => rfl
    | some d =>
      simp only [beq_self_eq_true, upd_same, List.map_map]
      have := exec_sets E R (codeOf ws) user a d [.call (initName w.t)] w.t.data w.rhs [] []
        { s with frames := upd s.frames a (some { fr with data := some d }) } s.dmem hl rfl
        (by simpa using hr (mem_rows hw h))
      simp only [List.nil_append] at this
      simp only [Function.comp_def]
      rw [this]
      simp only [exec, hu]

theorem fini_run (hw : ws.map (·.t) = withData A) (df : Different A)
    (h : w ∈ ws) (E : Env) (R : Trav.Prog → St → Res (Ptr × St)) (user : CStr → Option Trav.Prog) (p : Trav.Prog)
    (hu : user (finiName w.t) = some p) (a : Addr) (s : St) :
    callEntry E R (codeOf ws) user (.named (Tables.sData false ++ w.t.name.orig)) a s = Trav.TRAVdataFree R (.data p) a s := by
  simp only [callEntry, fini_func hw df h, finiF, exec, member_tag hw df h, Trav.TRAVdataFree, hu]
  congr 1

theorem get_run (hw : ws.map (·.t) = withData A) (df : Different A) (h : w ∈ ws) (hok : RowOk A w) (s : St) (a : Addr) (fr : Trav.Frame)
    (hc : s.cur = some a) (hf : s.frames a = some fr) : getData (codeOf ws) (getter w.t) s = .ok (w.t.data.map (·.name.orig), fr.data) := by
  unfold getData
  rw [find_eq (l := (codeOf ws).getters) (x := ⟨getter w.t, w.t.name.orig.map lowerB⟩) (List.mem_map.2 ⟨w, h, rfl⟩) (by simp) ?_]
  · simp only [member_tag hw df h, Option.bind_some, fields_of hw df h hok, hc, hf]
  · intro y hy hn
    obtain ⟨v, hv, rfl⟩ := List.mem_map.1 hy
    rw [row_unique hw df.getters hv h (by simpa using hn)]

/-! ### The tables -/

theorem pairs_map {α β γ : Type} {R : β → γ → Prop} {f : α → β} {g : α → γ} {l : List α} (h : ∀ a ∈ l, R (f a) (g a)) :
    Pairs R (l.map f) (l.map g) := by
  induction l with
  | nil => exact .nil
  | cons a l ih => exact .cons (h a (List.mem_cons_self ..)) (ih fun x hx => h x (List.mem_cons_of_mem _ hx))

theorem pairs_append {β γ : Type} {R : β → γ → Prop} {l : List β} {m : List γ} {l' : List β} {m' : List γ} (h : Pairs R l m) (h' : Pairs R l' m') :
    Pairs R (l ++ l') (m ++ m') := by
  induction h with
  | nil => exact h'
  | cons h _ ih => exact .cons h ih

/-- The values of a traversal with data. -/
noncomputable def valsOf (ws : List Row) (t : Parse.Traversal) : List Val :=
  open Classical in if h : ∃ w ∈ ws, w.t = t then (Classical.choose h).rhs.map valueOf else []

theorem vals_row (hw : ws.map (·.t) = withData A) {t : Parse.Traversal} (ht : t ∈ withData A) :
    ∃ w ∈ ws, w.t = t ∧ valsOf ws t = w.rhs.map valueOf := by
  have h : ∃ w ∈ ws, w.t = t := by
    rw [← hw] at ht
    exact List.mem_map.1 ht
  refine ⟨Classical.choose h, (Classical.choose_spec h).1, (Classical.choose_spec h).2, ?_⟩
  rw [valsOf, dif_pos h]

theorem table_eq (A : Parse.Ast) (init : Bool) : Tables.DGTDTast init (Compiled.declsOf A) =
    .dataNop :: A.traversals.map (fun t => if t.data = [] then Tables.Fun.dataNop else .named (Tables.sData init ++ t.name.orig)) ++
      [.dataNop, .dataNop, .dataNop] := by
  have : ∀ l : List Parse.Traversal, Tables.DGTDTitraversal init (l.map fun t => ⟨idOf t.name, idOf t.uid, t.index, !t.data.isEmpty⟩) =
      l.map (fun t => if t.data = [] then Tables.Fun.dataNop else .named (Tables.sData init ++ t.name.orig)) := by
    intro l
    induction l with
    | nil => rfl
    | cons t l ih =>
      rw [List.map_cons, Tables.DGTDTitraversal, ih, List.map_cons]
      cases h : t.data <;> simp [idOf]
  rw [Tables.DGTDTast]
  simp only [Compiled.declsOf, this]

theorem core_push (hr : ∀ {t}, t ∈ withData A → (t.data.map (·.name.orig)).Pairwise (· ≠ ·)) (hw : ws.map (·.t) = withData A) (df : Different A)
    (hok : ∀ w ∈ ws, RowOk A w) (E : Env) (frees : List Trav.DataFree) (R : Trav.Prog → St → Res (Ptr × St)) (user : CStr → Option Trav.Prog)
    (pI : Parse.Traversal → Trav.Prog) (hu : ∀ t ∈ withData A, user (initName t) = some (pI t)) (ty : Nat) (s : St) :
    TRAVpush E R (codeOf ws) user (Tables.DGTDTast true (Compiled.declsOf A)) ty s =
      Trav.TRAVpush { E with initTable := initsOf A (valsOf ws) pI, freeTable := frees } R ty s := by
  have key : Pairs (fun f x => ∀ a s, callEntry E R (codeOf ws) user f a s =
      Trav.TRAVdataInit { E with initTable := initsOf A (valsOf ws) pI, freeTable := frees } R x a s)
      (Tables.DGTDTast true (Compiled.declsOf A)) (initsOf A (valsOf ws) pI) := by
    rw [table_eq, initsOf]
    refine pairs_append (.cons (fun _ _ => rfl) (pairs_map fun t ht => ?_)) (.cons (fun _ _ => rfl) (.cons (fun _ _ => rfl) (.cons (fun _ _ => rfl) .nil)))
    split
    · exact fun _ _ => rfl
    · rename_i hd
      have hm : t ∈ withData A := by simp [withData, ht, hd]
      obtain ⟨w, h1, rfl, h3⟩ := vals_row hw hm
      intro a s
      rw [init_run hr hw df h1 (hok w h1) E R user _ (hu _ hm), h3]
      rfl
  unfold TRAVpush Trav.TRAVpush
  cases E.newFrame s with
  | none => rfl
  | some a =>
    simp only
    cases h : (Tables.DGTDTast true (Compiled.declsOf A))[ty]? with
    | none =>
      rw [List.getElem?_eq_none_iff, ← key.length, ← List.getElem?_eq_none_iff] at h
      rw [h]
    | some f =>
      obtain ⟨x, h1, h2⟩ := key.left h
      rw [h1]
      exact h2 _ _

theorem core_pop (hw : ws.map (·.t) = withData A) (df : Different A) (E : Env) (inits : List Trav.DataInit)
    (R : Trav.Prog → St → Res (Ptr × St)) (user : CStr → Option Trav.Prog)
    (pF : Parse.Traversal → Trav.Prog) (hu : ∀ t ∈ withData A, user (finiName t) = some (pF t)) (s : St) :
    TRAVpop E R (codeOf ws) user (Tables.DGTDTast false (Compiled.declsOf A)) s =
      Trav.TRAVpop { E with initTable := inits, freeTable := freesOf A pF } R s := by
  have key : Pairs (fun f x => ∀ a s, callEntry E R (codeOf ws) user f a s = Trav.TRAVdataFree R x a s)
      (Tables.DGTDTast false (Compiled.declsOf A)) (freesOf A pF) := by
    rw [table_eq, freesOf]
    refine pairs_append (.cons (fun _ _ => rfl) (pairs_map fun t ht => ?_)) (.cons (fun _ _ => rfl) (.cons (fun _ _ => rfl) (.cons (fun _ _ => rfl) .nil)))
    split
    · exact fun _ _ => rfl
    · rename_i hd
      have hm : t ∈ withData A := by simp [withData, ht, hd]
      obtain ⟨w, h1, rfl, _⟩ := vals_row hw hm
      intro a s
      rw [fini_run hw df h1 E R user _ (hu _ hm)]
  unfold TRAVpop Trav.TRAVpop
  cases s.cur with
  | none => rfl
  | some a =>
    simp only
    cases s.frames a with
    | none => rfl
    | some fr =>
      simp only
      cases h : (Tables.DGTDTast false (Compiled.declsOf A))[fr.ty]? with
      | none =>
        rw [List.getElem?_eq_none_iff, ← key.length, ← List.getElem?_eq_none_iff] at h
        rw [h]
      | some f =>
        obtain ⟨x, h1, h2⟩ := key.left h
        rw [h1]
        simp only [h2]
        rfl

end

end Verif.TravData
