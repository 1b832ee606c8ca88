import Verif.Lemmas.CompiledRun
import Verif.Lemmas.Tables
import Verif.Lemmas.Unpack
import Verif.Props.Tables
import Verif.Spec.Compiled

/-!
# The generated tables hold the program of the description
-/

namespace Verif.Compiled
open Verif.Str Verif.Ids Verif.Tables Verif.Spec.Compiled
open Verif.Semantic (idOf Right)
open Verif.Spec.Str (lowerB upperB SameName)
open Verif.Spec.Unpack (Refers)
open Verif.Unpack (find_phase find_traversal find_pass)

/-! ### Names -/

theorem upper_ne (n : CStr) {w : CStr} (h : w.map upperB ≠ w) : n.map upperB ≠ w := by
  intro e
  apply h
  rw [← e, List.map_map]
  exact congrArg (n.map ·) (funext upperB_idem)

theorem null_iff {n : Parse.Name} : Null n ↔ (idOf n).upr = sNULL := by
  show n.orig.map lowerB = _ ↔ n.orig.map upperB = _
  rw [map_lower_iff_upper]
  exact Iff.rfl

theorem upr_iff {m n : Parse.Name} : (idOf m).upr = (idOf n).upr ↔ SameName m.orig n.orig := by
  show m.orig.map upperB = n.orig.map upperB ↔ m.orig.map lowerB = n.orig.map lowerB
  rw [map_lower_iff_upper]

theorem lwr_iff {m n : Parse.Name} : (idOf m).lwr = (idOf n).lwr ↔ SameName m.orig n.orig := Iff.rfl

theorem nodup_of {α : Type} {l : List α} {f : α → CStr}
    (h : ∀ (i j : Nat) a b, l[i]? = some a → l[j]? = some b → f a = f b → i = j) : (l.map f).Nodup := by
  rw [List.Nodup, List.pairwise_iff_getElem]
  intro i j hi hj hij e
  simp only [List.length_map] at hi hj
  simp only [List.getElem_map] at e
  have := h i j _ _ (List.getElem?_eq_getElem hi) (List.getElem?_eq_getElem hj) e
  omega

section
variable {A : Parse.Ast} {tab : List (Ste Decl)}

theorem phase_inj (h : Right A tab) {i j : Nat} {a b : Parse.Phase} (ha : A.phases[i]? = some a) (hb : A.phases[j]? = some b)
    (e : SameName a.name.orig b.name.orig) : i = j := by
  have h1 := (find_phase h b.name i).2 ⟨a, ha, Or.inl e⟩
  have h2 := (find_phase h b.name j).2 ⟨b, hb, Or.inl rfl⟩
  rw [h1] at h2
  cases h2
  rfl

theorem trav_inj (h : Right A tab) {i j : Nat} {a b : Parse.Traversal} (ha : A.traversals[i]? = some a)
    (hb : A.traversals[j]? = some b) (e : SameName a.name.orig b.name.orig) : i = j := by
  have h1 := (find_traversal h b.name i).2 ⟨a, ha, Or.inl e⟩
  have h2 := (find_traversal h b.name j).2 ⟨b, hb, Or.inl rfl⟩
  rw [h1] at h2
  cases h2
  rfl

theorem uid_inj (h : Right A tab) {i j : Nat} {a b : Parse.Traversal} (ha : A.traversals[i]? = some a)
    (hb : A.traversals[j]? = some b) (e : SameName a.uid.orig b.uid.orig) : i = j := by
  have h1 := (find_traversal h b.uid i).2 ⟨a, ha, Or.inr ⟨_, rfl, e⟩⟩
  have h2 := (find_traversal h b.uid j).2 ⟨b, hb, Or.inr ⟨_, rfl, rfl⟩⟩
  rw [h1] at h2
  cases h2
  rfl

theorem pass_inj (h : Right A tab) {i j : Nat} {a b : Parse.Pass} (ha : A.passes[i]? = some a) (hb : A.passes[j]? = some b)
    (e : SameName a.name.orig b.name.orig) : i = j := by
  have h1 := (find_pass h b.name i).2 ⟨a, ha, Or.inl e⟩
  have h2 := (find_pass h b.name j).2 ⟨b, hb, Or.inl rfl⟩
  rw [h1] at h2
  cases h2
  rfl

theorem node_inj (h : Right A tab) {i j : Nat} {a b : Parse.Node} (ha : A.nodes[i]? = some a) (hb : A.nodes[j]? = some b)
    (e : SameName a.name.orig b.name.orig) : i = j := by
  have h1 := (h.table.node b.name.orig i).2 ⟨a, ha, e⟩
  have h2 := (h.table.node b.name.orig j).2 ⟨b, hb, rfl⟩
  rw [h1] at h2
  cases h2
  rfl

theorem set_inj (h : Right A tab) {i j : Nat} {a b : Parse.NodeSet} (ha : A.nodesets[i]? = some a) (hb : A.nodesets[j]? = some b)
    (e : SameName a.name.orig b.name.orig) : i = j := by
  have h1 := (h.table.set b.name.orig i).2 ⟨a, ha, e⟩
  have h2 := (h.table.set b.name.orig j).2 ⟨b, hb, rfl⟩
  rw [h1] at h2
  cases h2
  rfl

theorem phase_trav (h : Right A tab) {p : Parse.Phase} {t : Parse.Traversal} (hp : p ∈ A.phases) (ht : t ∈ A.traversals)
    {n : Parse.Name} (h1 : Refers n p.name p.uid) (h2 : Refers n t.name (some t.uid)) : False := by
  obtain ⟨i, hi⟩ := List.getElem?_of_mem hp
  obtain ⟨j, hj⟩ := List.getElem?_of_mem ht
  have e := (find_phase h n i).2 ⟨p, hi, h1⟩
  rw [(find_traversal h n j).2 ⟨t, hj, h2⟩] at e
  cases e

theorem phase_pass (h : Right A tab) {p : Parse.Phase} {t : Parse.Pass} (hp : p ∈ A.phases) (ht : t ∈ A.passes)
    {n : Parse.Name} (h1 : Refers n p.name p.uid) (h2 : Refers n t.name t.uid) : False := by
  obtain ⟨i, hi⟩ := List.getElem?_of_mem hp
  obtain ⟨j, hj⟩ := List.getElem?_of_mem ht
  have e := (find_phase h n i).2 ⟨p, hi, h1⟩
  rw [(find_pass h n j).2 ⟨t, hj, h2⟩] at e
  cases e

theorem trav_pass (h : Right A tab) {p : Parse.Traversal} {t : Parse.Pass} (hp : p ∈ A.traversals) (ht : t ∈ A.passes)
    {n : Parse.Name} (h1 : Refers n p.name (some p.uid)) (h2 : Refers n t.name t.uid) : False := by
  obtain ⟨i, hi⟩ := List.getElem?_of_mem hp
  obtain ⟨j, hj⟩ := List.getElem?_of_mem ht
  have e := (find_traversal h n i).2 ⟨p, hi, h1⟩
  rw [(find_pass h n j).2 ⟨t, hj, h2⟩] at e
  cases e

/-- The names of the actions in upper case. -/
theorem action_names (A : Parse.Ast) : Spec.Tables.actionNames (declsOf A) =
    A.phases.map (fun p => (idOf p.name).upr) ++ (A.traversals.map (fun p => (idOf p.name).upr) ++
      A.passes.map (fun p => (idOf p.name).upr)) := by
  simp [Spec.Tables.actionNames, declsOf, List.map_map, Function.comp_def]

theorem named_iff {A : Parse.Ast} {n : Parse.Name} : (idOf n).upr ∈ Spec.Tables.actionNames (declsOf A) ↔ Named A n := by
  rw [action_names]
  simp only [List.mem_append, List.mem_map, Named, upr_iff]

theorem named_of (h : Right A tab) (hf : Free A) : Spec.Tables.Named (declsOf A) := by
  have upr_ne : ∀ (n : Parse.Name) (w : CStr), w.map upperB ≠ w → (idOf n).upr ≠ w := fun n w hw => upper_ne n.orig hw
  constructor
  · simp only [declsOf, List.map_map, Function.comp_def]
    exact nodup_of fun i j a b ha hb e => node_inj h ha hb (upr_iff.1 e)
  · simp only [declsOf, List.map_map, List.mem_map, Function.comp_def]
    rintro ⟨n, hn, e⟩
    exact hf.node n hn (null_iff.2 e)
  · simp only [declsOf, List.map_map, Function.comp_def]
    exact nodup_of fun i j a b ha hb e => set_inj h ha hb (upr_iff.1 e)
  · simp only [declsOf, List.map_map, List.mem_map, Function.comp_def]
    rintro ⟨n, hn, e⟩
    exact hf.nodeset n hn (null_iff.2 e)
  · simp only [declsOf, List.map_map, Function.comp_def]
    exact nodup_of fun i j a b ha hb e => uid_inj h ha hb (upr_iff.1 e)
  · simp only [declsOf, List.map_map, List.mem_map, Function.comp_def]
    rintro _ ⟨n, hn, rfl⟩ hx
    simp only [List.mem_cons, List.not_mem_nil, or_false] at hx
    rcases hx with e | e | e | e
    · exact (hf.traversal n hn).2.1 (null_iff.2 e)
    all_goals exact upr_ne _ _ (by decide) e
  · simp only [declsOf, List.map_map, Function.comp_def]
    exact nodup_of fun i j a b ha hb e => pass_inj h ha hb (upr_iff.1 e)
  · simp only [declsOf, List.map_map, List.mem_map, Function.comp_def]
    rintro ⟨n, hn, e⟩
    exact hf.pass n hn (null_iff.2 e)
  · simp only [declsOf, List.map_map, Function.comp_def]
    exact nodup_of fun i j a b ha hb e => trav_inj h ha hb (lwr_iff.1 e)
  · simp only [declsOf, List.map_map, List.mem_map, Function.comp_def]
    rintro _ ⟨n, hn, rfl⟩ hx
    have := (hf.traversal n hn).2.2 _ hx
    apply this
    show n.name.orig.map lowerB = (n.name.orig.map lowerB).map lowerB
    rw [List.map_map]
    exact congrArg (n.name.orig.map ·) (funext fun b => (lowerB_idem b).symm)
  · show (Spec.Tables.actionNames (declsOf A)).Nodup
    rw [action_names, List.nodup_append]
    refine ⟨nodup_of fun i j a b ha hb e => phase_inj h ha hb (upr_iff.1 e), ?_, ?_⟩
    · rw [List.nodup_append]
      refine ⟨nodup_of fun i j a b ha hb e => trav_inj h ha hb (upr_iff.1 e),
        nodup_of fun i j a b ha hb e => pass_inj h ha hb (upr_iff.1 e), ?_⟩
      intro x hx y hy e
      obtain ⟨t, ht, rfl⟩ := List.mem_map.1 hx
      obtain ⟨p, hp, rfl⟩ := List.mem_map.1 hy
      exact trav_pass h ht hp (n := p.name) (Or.inl (upr_iff.1 e)) (Or.inl rfl)
    · intro x hx y hy e
      obtain ⟨q, hq, rfl⟩ := List.mem_map.1 hx
      rcases List.mem_append.1 hy with hy | hy
      · obtain ⟨t, ht, rfl⟩ := List.mem_map.1 hy
        exact phase_trav h hq ht (n := t.name) (Or.inl (upr_iff.1 e)) (Or.inl rfl)
      · obtain ⟨p, hp, rfl⟩ := List.mem_map.1 hy
        exact phase_pass h hq hp (n := p.name) (Or.inl (upr_iff.1 e)) (Or.inl rfl)
  · show ∀ x, x ∈ Spec.Tables.actionNames (declsOf A) → _
    rw [action_names]
    have key : ∀ n : Parse.Name, ¬ Null n → (idOf n).upr ∉ [sCheck, sFree, sCleanup, sNULL] := by
      intro n hn hx
      simp only [List.mem_cons, List.not_mem_nil, or_false] at hx
      rcases hx with e | e | e | e
      · exact upr_ne _ _ (by decide) e
      · exact upr_ne _ _ (by decide) e
      · exact upr_ne _ _ (by decide) e
      · exact hn (null_iff.2 e)
    intro x hx
    simp only [List.mem_append, List.mem_map] at hx
    rcases hx with ⟨p, hp, rfl⟩ | ⟨p, hp, rfl⟩ | ⟨p, hp, rfl⟩
    · exact key _ (hf.phase p hp).1
    · exact key _ (hf.traversal p hp).1
    · exact key _ (hf.pass p hp)

theorem git_names (a : Decls) : (GITast a).map (·.1) = (sCleanup ++ sIdsTable) :: a.phases.map fun p => p.name.lwr ++ sIdsTable := by
  rw [GITast, gitphase_map]
  simp [List.map_map, Function.comp_def]

theorem git_nodup (h : Right A tab) (hf : Free A) : ((GITast (declsOf A)).map (·.1)).Nodup := by
  rw [git_names]
  have : (sCleanup :: A.phases.map fun p => (idOf p.name).lwr).Nodup := by
    rw [List.nodup_cons]
    refine ⟨fun hx => ?_, nodup_of fun i j a b ha hb e => phase_inj h ha hb (lwr_iff.1 e)⟩
    obtain ⟨p, hp, e⟩ := List.mem_map.1 hx
    exact (hf.phase p hp).2 e
  have := nodup_suffix this sIdsTable
  simpa [declsOf, List.map_map, Function.comp_def] using this

theorem lower_own : ∀ x ∈ own, x.map lowerB = x := by decide

theorem single_iff (h : Right A tab) : single (declsOf A) = true ↔ Free A := by
  rw [single, decide_eq_true_iff]
  constructor
  · rintro ⟨⟨h1, h2, h3, h4⟩, h5, h6, h7⟩
    have e1 : (DGEast (declsOf A)).node = do_enum ((A.nodes.map fun n => idOf n.name).map fun n => sNT ++ n.upr) sNT := by
      rw [DGEast, inode_map]; rfl
    have e2 : (DGEast (declsOf A)).nodeset = do_enum ((A.nodesets.map fun n => idOf n.name).map fun n => sNS ++ n.upr) sNS := by
      rw [DGEast, inodeset_map]; rfl
    have e3 : (DGEast (declsOf A)).trav = do_enum ((declsOf A).travs.map fun t => sTRAV ++ t.iprefix.upr) sTRAV := by
      rw [DGEast, itraversal_map]
    have e4 : (DGEast (declsOf A)).pass = do_enum ((declsOf A).passes.map fun t => sPASS ++ t.name.upr) sPASS := by
      rw [DGEast, ipass_map]
    have enum : ∀ {fields : List CStr} {pre : CStr}, (do_enum fields pre).Nodup → pre ++ sNULL ∉ fields := by
      intro fields pre hn hm
      rw [do_enum, List.cons_append, List.cons_append, List.nodup_cons] at hn
      exact hn.1 (List.mem_append_left _ (List.mem_append_left _ hm))
    have act : ∀ x ∈ Spec.Tables.actionNames (declsOf A), x ≠ sNULL := by
      intro x hx e
      rw [GAAHast, List.nodup_append] at h5
      refine h5.2.2 (sID ++ x) ?_ (sID ++ sNULL) (by simp) (by rw [e])
      rw [hphase_map, htrav_map, hpass_map]
      simp only [Spec.Tables.actionNames, List.mem_append, List.mem_map] at hx ⊢
      rcases hx with ⟨p, hp, rfl⟩ | ⟨p, hp, rfl⟩ | ⟨p, hp, rfl⟩
      · exact Or.inl ⟨p, hp, rfl⟩
      · exact Or.inr (Or.inl ⟨p, hp, rfl⟩)
      · exact Or.inr (Or.inr ⟨p, hp, rfl⟩)
    have act : ∀ n : Parse.Name, Named A n → ¬ Null n := fun n hn hx => act _ (named_iff.2 hn) (null_iff.1 hx)
    rw [e1] at h1
    rw [e2] at h2
    rw [e3] at h3
    rw [e4] at h4
    refine ⟨fun n hn hx => ?_, fun n hn hx => ?_, fun p hp => ⟨act _ (Or.inl ⟨p, hp, rfl⟩), fun hx => ?_⟩,
      fun t ht => ⟨act _ (Or.inr (Or.inl ⟨t, ht, rfl⟩)), fun hx => ?_, fun x hx e => ?_⟩,
      fun p hp => act _ (Or.inr (Or.inr ⟨p, hp, rfl⟩))⟩
    · apply enum h1
      rw [List.map_map]
      exact List.mem_map.2 ⟨n, hn, by simp [null_iff.1 hx]⟩
    · apply enum h2
      rw [List.map_map]
      exact List.mem_map.2 ⟨n, hn, by simp [null_iff.1 hx]⟩
    · rw [git_names, List.nodup_cons] at h6
      apply h6.1
      simp only [declsOf, List.map_map]
      exact List.mem_map.2 ⟨p, hp, congrArg (· ++ sIdsTable) hx⟩
    · apply enum h3
      simp only [declsOf, List.map_map]
      exact List.mem_map.2 ⟨t, ht, by simp [null_iff.1 hx]⟩
    · rw [travTable_map, List.nodup_append] at h7
      refine h7.2.2 (x ++ sVtable) ?_ (x ++ sVtable) ?_ rfl
      · simp only [declsOf, List.map_map]
        refine List.mem_map.2 ⟨t, ht, congrArg (· ++ sVtable) ?_⟩
        exact e.trans (lower_own x hx)
      · simp only [own, List.mem_cons, List.not_mem_nil, or_false] at hx
        rcases hx with rfl | rfl | rfl | rfl <;> simp [DGSTast, GenSystemTraversalVtable, sCcn, sCopy, sCheck, sFree, sError]
  · intro hf
    have hd := distinct_of_named (named_of h hf)
    exact ⟨⟨hd.nodes, hd.nodesets, hd.travs, hd.passes⟩, hd.actions, git_nodup h hf, by rw [travTable_map]; exact hd.tables⟩

/-! ### The compiler accepts the tables -/

theorem value_some {e : List CStr} {f : CStr} : (∃ k, value e f = some k) ↔ f ∈ e := by
  rw [value, ← Option.isSome_iff_exists, List.findIdx?_isSome]
  simp

theorem values_get {e : List CStr} : ∀ {fs : List CStr} {xs : List Nat}, values e fs = some xs →
    xs.length = fs.length ∧ ∀ (k : Nat) f, fs[k]? = some f → ∃ x, xs[k]? = some x ∧ value e f = some x := by
  intro fs
  induction fs with
  | nil => intro xs h; cases h; simp
  | cons f fs ih =>
    intro xs h
    rw [values] at h
    split at h
    · rename_i x ys h1 h2
      cases h
      obtain ⟨g1, g2⟩ := ih h2
      refine ⟨by simp [g1], fun k y hk => ?_⟩
      cases k with
      | zero => cases hk; exact ⟨x, rfl, h1⟩
      | succ k => exact g2 k y hk
    · cases h

theorem values_some {e : List CStr} : ∀ {fs : List CStr}, (∃ xs, values e fs = some xs) ↔ ∀ f ∈ fs, f ∈ e := by
  intro fs
  induction fs with
  | nil => simp [values]
  | cons f fs ih =>
    rw [values]
    constructor
    · rintro ⟨xs, h⟩ y hy
      split at h
      · rename_i x ys h1 h2
        rcases List.mem_cons.1 hy with rfl | hy
        · exact value_some.1 ⟨_, h1⟩
        · exact ih.1 ⟨_, h2⟩ y hy
      · cases h
    · intro h
      obtain ⟨x, hx⟩ := value_some.2 (h f List.mem_cons_self)
      obtain ⟨xs, hxs⟩ := ih.2 fun y hy => h y (List.mem_cons_of_mem _ hy)
      exact ⟨x :: xs, by simp [hx, hxs]⟩

theorem compile_get {a : Decls} : ∀ {l : List Action} {ds : List Desc}, compileActions a l = some ds →
    ∀ (k : Nat) x, l[k]? = some x → ∃ d, ds[k]? = some d ∧ compileAction a x = some d := by
  intro l
  induction l with
  | nil => intro ds h k x hk; cases hk
  | cons y l ih =>
    intro ds h k x hk
    rw [compileActions] at h
    split at h
    · rename_i d ds' h1 h2
      cases h
      cases k with
      | zero => cases hk; exact ⟨d, rfl, h1⟩
      | succ k => exact ih h2 k x hk
    · cases h

theorem compile_some {a : Decls} : ∀ {l : List Action}, (∃ ds, compileActions a l = some ds) ↔ ∀ x ∈ l, ∃ d, compileAction a x = some d := by
  intro l
  induction l with
  | nil => simp [compileActions]
  | cons y l ih =>
    rw [compileActions]
    constructor
    · rintro ⟨ds, h⟩ x hx
      split at h
      · rename_i d ds' h1 h2
        rcases List.mem_cons.1 hx with rfl | hx
        · exact ⟨d, h1⟩
        · exact ih.1 ⟨_, h2⟩ x hx
      · cases h
    · intro h
      obtain ⟨d, hd⟩ := h y List.mem_cons_self
      obtain ⟨ds, hds⟩ := ih.2 fun x hx => h x (List.mem_cons_of_mem _ hx)
      exact ⟨d :: ds, by simp [hd, hds]⟩

/-- The enumerators of actions. -/
theorem header_mem {n : Parse.Name} : sID ++ (idOf n).upr ∈ GAAHast (declsOf A) ↔ Named A n ∨ Null n := by
  have e : GAAHast (declsOf A) = (Spec.Tables.actionNames (declsOf A) ++ [sCheck, sFree, sCleanup, sNULL]).map (sID ++ ·) := by
    rw [GAAHast, hphase_map, htrav_map, hpass_map, Spec.Tables.actionNames]
    simp [List.map_map, Function.comp_def]
  rw [e, mem_prefix, List.mem_append, named_iff, null_iff]
  have hne : ∀ w : CStr, w.map upperB ≠ w → (idOf n).upr ≠ w := fun w hw => upper_ne n.orig hw
  simp only [List.mem_cons, List.not_mem_nil, or_false, hne sCheck (by decide), hne sFree (by decide), hne sCleanup (by decide), false_or]

theorem null_mem (a : Decls) : sID ++ sNULL ∈ GAAHast a := by simp [GAAHast]

theorem find_first {l : List (CStr × List CStr)} (hd : (l.map (·.1)).Nodup) {t : CStr × List CStr} (ht : t ∈ l) :
    (l.find? fun x => decide (x.1 = t.1)) = some t := by
  induction l with
  | nil => cases ht
  | cons y l ih =>
    rw [List.map_cons, List.nodup_cons] at hd
    rw [List.find?_cons]
    rcases List.mem_cons.1 ht with rfl | ht
    · simp
    · have : y.1 ≠ t.1 := fun e => hd.1 (e ▸ List.mem_map.2 ⟨t, ht, rfl⟩)
      simp [this, ih hd.2 ht]

/-- What becomes of a phase. -/
theorem compile_phase (h : Right A tab) (hf : Free A) {p : Parse.Phase} (hp : p ∈ A.phases) (i n : CStr) (g : Option CStr) (c : Bool)
    (j : CStr) : compileAction (declsOf A) ⟨i, n, .phase g ((idOf p.name).lwr ++ sIdsTable) c j⟩ =
      (values (GAAHast (declsOf A)) ((p.actions.map fun r => sID ++ (idOf r).upr) ++ [sID ++ sNULL])).map fun ids =>
        ⟨n, .phase g ids c⟩ := by
  have hm : ((idOf p.name).lwr ++ sIdsTable, (p.actions.map fun r => sID ++ (idOf r).upr) ++ [sID ++ sNULL]) ∈ GITast (declsOf A) := by
    rw [GITast, gitphase_map]
    refine List.mem_cons_of_mem _ ?_
    simp only [declsOf, List.map_map]
    refine List.mem_map.2 ⟨p, hp, ?_⟩
    simp [iactions_map, Function.comp_def]
  have := find_first (git_nodup h hf) hm
  simp only [compileAction]
  simp only at this
  rw [this]

theorem trav_mem {t : Parse.Traversal} (ht : t ∈ A.traversals) : sTRAV ++ (idOf t.uid).upr ∈ (DGEast (declsOf A)).trav := by
  rw [DGEast]
  simp only []
  rw [enum_trav, itraversal_map]
  refine List.mem_cons_of_mem _ (List.mem_append_left _ ?_)
  simp only [declsOf, List.map_map]
  exact List.mem_map.2 ⟨t, ht, rfl⟩

theorem pass_mem {t : Parse.Pass} (ht : t ∈ A.passes) : sPASS ++ (idOf t.name).upr ∈ (DGEast (declsOf A)).pass := by
  rw [DGEast]
  simp only []
  rw [enum_other (by decide), ipass_map]
  refine List.mem_cons_of_mem _ (List.mem_append_left _ ?_)
  simp only [declsOf, List.map_map]
  exact List.mem_map.2 ⟨t, ht, rfl⟩

/-- The actions of the array. -/
theorem action_array (A : Parse.Ast) : GAAast (declsOf A) =
    A.phases.map (fun p => (⟨sID ++ (idOf p.name).upr, p.name.orig, .phase (p.gate.map fun g => g.orig) ((idOf p.name).lwr ++ sIdsTable) p.cycle
      (sID ++ (idOf p.name).upr)⟩ : Action)) ++
    (A.traversals.map (fun t => (⟨sID ++ (idOf t.name).upr, t.name.orig, .traversal (sTRAV ++ (idOf t.uid).upr)⟩ : Action)) ++
      A.passes.map fun p => (⟨sID ++ (idOf p.name).upr, p.name.orig, .pass (sPASS ++ (idOf p.name).upr)⟩ : Action)) ++
    [{ id := sID ++ sFree, name := [70, 114, 101, 101], body := .traversal (sTRAV ++ sFree) },
      { id := sID ++ sCleanup, name := [67, 108, 101, 97, 110, 117, 112]
        body := .phase none (sCleanup ++ sIdsTable) false (sID ++ sCleanup) }] := by
  rw [GAAast, aphase_map, atrav_map, apass_map]
  simp [declsOf, List.map_map, Function.comp_def, idOf]

theorem actions_iff (h : Right A tab) (hf : Free A) : (∃ ds, compileActions (declsOf A) (GAAast (declsOf A)) = some ds) ↔
    ∀ p ∈ A.phases, ∀ n ∈ p.actions, Named A n ∨ Null n := by
  rw [compile_some, action_array]
  have vals : ∀ p : Parse.Phase,
      (∃ xs, values (GAAHast (declsOf A)) ((p.actions.map fun r => sID ++ (idOf r).upr) ++ [sID ++ sNULL]) = some xs) ↔
        ∀ n ∈ p.actions, Named A n ∨ Null n := by
    intro p
    rw [values_some]
    constructor
    · intro hx n hn
      exact header_mem.1 (hx _ (List.mem_append_left _ (List.mem_map.2 ⟨n, hn, rfl⟩)))
    · intro hx f hfm
      rcases List.mem_append.1 hfm with hfm | hfm
      · obtain ⟨n, hn, rfl⟩ := List.mem_map.1 hfm
        exact header_mem.2 (hx n hn)
      · rw [List.mem_singleton] at hfm
        rw [hfm]
        exact null_mem _
  constructor
  · intro hx p hp
    obtain ⟨d, hd⟩ := hx _ (List.mem_append_left _ (List.mem_append_left _ (List.mem_map.2 ⟨p, hp, rfl⟩)))
    rw [compile_phase h hf hp, Option.map_eq_some_iff] at hd
    obtain ⟨xs, hxs, _⟩ := hd
    exact (vals p).1 ⟨xs, hxs⟩
  · intro hx x hm
    simp only [List.mem_append, List.mem_map, List.mem_cons, List.not_mem_nil, or_false] at hm
    rcases hm with (⟨p, hp, rfl⟩ | ⟨t, ht, rfl⟩ | ⟨p, hp, rfl⟩) | rfl | rfl
    · obtain ⟨xs, hxs⟩ := (vals p).2 (hx p hp)
      rw [compile_phase h hf hp, hxs]
      exact ⟨_, rfl⟩
    · obtain ⟨k, hk⟩ := value_some.2 (trav_mem ht)
      simp only [compileAction, hk]
      exact ⟨_, rfl⟩
    · obtain ⟨k, hk⟩ := value_some.2 (pass_mem hp)
      simp only [compileAction, hk]
      exact ⟨_, rfl⟩
    · obtain ⟨k, hk⟩ := value_some (e := (DGEast (declsOf A)).trav) (f := sTRAV ++ sFree) |>.2 (by
        rw [DGEast]; simp only []; rw [enum_trav]; simp)
      simp only [compileAction, hk]
      exact ⟨_, rfl⟩
    · have hm : (sCleanup ++ sIdsTable, [sID ++ sFree, sID ++ sNULL]) ∈ GITast (declsOf A) := by rw [GITast]; exact List.mem_cons_self
      have := find_first (git_nodup h hf) hm
      simp only at this
      obtain ⟨xs, hxs⟩ := (values_some (e := GAAHast (declsOf A)) (fs := [sID ++ sFree, sID ++ sNULL])).2 (by simp [GAAHast])
      simp only [compileAction, this, hxs]
      exact ⟨_, rfl⟩

/-- When the tables are accepted, and what they are. -/
theorem compile_iff (h : Right A tab) {s : Nat} {p : Parse.Phase} (hs : A.phases[s]? = some p) :
    (∃ C, compile (declsOf A) s = some C) ↔ Free A ∧ ∀ p ∈ A.phases, ∀ n ∈ p.actions, Named A n ∨ Null n := by
  have hp : (declsOf A).phases[s]? = some ⟨idOf p.name, p.gate.map idOf, p.cycle, p.actions.map idOf⟩ := by simp [declsOf, hs]
  constructor
  · rintro ⟨C, hC⟩
    rw [compile, hp] at hC
    cases h1 : single (declsOf A) with
    | false => rw [h1] at hC; cases hC
    | true =>
      rw [h1] at hC
      have hf := (single_iff h).1 h1
      refine ⟨hf, (actions_iff h hf).1 ?_⟩
      simp only [] at hC
      split at hC
      · rename_i ds _ _ g1 _ _
        exact ⟨ds, g1⟩
      · cases hC
  · rintro ⟨hf, ha⟩
    obtain ⟨ds, hds⟩ := (actions_iff h hf).2 ha
    obtain ⟨null, hnull⟩ := value_some.2 (null_mem (declsOf A))
    obtain ⟨root, hroot⟩ := value_some.2 (header_mem.2 (Or.inl (Or.inl ⟨p, List.mem_of_getElem? hs, rfl⟩) : Named A p.name ∨ Null p.name))
    refine ⟨⟨ds, DGPTast (declsOf A), DGTTast (declsOf A), null, root⟩, ?_⟩
    rw [compile, hp, (single_iff h).2 hf]
    simp only [hds, hnull, hroot]

theorem compile_parts {a : Decls} {s : Nat} {C : Image} (h : compile a s = some C) : single a = true ∧
    compileActions a (GAAast a) = some C.actions ∧ C.passes = DGPTast a ∧ C.travs = DGTTast a ∧
    value (GAAHast a) (sID ++ sNULL) = some C.null ∧ ∃ p, a.phases[s]? = some p ∧ value (GAAHast a) (sID ++ p.name.upr) = some C.root := by
  rw [compile] at h
  split at h
  · rename_i p h1 h2
    split at h
    · rename_i h3 h4 h5
      cases h
      exact ⟨h1, h3, rfl, rfl, h4, p, h2, h5⟩
    · cases h
  · cases h

/-! ### The tables hold the program -/

theorem value_get {e : List CStr} {f : CStr} {k : Nat} (h : value e f = some k) : e[k]? = some f := by
  rw [value, List.findIdx?_eq_some_iff_getElem] at h
  obtain ⟨hk, h1, _⟩ := h
  rw [List.getElem?_eq_getElem hk]
  simpa using h1

theorem refers_trav (h : Right A tab) {n : Parse.Name} (hn : Named A n) {t : Parse.Traversal} (ht : t ∈ A.traversals)
    (hr : Refers n t.name (some t.uid)) : SameName t.name.orig n.orig := by
  rcases hn with ⟨p, hp, e⟩ | ⟨p, hp, e⟩ | ⟨p, hp, e⟩
  · exact (phase_trav h hp ht (Or.inl e) hr).elim
  · obtain ⟨i, hi⟩ := List.getElem?_of_mem hp
    obtain ⟨j, hj⟩ := List.getElem?_of_mem ht
    have h1 := (find_traversal h n i).2 ⟨p, hi, Or.inl e⟩
    rw [(find_traversal h n j).2 ⟨t, hj, hr⟩] at h1
    cases h1
    rw [hi] at hj
    cases hj
    exact e
  · exact (trav_pass h ht hp hr (Or.inl e)).elim

theorem refers_pass (h : Right A tab) {n : Parse.Name} (hn : Named A n) {t : Parse.Pass} (ht : t ∈ A.passes)
    (hr : Refers n t.name t.uid) : SameName t.name.orig n.orig := by
  rcases hn with ⟨p, hp, e⟩ | ⟨p, hp, e⟩ | ⟨p, hp, e⟩
  · exact (phase_pass h hp ht (Or.inl e) hr).elim
  · exact (trav_pass h hp ht (Or.inl e) hr).elim
  · obtain ⟨i, hi⟩ := List.getElem?_of_mem hp
    obtain ⟨j, hj⟩ := List.getElem?_of_mem ht
    have h1 := (find_pass h n i).2 ⟨p, hi, Or.inl e⟩
    rw [(find_pass h n j).2 ⟨t, hj, hr⟩] at h1
    cases h1
    rw [hi] at hj
    cases hj
    exact e

theorem refers_phase (h : Right A tab) {n : Parse.Name} (hn : Named A n) {t : Parse.Phase} (ht : t ∈ A.phases)
    (hr : Refers n t.name t.uid) : SameName t.name.orig n.orig := by
  rcases hn with ⟨p, hp, e⟩ | ⟨p, hp, e⟩ | ⟨p, hp, e⟩
  · obtain ⟨i, hi⟩ := List.getElem?_of_mem hp
    obtain ⟨j, hj⟩ := List.getElem?_of_mem ht
    have h1 := (find_phase h n i).2 ⟨p, hi, Or.inl e⟩
    rw [(find_phase h n j).2 ⟨t, hj, hr⟩] at h1
    cases h1
    rw [hi] at hj
    cases hj
    exact e
  · exact (phase_trav h ht hp hr (Or.inl e)).elim
  · exact (phase_pass h ht hp hr (Or.inl e)).elim

/-- The compiled entry behind an enumerator. -/
theorem entry (h : Right A tab) {s : Nat} {C : Image} (hC : compile (declsOf A) s = some C) {x : CStr} {d : Action}
    (hd : Spec.Tables.Describes (declsOf A) x d) {i : Nat} (hi : value (GAAHast (declsOf A)) x = some i) :
    ∃ e, C.actions[i]? = some e ∧ compileAction (declsOf A) d = some e := by
  obtain ⟨h1, h2, _⟩ := compile_parts hC
  obtain ⟨j, g1, g2⟩ := Props.C39_actions_partial _ (named_of h ((single_iff h).1 h1)) x d hd
  rw [hi] at g1
  cases g1
  rw [CCNgetActionFromID] at g2
  split at g2
  · rename_i y hy
    cases g2
    exact compile_get h2 i d hy
  · cases g2

theorem ne_null {n : Parse.Name} (hf : Free A) (hn : Named A n) {s : Nat} {C : Image} (hC : compile (declsOf A) s = some C) {i : Nat}
    (hi : value (GAAHast (declsOf A)) (sID ++ (idOf n).upr) = some i) : i ≠ C.null := by
  obtain ⟨_, _, _, _, h1, _⟩ := compile_parts hC
  rintro rfl
  have e1 := value_get hi
  have e2 := value_get h1
  rw [e2] at e1
  simp only [Option.some.injEq] at e1
  have : Null n := null_iff.2 (List.append_cancel_left e1).symm
  have key : ∀ m : Parse.Name, SameName m.orig n.orig → Null m := fun m hm => hm.trans this
  rcases hn with ⟨p, hp, e⟩ | ⟨p, hp, e⟩ | ⟨p, hp, e⟩
  · exact (hf.phase p hp).1 (key _ e)
  · exact (hf.traversal p hp).1 (key _ e)
  · exact hf.pass p hp (key _ e)

theorem lab_trav (h : Right A tab) {s : Nat} {C : Image} (hC : compile (declsOf A) s = some C) {t : Parse.Traversal}
    (ht : t ∈ A.traversals) {k : Nat} (hk : value (DGEast (declsOf A)).trav (sTRAV ++ (idOf t.uid).upr) = some k) :
    labOf C (.traversal k) = some (.trav (t.name.orig.map lowerB ++ tableSuffix)) := by
  obtain ⟨h1, _, _, h4, _⟩ := compile_parts hC
  obtain ⟨j, hj⟩ := List.getElem?_of_mem ht
  have hj' : (declsOf A).travs[j]? = some ⟨idOf t.name, idOf t.uid, t.index, !t.data.isEmpty⟩ := by simp [declsOf, hj]
  have := Props.trav_value (named_of h ((single_iff h).1 h1)) hj'
  simp only [] at this
  rw [hk] at this
  cases this
  rw [labOf, h4, DGTTast, travTable_map, List.cons_append,
    getElem?_mid _ _ _ _ (by rw [List.length_map]; exact (List.getElem?_eq_some_iff.1 hj').1), List.getElem?_map, hj']
  rfl

theorem lab_pass (h : Right A tab) {s : Nat} {C : Image} (hC : compile (declsOf A) s = some C) {t : Parse.Pass}
    (ht : t ∈ A.passes) {k : Nat} (hk : value (DGEast (declsOf A)).pass (sPASS ++ (idOf t.name).upr) = some k) :
    labOf C (.pass k) = some (.pass (passFunction t)) := by
  obtain ⟨h1, _, h3, _, _⟩ := compile_parts hC
  obtain ⟨i, g1, g2⟩ := (Props.C40_pass_partial _ (named_of h ((single_iff h).1 h1))).1 ⟨idOf t.name, t.uid.map idOf, t.func.map idOf⟩
    (List.mem_map.2 ⟨t, ht, rfl⟩)
  simp only [] at g1
  rw [hk] at g1
  cases g1
  rw [labOf, h3, g2]
  simp only [passFunction]
  cases t.func <;> cases t.uid <;> rfl

theorem loads (h : Right A tab) (hb : ByName A) {s : Nat} {C : Image} (hC : compile (declsOf A) s = some C) {ns : List Parse.Name}
    {a : PD.Acts Lab} (hp : Program A ns a) : (∀ n ∈ ns, Named A n) → ∀ xs,
    values (GAAHast (declsOf A)) ((ns.map fun r => sID ++ (idOf r).upr) ++ [sID ++ sNULL]) = some xs → Loads C xs a := by
  have hf := (single_iff h).1 (compile_parts hC).1
  have split : ∀ {n : Parse.Name} {rest : List Parse.Name} {xs : List Nat},
      values (GAAHast (declsOf A)) (((n :: rest).map fun r => sID ++ (idOf r).upr) ++ [sID ++ sNULL]) = some xs →
      ∃ i ys, xs = i :: ys ∧ value (GAAHast (declsOf A)) (sID ++ (idOf n).upr) = some i ∧
        values (GAAHast (declsOf A)) ((rest.map fun r => sID ++ (idOf r).upr) ++ [sID ++ sNULL]) = some ys := by
    intro n rest xs hx
    rw [List.map_cons, List.cons_append, values] at hx
    split at hx
    · rename_i x ys h1 h2
      cases hx
      exact ⟨x, ys, rfl, h1, h2⟩
    · cases hx
  induction hp with
  | nil =>
    intro _ xs hx
    obtain ⟨_, _, _, _, h1, _⟩ := compile_parts hC
    simp only [List.map_nil, List.nil_append, values, h1] at hx
    cases hx
    exact .nil
  | @traversal n rest t a ht hr _ ih =>
    intro hn xs hx
    obtain ⟨i, ys, rfl, g1, g2⟩ := split hx
    have hn' := hn n List.mem_cons_self
    have hs := refers_trav h hn' ht hr
    obtain ⟨e, e1, e2⟩ := entry h hC (.trav (List.mem_map.2 ⟨t, ht, rfl⟩)) (i := i) (by rw [← g1]; exact congrArg (fun z => value _ (sID ++ z)) (upr_iff.2 hs))
    obtain ⟨k, hk⟩ := value_some.2 (trav_mem ht)
    simp only [compileAction, hk] at e2
    cases e2
    exact .leaf (ne_null hf hn' hC g1) e1 (lab_trav h hC ht hk) (ih (fun m hm => hn m (List.mem_cons_of_mem _ hm)) ys g2)
  | @pass n rest t a ht hr _ ih =>
    intro hn xs hx
    obtain ⟨i, ys, rfl, g1, g2⟩ := split hx
    have hn' := hn n List.mem_cons_self
    have hs := refers_pass h hn' ht hr
    obtain ⟨e, e1, e2⟩ := entry h hC (.pass (List.mem_map.2 ⟨t, ht, rfl⟩)) (i := i) (by rw [← g1]; exact congrArg (fun z => value _ (sID ++ z)) (upr_iff.2 hs))
    obtain ⟨k, hk⟩ := value_some.2 (pass_mem ht)
    simp only [compileAction, hk] at e2
    cases e2
    exact .leaf (ne_null hf hn' hC g1) e1 (lab_pass h hC ht hk) (ih (fun m hm => hn m (List.mem_cons_of_mem _ hm)) ys g2)
  | @phase n rest p b a hq hr _ _ ihb iha =>
    intro hn xs hx
    obtain ⟨i, ys, rfl, g1, g2⟩ := split hx
    have hn' := hn n List.mem_cons_self
    have hs := refers_phase h hn' hq hr
    obtain ⟨e, e1, e2⟩ := entry h hC (.phase (List.mem_map.2 ⟨p, hq, rfl⟩)) (i := i) (by rw [← g1]; exact congrArg (fun z => value _ (sID ++ z)) (upr_iff.2 hs))
    simp only [] at e2
    rw [compile_phase h hf hq, Option.map_eq_some_iff] at e2
    obtain ⟨zs, e2, rfl⟩ := e2
    have := Loads.phase (ne_null hf hn' hC g1) e1 (ihb (hb p hq) zs e2) (iha (fun m hm => hn m (List.mem_cons_of_mem _ hm)) ys g2)
    rw [Option.map_map, Option.map_map] at this
    exact this

/-- The first phase. -/
theorem root_loads (h : Right A tab) (hb : ByName A) {s : Nat} {C : Image} (hC : compile (declsOf A) s = some C) {p : Parse.Phase}
    (hs : A.phases[s]? = some p) {a : PD.Acts Lab} (hp : Program A p.actions a) : ∃ table,
    C.actions[C.root]? = some ⟨p.name.orig, .phase (p.gate.map fun g => g.orig) table p.cycle⟩ ∧ Loads C table a := by
  have hf := (single_iff h).1 (compile_parts hC).1
  have hq := List.mem_of_getElem? hs
  obtain ⟨_, _, _, _, _, q, h6, h7⟩ := compile_parts hC
  have : q = ⟨idOf p.name, p.gate.map idOf, p.cycle, p.actions.map idOf⟩ := by simpa [declsOf, hs] using h6.symm
  subst this
  obtain ⟨e, e1, e2⟩ := entry h hC (.phase (List.mem_map.2 ⟨p, hq, rfl⟩)) h7
  simp only [] at e2
  rw [compile_phase h hf hq, Option.map_eq_some_iff] at e2
  obtain ⟨zs, e2, rfl⟩ := e2
  refine ⟨zs, ?_, loads h hb hC hp (hb p hq) zs e2⟩
  rw [e1, Option.map_map]
  rfl

end

end Verif.Compiled
