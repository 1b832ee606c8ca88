import Verif.Lemmas.GenFilesGood

/-!
# Generated files that do not work out
-/

namespace Verif.GenFiles
open Verif.Str Verif.Ids Verif.Semantic
open Verif.Spec.Str (lowerB upperB SameName)
open Verif.Spec.GenFiles (Place At find findPath findLib NoSlash Refers IsLink Translates Closed Done)

section
variable {A : Parse.Ast} {v : Words} {u : Bool} {hs ts : List Block} {w : Spec.GenFiles.World} {user : Option (List CStr)}

/-! ### Words of `enum.h` -/

/-- A bar, and no small `n` at the beginning. -/
def Const (x : CStr) : Prop := 95 ∈ x ∧ x.head? ≠ some 110

theorem upper_head (l m : CStr) (h : m.head? ≠ some 110) : (l.map upperB ++ m).head? ≠ some 110 := by
  cases l with
  | nil => exact h
  | cons c l =>
    intro e
    have e : upperB c = 110 := by simpa using e
    unfold upperB at e
    split at e
    · rename_i hc
      have h1 := congrArg UInt8.toNat e
      have h2 : (97 : UInt8).toNat ≤ c.toNat := hc.1
      have h3 : c.toNat ≤ (122 : UInt8).toNat := hc.2
      have h4 : (c - 32).toNat = (256 - 32 + c.toNat) % 256 := by rw [UInt8.toNat_sub]; rfl
      simp at h1 h2 h3 h4
      omega
    · rename_i hc
      exact hc (by subst e; decide)

theorem const_enum {x : Sym} (h : x ∈ enumDecls A) : ∀ c, x = .word c → Const c := by
  intro c hc
  subst hc
  rcases List.mem_append.1 h with h | h
  · obtain ⟨e, _, h⟩ := List.mem_map.1 h
    cases h
  · obtain ⟨e, he, h⟩ := List.mem_flatMap.1 h
    obtain ⟨y, hy, h⟩ := List.mem_map.1 h
    cases h
    have hm : c ∈ (EnumHeader.header A).flatMap (·.2) := List.mem_flatMap.2 ⟨e, he, hy⟩
    rw [EnumHeader.header_entries] at hm
    rcases List.mem_append.1 hm with hm | hm
    · obtain ⟨g, hg, hm⟩ := List.mem_flatMap.1 hm
      have hp : ∀ y, Const (g.1 ++ y) := by
        simp only [EnumHeader.groups, List.mem_cons, List.not_mem_nil, or_false] at hg
        rcases hg with rfl | rfl | rfl | rfl <;> intro y <;>
          exact ⟨List.mem_append_left _ (by dsimp only; decide), by simp [Tables.sNS, Tables.sNT, Tables.sTRAV, Tables.sPASS]⟩
      simp only [EnumHeader.group, List.mem_cons, List.mem_append, List.mem_map, List.not_mem_nil, or_false] at hm
      rcases hm with rfl | ⟨y, _, rfl⟩ | ⟨y, _, rfl⟩ | rfl
      · exact hp _
      · exact hp _
      · exact hp _
      · exact ⟨by simp, by simp⟩
    · obtain ⟨e, _, hm⟩ := List.mem_flatMap.1 hm
      rcases List.mem_cons.1 hm with rfl | hm
      · exact ⟨List.mem_append_right _ (by decide), upper_head _ _ (by decide)⟩
      · obtain ⟨b, _, rfl⟩ := List.mem_map.1 hm
        exact ⟨List.mem_append_right _ List.mem_cons_self, upper_head _ _ (by simp)⟩

/-! ### What the headers of equations read -/

/-- The headers that those for equations include. -/
def Reads (A : Parse.Ast) (p : Place) : Prop :=
  p ∈ [.made b!"ccngen/ccn_defs.h", .made b!"ccngen/enum.h", .made b!"ccngen/equation.h", .lib b!"ccn/ccn_types.h", .lib b!"stdbool.h",
    .lib b!"stdint.h", .lib b!"user_types.h"] ∨ ∃ n ∈ A.nodes, n.equations ≠ [] ∧ p = .made (headerOf n)

/-- The word is not declared there. -/
def Absent (user : Option (List CStr)) (bad : CStr) : Prop := (bad = b!"node_st" ∨ bad = b!"NULL") ∧ ∀ l ∈ user, bad ∉ l

theorem finds (S : Set A v u hs ts user w) {dir : Option CStr} {sys : Bool} {name : CStr} {p : Place} (h : whereIs dir sys name = some p)
    (hh : isHeader p = true) (hp : Reads A p) : ∀ q d, find w dir sys name = some (q, d) → Reads A q := by
  intro q d hq
  obtain ⟨c, hc, _⟩ := whereIs_find S h hh
  cases hc.symm.trans hq
  exact hp

theorem cond_reads (S : Set A v u hs ts user w) : ∀ q d, find w (some eqDir) false b!"user_types.h" = some (q, d) → Reads A q := by
  intro q d h
  unfold find at h
  dsimp only at h
  cases hf : w.file (eqDir ++ b!"user_types.h") with
  | some c =>
    rw [hf] at h
    cases h
    have hk := S.only _ (by rw [hf]; exact fun h => by cases h)
    generalize hp : eqDir ++ b!"user_types.h" = p at hk ⊢
    cases hk with
    | always h => subst hp; exact absurd h (by decide +kernel)
    | header h1 h2 => exact Or.inr ⟨_, h1, h2, rfl⟩
    | @template n _ _ =>
      have := congrArg (b!"user/".isPrefixOf ·) hp
      cases this
    | @trav x _ =>
      have := congrArg (b!"user/".isPrefixOf ·) hp
      cases this
  | none =>
    rw [hf] at h
    dsimp only at h
    rw [findPath, S.none (p := b!"user_types.h") (by decide +kernel)] at h
    dsimp only at h
    unfold findLib at h
    cases hl : w.lib b!"user_types.h" with
    | none => rw [hl] at h; cases h
    | some c =>
      rw [hl] at h
      cases h
      exact Or.inl (by decide +kernel)

theorem reads_closed (S : Set A v u hs ts user w) {bad : CStr} (hb : Absent user bad) : ∀ p c, Reads A p → At w p c →
    Closed w (Reads A) (fun x => x ≠ .word bad) p.dir c := by
  have hw : ∀ {l : List CStr}, b!"node_st" ∉ l → b!"NULL" ∉ l → ∀ x ∈ words l, x ≠ .word bad := by
    intro l h1 h2 x hx e
    obtain ⟨y, hy, rfl⟩ := List.mem_map.1 hx
    cases e
    rcases hb.1 with rfl | rfl
    · exact h1 hy
    · exact h2 hy
  intro p c hp ha
  rcases hp with hp | ⟨n, h1, h2, rfl⟩
  · have lib : ∀ {n : CStr}, p = .lib n → (libInfo.lookup n).isSome = true → (library Option.none).lookup n = some c := by
      intro n e hi
      subst e
      obtain ⟨c', e1, e2, _⟩ := lib_lookup (user := user) hi
      rw [At, S.lib] at ha
      rw [e1, ← e2]
      exact ha
    simp only [List.mem_cons, List.not_mem_nil, or_false] at hp
    rcases hp with rfl | rfl | rfl | rfl | rfl | rfl | rfl
    · cases (S.file _ (defsH u) (by simp [blocks, third])).symm.trans ha
      cases u with
      | true => exact ⟨by simp [defsH], by simp [defsH], by simp [defsH]⟩
      | false => exact ⟨by simp [defsH], by simp [defsH], by simp [defsH]⟩
    · cases (S.file _ (enumH A) (by simp [blocks, first])).symm.trans ha
      refine ⟨by simp [enumH], by simp [enumH], fun ds us hi x hx e => ?_⟩
      simp only [enumH, List.mem_cons, List.not_mem_nil, or_false, reduceCtorEq, false_or, Item.text.injEq] at hi
      obtain ⟨rfl, rfl⟩ := hi
      have := const_enum hx _ e
      rcases hb.1 with rfl | rfl
      · exact this.2 rfl
      · exact absurd this.1 (by decide)
    · cases (S.file _ (equationH A) (by simp [blocks, first])).symm.trans ha
      have hi : ∀ i ∈ equationH A, i = .once ∨ ∃ n ∈ A.nodes, n.equations ≠ [] ∧ i = .incl false (headerOf n) := by
        intro i hi
        rcases List.mem_cons.1 hi with h | h
        · exact Or.inl h
        · obtain ⟨n, hn, rfl⟩ := List.mem_map.1 h
          exact Or.inr ⟨n, (mem_withEqs.1 hn).1, (mem_withEqs.1 hn).2, include_header n⟩
      refine ⟨fun sys name h => ?_, fun name h => ?_, fun ds us h => ?_⟩
      · rcases hi _ h with h | ⟨n, h1, h2, h⟩
        · cases h
        · cases h
          obtain ⟨k, hk⟩ := List.getElem?_of_mem h1
          obtain ⟨is, hf, _⟩ := header_find S hk h2 (d := b!"ccngen/") (Or.inl rfl)
          intro q d hq
          cases hf.symm.trans hq
          exact Or.inr ⟨n, h1, h2, rfl⟩
      · rcases hi _ h with h | ⟨n, h1, h2, h⟩ <;> cases h
      · rcases hi _ h with h | ⟨n, h1, h2, h⟩ <;> cases h
    · have := lib rfl (by decide +kernel)
      cases this
      refine ⟨fun sys name h => ?_, by simp, fun ds us h => ?_⟩
      · simp only [List.mem_cons, List.not_mem_nil, or_false, reduceCtorEq, false_or, Item.incl.injEq] at h
        rcases h with ⟨rfl, rfl⟩ | ⟨rfl, rfl⟩ | ⟨rfl, rfl⟩
        · exact finds S (p := .made b!"ccngen/enum.h") (by decide +kernel) (by decide +kernel) (Or.inl (by decide +kernel))
        · exact finds S (p := .lib b!"stdbool.h") (by decide +kernel) (by decide +kernel) (Or.inl (by decide +kernel))
        · exact finds S (p := .lib b!"stdint.h") (by decide +kernel) (by decide +kernel) (Or.inl (by decide +kernel))
      · simp only [List.mem_cons, List.not_mem_nil, or_false, reduceCtorEq, false_or, Item.text.injEq] at h
        rw [h.1]
        exact hw (by decide) (by decide)
    · have := lib rfl (by decide +kernel)
      cases this
      refine ⟨by simp, by simp, fun ds us h => ?_⟩
      simp only [List.mem_cons, List.not_mem_nil, or_false, reduceCtorEq, false_or, Item.text.injEq] at h
      rw [h.1]
      exact hw (by decide) (by decide)
    · have := lib rfl (by decide +kernel)
      cases this
      refine ⟨by simp, by simp, fun ds us h => ?_⟩
      simp only [List.mem_cons, List.not_mem_nil, or_false, reduceCtorEq, false_or, Item.text.injEq] at h
      rw [h.1]
      exact hw (by decide) (by decide)
    · rw [At, S.lib] at ha
      cases user with
      | none => cases ((by decide +kernel : (library Option.none).lookup b!"user_types.h" = .none).symm.trans ha)
      | some l' =>
        have e : library (some l') = library Option.none ++ [(b!"user_types.h", [.once, .text (words l') []])] := by simp [library]
        dsimp only at ha
        rw [e, lookup_append, (by decide +kernel : (library Option.none).lookup b!"user_types.h" = .none)] at ha
        cases ha
        refine ⟨by simp, by simp, fun ds us h x hx e => ?_⟩
        simp only [List.mem_cons, List.not_mem_nil, or_false, reduceCtorEq, false_or, Item.text.injEq] at h
        rw [h.1] at hx
        obtain ⟨y, hy, rfl⟩ := List.mem_map.1 hx
        cases e
        exact hb.2 l' rfl hy
  · obtain ⟨k, hk⟩ := List.getElem?_of_mem h1
    obtain ⟨is, h3, h4⟩ := header_there S hk h2
    cases h3.symm.trans ha
    have hdir : Place.dir (.made (headerOf n)) = some eqDir := by rw [Place.dir, folder_eq, dir_header (S.slash.nodes n h1)]
    rw [hdir]
    have his : ∀ i ∈ is, ∃ us, i = .text [] us := by
      intro i hi
      obtain ⟨e, _, us, h, _⟩ := h4.from' i hi
      exact ⟨us, h⟩
    refine ⟨fun sys name h => ?_, fun name h => ?_, fun ds us h => ?_⟩
    · rcases List.mem_append.1 h with h | h
      · simp only [headerTop, List.mem_cons, List.not_mem_nil, or_false, reduceCtorEq, false_or, Item.incl.injEq] at h
        rcases h with ⟨rfl, rfl⟩ | ⟨rfl, rfl⟩ | ⟨rfl, rfl⟩
        · exact finds S (p := .made b!"ccngen/ccn_defs.h") (by decide +kernel) (by decide +kernel) (Or.inl (by decide +kernel))
        · exact finds S (p := .lib b!"ccn/ccn_types.h") (by decide +kernel) (by decide +kernel) (Or.inl (by decide +kernel))
        · exact finds S (p := .made b!"ccngen/enum.h") (by decide +kernel) (by decide +kernel) (Or.inl (by decide +kernel))
      · obtain ⟨us, h⟩ := his _ h
        cases h
    · rcases List.mem_append.1 h with h | h
      · simp only [headerTop, List.mem_cons, List.not_mem_nil, or_false, reduceCtorEq, false_or, Item.ifUnsafe.injEq] at h
        rw [h]
        exact cond_reads S
      · obtain ⟨us, h⟩ := his _ h
        cases h
    · rcases List.mem_append.1 h with h | h
      · simp [headerTop] at h
      · obtain ⟨us, h⟩ := his _ h
        cases h
        exact fun _ h => by cases h

/-! ### Links -/

theorem link_ptr {tab : List (Ste Decl)} (hr : Right A tab) {a : Parse.Attr} (hl : IsLink A a) {c : NodeGen.CTy} (h : TyOf A a c) : c = .nodePtr := by
  obtain ⟨h1, r, h2, h3⟩ := hl
  cases h with
  | link => rfl
  | enum _ _ e1 e2 =>
    cases (show a.ref = some r from h2).symm.trans e1
    exfalso
    obtain ⟨x, hx, hn, hk⟩ := e2
    have e3 := (table_key hr.bst r.orig x.2).2 ⟨x, hx, hn, rfl⟩
    rcases h3 with ⟨n, hn, hs⟩ | ⟨n, hn, hs⟩
    · obtain ⟨k, hk'⟩ := List.getElem?_of_mem hn
      have := (hr.table.node r.orig k).2 ⟨n, hk', hs⟩
      rw [e3] at this
      have e := congrArg Decl.kind (Option.some.inj this)
      rw [hk] at e
      cases e
    · obtain ⟨k, hk'⟩ := List.getElem?_of_mem hn
      have := (hr.table.set r.orig k).2 ⟨n, hk', hs⟩
      rw [e3] at this
      have e := congrArg Decl.kind (Option.some.inj this)
      rw [hk] at e
      cases e
  | user e => rw [h1] at e; cases e
  | basic _ e => exact absurd h1 e

/-- An equation has to do with a link. -/
structure Linked (A : Parse.Ast) (k : Nat) (n : Parse.Node) : Prop where
  node : A.nodes[k]? = some n
  link : ∃ e ∈ n.equations, ∃ r ∈ e.rule :: e.args, ∀ a, Refers A k n r a → IsLink A a

theorem Linked.eqs {k : Nat} {n : Parse.Node} (h : Linked A k n) : n.equations ≠ [] := by
  obtain ⟨e, he, _⟩ := h.link
  intro h
  rw [h] at he
  cases he

theorem linked_uses (S : Set A v u hs ts user w) {k : Nat} {n : Parse.Node} (h : Linked A k n) {is : List Item} (hl : EqLines A k n n.equations is) :
    ∃ us, Item.text [] us ∈ is ∧ Sym.word b!"node_st" ∈ us := by
  obtain ⟨e, he, r, hr, h1⟩ := h.link
  obtain ⟨ws, h2, h3⟩ := hl.all e he
  obtain ⟨a, c, h4, h5, h6⟩ := h3.all r hr
  obtain ⟨tab, ht⟩ := S.right
  cases link_ptr ht (h1 a h4) h5
  exact ⟨ws, h2, h6 _ (List.mem_singleton.2 rfl)⟩

/-- The header was read: it has no link. -/
theorem not_done (S : Set A v u hs ts user w) {k : Nat} {n : Parse.Node} (h : Linked A k n) {seen : List Place}
    (hd : ∀ c, At w (.made (headerOf n)) c → Done w (fun x => x ≠ .word b!"node_st") seen (Place.dir (.made (headerOf n))) c) : False := by
  obtain ⟨is, h1, h2⟩ := header_there S h.node h.eqs
  obtain ⟨us, h3, h4⟩ := linked_uses S h h2
  exact (hd _ h1).uses [] us (List.mem_append_right _ h3) _ h4 rfl

theorem template_link (S : Set A v u hs ts user w) (hu : ∀ l ∈ user, b!"node_st" ∉ l) {k : Nat} {n : Parse.Node} (h : Linked A k n) :
    ¬ Translates w (templateOf n) := by
  intro ht
  obtain ⟨is, h1, h2⟩ := template_there S h.node h.eqs
  obtain ⟨js, h3, _⟩ := header_find S h.node h.eqs (d := b!"user/") (Or.inr rfl)
  have hdir : Spec.GenFiles.folder (templateOf n) = b!"user/" := by
    rw [folder_eq, dir_template (S.slash.nodes n (List.mem_of_getElem? h.node))]
  obtain ⟨s, d1, d2⟩ := Spec.GenFiles.translates_done (reads_closed S (bad := b!"node_st") ⟨Or.inl rfl, hu⟩) (a := [includeOf n]) (b := is) h1 (by
    rw [hdir, include_header]
    refine ⟨fun sys name hm => ?_, by simp, by simp⟩
    cases List.mem_singleton.1 hm
    intro q d hq
    cases h3.symm.trans hq
    exact Or.inr ⟨n, List.mem_of_getElem? h.node, h.eqs, rfl⟩) ht
  rw [hdir, include_header] at d2
  rcases d1 _ (d2.incl false _ List.mem_cons_self _ _ h3) with e | e
  · have := congrArg (fun p => match p with | .made p => b!"user/".isPrefixOf p | .lib _ => true) e
    cases this
  · exact not_done S h e

theorem visit_link (S : Set A v u hs ts user w) (hu : ∀ l ∈ user, b!"node_st" ∉ l) {k : Nat} {n : Parse.Node} (h : Linked A k n) :
    ¬ Translates w b!"visit.c" := by
  intro ht
  have hfold : Spec.GenFiles.folder b!"visit.c" = [] := by decide +kernel
  obtain ⟨c, hc, _⟩ := whereIs_find S (dir := some []) (sys := false) (name := b!"ccngen/equation.h") (p := .made b!"ccngen/equation.h")
    (by decide +kernel) (by decide +kernel)
  obtain ⟨s, d1, d2⟩ := Spec.GenFiles.translates_done (reads_closed S (bad := b!"node_st") ⟨Or.inl rfl, hu⟩)
    (a := [.incl false b!"ccngen/equation.h"])
    (S.file b!"visit.c" (visitC v) (by simp [blocks, second])) (by
      rw [hfold]
      refine ⟨fun sys name hm => ?_, by simp, by simp⟩
      cases List.mem_singleton.1 hm
      exact finds S (by decide +kernel) (by decide +kernel : isHeader (.made b!"ccngen/equation.h") = true) (Or.inl (by decide +kernel))) ht
  rw [hfold] at d2
  rcases d1 _ (d2.incl false _ List.mem_cons_self _ _ hc) with e | e
  · cases e
  · have h1 := e (equationH A) (S.file _ (equationH A) (by simp [blocks, first]))
    obtain ⟨is, h2, _⟩ := header_find S h.node h.eqs (d := b!"ccngen/") (Or.inl rfl)
    have h3 := h1.incl false (headerOf n) (List.mem_cons_of_mem _ (List.mem_map.2 ⟨n, mem_withEqs.2 ⟨List.mem_of_getElem? h.node, h.eqs⟩,
      include_header n⟩)) _ _ h2
    rcases d1 _ h3 with e | e
    · cases e
    · exact not_done S h e

/-! ### Strings -/

/-- An equation is for a string or a link. -/
structure Nulled (A : Parse.Ast) (k : Nat) (n : Parse.Node) : Prop where
  node : A.nodes[k]? = some n
  null : ∃ e ∈ n.equations, ∀ a, Refers A k n e.rule a → a.type = .string ∨ IsLink A a

theorem template_null (S : Set A v u hs ts user w) (hu : ∀ l ∈ user, b!"NULL" ∉ l) {k : Nat} {n : Parse.Node} (h : Nulled A k n) :
    ¬ Translates w (templateOf n) := by
  intro ht
  obtain ⟨e, he, hn⟩ := h.null
  have heqs : n.equations ≠ [] := fun h => by rw [h] at he; cases he
  obtain ⟨is, h1, h2⟩ := template_there S h.node heqs
  obtain ⟨js, h3, _⟩ := header_find S h.node heqs (d := b!"user/") (Or.inr rfl)
  have hdir : Spec.GenFiles.folder (templateOf n) = b!"user/" := by
    rw [folder_eq, dir_template (S.slash.nodes n (List.mem_of_getElem? h.node))]
  have his : ∀ i ∈ is, ∃ us, i = .text [] us := by
    intro i hi
    obtain ⟨e, _, ws, us, h, _⟩ := h2.from' i hi
    exact ⟨_, h⟩
  obtain ⟨s, d1, d2⟩ := Spec.GenFiles.translates_done (reads_closed S (bad := b!"NULL") ⟨Or.inr rfl, hu⟩) (a := includeOf n :: is) (b := [])
    (by rw [List.append_nil]; exact h1) (by
      rw [hdir, include_header]
      refine ⟨fun sys name hm => ?_, fun name hm => ?_, fun ds us hm => ?_⟩
      · rcases List.mem_cons.1 hm with hm | hm
        · cases hm
          intro q d hq
          cases h3.symm.trans hq
          exact Or.inr ⟨n, List.mem_of_getElem? h.node, heqs, rfl⟩
        · obtain ⟨us, hm⟩ := his _ hm
          cases hm
      · rcases List.mem_cons.1 hm with hm | hm
        · cases hm
        · obtain ⟨us, hm⟩ := his _ hm
          cases hm
      · rcases List.mem_cons.1 hm with hm | hm
        · cases hm
        · obtain ⟨us, hm⟩ := his _ hm
          cases hm
          exact fun _ h => by cases h) ht
  obtain ⟨ws, us, h4, _, a, h5, h6, _⟩ := h2.all e he
  have := h6 (hn a h5)
  subst this
  exact d2.uses [] _ (List.mem_cons_of_mem _ h4) (.word b!"NULL") (List.mem_append_right _ (List.mem_singleton.2 rfl)) rfl

end

end Verif.GenFiles
