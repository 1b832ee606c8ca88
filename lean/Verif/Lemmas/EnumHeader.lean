import Verif.Lemmas.Declared
import Verif.Lemmas.SemanticMain
import Verif.Spec.EnumHeader

/-!
# The enumerations of a generated compiler
-/

namespace Verif.EnumHeader
open Verif.Str Verif.Ids Verif.Tables Verif.Spec.EnumHeader
open Verif.Semantic (idOf progOf Right)
open Verif.Spec.Str (lowerB upperB SameName)
open Verif.Declared (Up Low up_upper low_lowerB low_upperB split_eq)
open Verif.Compiled (declsOf null_iff upr_iff)
open Verif.Spec.Compiled (Null)

variable {A : Parse.Ast} {tab : List (Ste Decl)}

/-! ### What the generator writes -/

theorem evid_map (pre : CStr) (l : List Id) : DGEVid pre l = l.map fun v => pre ++ 95 :: v.lwr := by
  induction l with
  | nil => rfl
  | cons x r ih => rw [DGEVid, ih]; rfl

theorem evenum_map (l : List Enum) : DGEVienum l =
    l.map fun e => (e.name.orig, (e.iprefix.upr ++ 95 :: sNULL) :: DGEVid e.iprefix.upr e.vals) := by
  induction l with
  | nil => rfl
  | cons x r ih => rw [DGEVienum, ih]; rfl

theorem user_eq (A : Parse.Ast) : DGEVast A = A.enums.map enumeration := by
  rw [DGEVast, evenum_map, List.map_map]
  apply List.map_congr_left
  intro e _
  simp only [Function.comp_def, evid_map, List.map_map]
  rfl

/-- The entries of the generator's own enumerations. -/
def group (pre : CStr) (names own : List CStr) : List CStr :=
  (pre ++ sNULL) :: (names.map (pre ++ ·) ++ (own.map (pre ++ ·) ++ [95 :: pre ++ sSIZE]))

/-- The groups: prefix, names, what is added. -/
def groups (A : Parse.Ast) : List (CStr × List CStr × List CStr) :=
  [(sNS, A.nodesets.map fun s => (idOf s.name).upr, []), (sNT, A.nodes.map fun n => (idOf n.name).upr, []),
    (sTRAV, A.traversals.map fun t => (idOf t.uid).upr, [sFree, sCheck, sCpy]), (sPASS, A.passes.map fun p => (idOf p.name).upr, [])]

theorem header_entries (A : Parse.Ast) : (header A).flatMap (·.2) =
    (groups A).flatMap (fun g => group g.1 g.2.1 g.2.2) ++ A.enums.flatMap fun e => first e :: e.vals.map (entry e) := by
  rw [header, user_eq]
  simp only [List.flatMap_append, List.flatMap_cons, List.flatMap_nil, List.append_nil, groups, DGEast]
  rw [enum_other (pre := sNS) (by decide), enum_other (pre := sNT) (by decide), enum_trav, enum_other (pre := sPASS) (by decide), inode_map, inodeset_map, itraversal_map, ipass_map]
  simp only [group, declsOf, List.map_map, Function.comp_def, List.map_nil, List.nil_append, List.map_cons, List.flatMap_map,
    enumeration, List.cons_append]

theorem header_tags (A : Parse.Ast) : (header A).map (·.1) = ownTags ++ A.enums.map (·.name.orig) := by
  rw [header, user_eq]
  simp only [List.map_append, List.map_map, Function.comp_def, enumeration]
  rfl

/-! ### Letters -/

theorem up_group {pre : CStr} (hp : Up pre) {names own : List CStr} (hn : ∀ x ∈ names, Up x) {x : CStr} (h : x ∈ group pre names own) :
    Up x ∨ ∃ y ∈ own, x = pre ++ y := by
  have up_app : ∀ {a b : CStr}, Up a → Up b → Up (a ++ b) := fun ha hb c hc => (List.mem_append.1 hc).elim (ha c) (hb c)
  simp only [group, List.mem_cons, List.mem_append, List.mem_map, List.not_mem_nil, or_false] at h
  rcases h with rfl | ⟨y, hy, rfl⟩ | ⟨y, hy, rfl⟩ | rfl
  · exact .inl (up_app hp (by unfold Up; decide))
  · exact .inl (up_app hp (hn y hy))
  · exact .inr ⟨y, hy, rfl⟩
  · refine .inl (up_app (fun c hc => ?_) (by unfold Up; decide))
    rcases List.mem_cons.1 hc with rfl | hc
    · rfl
    · exact hp c hc

theorem up_first (e : Parse.Enum) : Up (first e) := by
  intro c hc
  rw [first] at hc
  rcases List.mem_append.1 hc with hc | hc
  · exact up_upper _ c hc
  · have key : Up null := by unfold Up null; decide
    exact key c hc

theorem low_value (hl : Lettered A) {e : Parse.Enum} (he : e ∈ A.enums) {v : Parse.Name} (hv : v ∈ e.vals) : Low (v.orig.map lowerB) := by
  obtain ⟨c, cs, h1, h2⟩ := hl e he v hv
  exact ⟨lowerB c, cs.map lowerB, by rw [h1]; rfl, low_lowerB c h2⟩

theorem up_pre (e : Parse.Enum) : Up (e.pre.orig.map upperB ++ [95]) := by
  intro c hc
  rcases List.mem_append.1 hc with hc | hc
  · exact up_upper _ c hc
  · rw [List.mem_singleton.1 hc]; rfl

theorem entry_eq (e : Parse.Enum) (v : Parse.Name) : entry e v = (e.pre.orig.map upperB ++ [95]) ++ v.orig.map lowerB := by
  rw [entry, List.append_assoc]; rfl

theorem not_up (hl : Lettered A) {e : Parse.Enum} (he : e ∈ A.enums) {v : Parse.Name} (hv : v ∈ e.vals) : ¬ Up (entry e v) := by
  intro h
  obtain ⟨c, cs, h1, h2⟩ := low_value hl he hv
  have := h c (by rw [entry_eq, h1]; simp)
  rw [h2] at this
  cases this

/-! ### Prefixes -/

theorem pres (h : Right A tab) : A.enums.Pairwise fun a b => a.pre.orig.map upperB ≠ b.pre.orig.map upperB := by
  have hd := h.sound.prefixes.1
  simp only [Spec.CheckExist.Distinct, progOf, List.map_map, Function.comp_def] at hd
  rw [List.pairwise_map] at hd
  refine hd.imp fun hn e => hn ?_
  show _ = _
  rw [map_lower_iff_upper]
  exact e

/-- `NT`, `NS`, `TRAV` and `PASS` are reserved. -/
theorem unreserved (h : Right A tab) {e : Parse.Enum} (he : e ∈ A.enums) {w : CStr}
    (hw : w ∈ [[78, 84], [78, 83], [84, 82, 65, 86], [80, 65, 83, 83]]) : e.pre.orig.map upperB ≠ w := by
  intro e1
  refine h.sound.prefixes.2 ⟨idOf e.name, idOf e.pre⟩ (List.mem_map.2 ⟨e, he, rfl⟩) ⟨w, ?_, e1⟩
  have key : ∀ w ∈ [[78, 84], [78, 83], [84, 82, 65, 86], [80, 65, 83, 83]], w ∈ Spec.CheckExist.prefixWords := by decide +kernel
  exact key w hw

theorem enum_inj (h : Right A tab) {i j : Nat} {a b : Parse.Enum} (ha : A.enums[i]? = some a) (hb : A.enums[j]? = some b)
    (e : SameName a.name.orig b.name.orig) : i = j := by
  have key : ∀ (k : Nat) (x : Parse.Enum), A.enums[k]? = some x → ((idOf x.name), (⟨.enum, k⟩ : Decl)) ∈ Spec.Ids.declared (progOf A).ids := by
    intro k x hx
    have h1 : (progOf A).ids.enums[k]? = some (idOf x.name) := by
      simp only [CheckExist.Prog.ids, progOf, List.map_map, List.getElem?_map, hx, Option.map_some]
      rfl
    have := Props.plain_mem .enum (progOf A).ids.enums 0 k _ h1
    rw [Nat.zero_add] at this
    simp only [Spec.Ids.declared, List.mem_append]
    exact .inr (.inr (.inr (.inr (.inr this))))
  have h1 := (Semantic.table_key h.bst b.name.orig ⟨.enum, i⟩).2 ⟨_, key i a ha, e, rfl⟩
  have h2 := (Semantic.table_key h.bst b.name.orig ⟨.enum, j⟩).2 ⟨_, key j b hb, rfl, rfl⟩
  rw [h1] at h2
  cases h2
  rfl

/-! ### The generator's own entries -/

/-- To tell the groups apart. -/
def key (x : CStr) : CStr :=
  match x with
  | 95 :: r => r.take 2
  | x => x.take 2

theorem key_group {c d : UInt8} (hc : c ≠ 95) {p : CStr} {names own : List CStr} {x : CStr} (h : x ∈ group (c :: d :: p) names own) :
    key x = [c, d] := by
  have k1 : ∀ y, key (c :: d :: p ++ y) = [c, d] := by
    intro y
    rw [key]
    · rfl
    · intro r e
      injection e with e _
      exact hc e
  simp only [group, List.mem_cons, List.mem_append, List.mem_map, List.not_mem_nil, or_false] at h
  rcases h with rfl | ⟨y, hy, rfl⟩ | ⟨y, hy, rfl⟩ | rfl
  · exact k1 _
  · exact k1 _
  · exact k1 _
  · rfl

theorem groups_nodup (A : Parse.Ast) : ((groups A).flatMap fun g => group g.1 g.2.1 g.2.2).Nodup ↔
    ∀ g ∈ groups A, (group g.1 g.2.1 g.2.2).Nodup := by
  rw [List.Nodup, List.pairwise_flatMap]
  refine and_iff_left ?_
  have h : ∀ {c d c' d' : UInt8} {p p' : CStr} {n n' o o' : List CStr}, c ≠ 95 → c' ≠ 95 → [c, d] ≠ [c', d'] →
      ∀ x ∈ group (c :: d :: p) n o, ∀ y ∈ group (c' :: d' :: p') n' o', x ≠ y := by
    intro c d c' d' p p' n n' o o' hc hc' hk x hx y hy e
    apply hk
    rw [← key_group hc hx, e, key_group hc' hy]
  simp only [groups, List.pairwise_cons, List.mem_cons, List.not_mem_nil, or_false, forall_eq_or_imp, forall_eq, List.Pairwise.nil,
    and_true, false_imp_iff, implies_true]
  refine ⟨⟨h ?_ ?_ ?_, h ?_ ?_ ?_, h ?_ ?_ ?_⟩, ⟨h ?_ ?_ ?_, h ?_ ?_ ?_⟩, h ?_ ?_ ?_⟩ <;> decide

theorem group_iff {c : UInt8} (hc : c ≠ 95) {p : CStr} {l own : List CStr} (hl : l.Nodup) (ho : own.Nodup) (h : ∀ x ∈ l, x ∉ own)
    (hn : sNULL ∉ own) : (group (c :: p) l own).Nodup ↔ sNULL ∉ l := by
  constructor
  · intro hg hm
    rw [group, List.nodup_cons] at hg
    exact hg.1 (List.mem_append_left _ (List.mem_map.2 ⟨_, hm, rfl⟩))
  · intro hm
    exact enum_nodup hl ho (fun x hx hx' => by
      rcases List.mem_cons.1 hx' with rfl | hx'
      · exact hm hx
      · exact h x hx hx') hn c hc p

theorem own_iff (h : Right A tab) : ((groups A).flatMap fun g => group g.1 g.2.1 g.2.2).Nodup ↔
    (∀ n ∈ A.nodes, ¬ Null n.name) ∧ (∀ s ∈ A.nodesets, ¬ Null s.name) ∧ (∀ t ∈ A.traversals, ¬ Null t.uid) ∧
      ∀ p ∈ A.passes, ¬ Null p.name := by
  have mem : ∀ {α : Type} (l : List α) (f : α → Parse.Name), sNULL ∉ l.map (fun a => (idOf (f a)).upr) ↔ ∀ a ∈ l, ¬ Null (f a) := by
    intro α l f
    simp only [List.mem_map, not_exists, not_and, null_iff]
  rw [groups_nodup]
  simp only [groups, List.mem_cons, List.not_mem_nil, or_false, forall_eq_or_imp, forall_eq]
  rw [sNS, sNT, sTRAV, sPASS, group_iff (by decide) (Compiled.nodup_of fun i j a b ha hb e => Compiled.set_inj h ha hb (upr_iff.1 e)) (by simp)
      (by simp) (by simp),
    group_iff (by decide) (Compiled.nodup_of fun i j a b ha hb e => Compiled.node_inj h ha hb (upr_iff.1 e)) (by simp) (by simp) (by simp),
    group_iff (by decide) (Compiled.nodup_of fun i j a b ha hb e => Compiled.uid_inj h ha hb (upr_iff.1 e)) (by decide) ?_ (by decide),
    group_iff (by decide) (Compiled.nodup_of fun i j a b ha hb e => Compiled.pass_inj h ha hb (upr_iff.1 e)) (by simp) (by simp) (by simp),
    mem, mem, mem, mem]
  · constructor
    · rintro ⟨h1, h2, h3, h4⟩; exact ⟨h2, h1, h3, h4⟩
    · rintro ⟨h1, h2, h3, h4⟩; exact ⟨h2, h1, h3, h4⟩
  · intro x hx hm
    obtain ⟨t, _, rfl⟩ := List.mem_map.1 hx
    have up := up_upper t.uid.orig
    have : ∀ w ∈ [sFree, sCheck, sCpy], ¬ Up w := by unfold Up; decide
    exact this _ hm up

/-! ### The entries of the user -/

theorem values_nodup (hl : Lettered A) {e : Parse.Enum} (he : e ∈ A.enums) :
    (first e :: e.vals.map (entry e)).Nodup ↔ e.vals.Pairwise fun v w => ¬ SameName v.orig w.orig := by
  rw [List.nodup_cons, List.Nodup, List.pairwise_map]
  constructor
  · rintro ⟨_, h⟩
    refine h.imp fun hn hs => hn ?_
    rw [entry, entry, show _ = _ from hs]
  · intro h
    refine ⟨fun hm => ?_, h.imp fun hn e1 => hn ?_⟩
    · obtain ⟨v, hv, e1⟩ := List.mem_map.1 hm
      exact not_up hl he hv (e1 ▸ up_first e)
    · rw [entry, entry] at e1
      injection List.append_cancel_left e1

theorem user_nodup (h : Right A tab) (hl : Lettered A) : (A.enums.flatMap fun e => first e :: e.vals.map (entry e)).Nodup ↔
    ∀ e ∈ A.enums, e.vals.Pairwise fun v w => ¬ SameName v.orig w.orig := by
  rw [List.Nodup, List.pairwise_flatMap]
  constructor
  · rintro ⟨h1, _⟩ e he
    exact (values_nodup hl he).1 (h1 e he)
  · intro h1
    refine ⟨fun e he => (values_nodup hl he).2 (h1 e he), ?_⟩
    refine List.Pairwise.imp_of_mem ?_ (pres h)
    intro a b ha hb hab x hx y hy e
    subst e
    rcases List.mem_cons.1 hx with rfl | hx
    · rcases List.mem_cons.1 hy with e | hy
      · exact hab (List.append_cancel_right e)
      · obtain ⟨v, hv, e⟩ := List.mem_map.1 hy
        exact not_up hl hb hv (e ▸ up_first a)
    · obtain ⟨v, hv, rfl⟩ := List.mem_map.1 hx
      rcases List.mem_cons.1 hy with e | hy
      · exact not_up hl ha hv (e ▸ up_first b)
      · obtain ⟨w, hw, e⟩ := List.mem_map.1 hy
        rw [entry_eq, entry_eq] at e
        obtain ⟨e1, _⟩ := split_eq (up_pre b) (up_pre a) (low_value hl hb hw) (low_value hl ha hv) e
        exact hab (List.append_cancel_right e1).symm

/-! ### Both -/

theorem names_up (A : Parse.Ast) : ∀ g ∈ groups A, Up g.1 ∧ (∀ x ∈ g.2.1, Up x) ∧ (g.2.2 ≠ [] → g.1 = sTRAV) ∧
    g.1 ∈ [sNS, sNT, sTRAV, sPASS] := by
  have up : ∀ {α : Type} (l : List α) (f : α → Parse.Name), ∀ x ∈ l.map (fun a => (idOf (f a)).upr), Up x := by
    intro α l f x hx
    obtain ⟨a, _, rfl⟩ := List.mem_map.1 hx
    exact up_upper _
  simp only [groups, List.mem_cons, List.not_mem_nil, or_false, forall_eq_or_imp, forall_eq]
  refine ⟨⟨?_, up _ _, ?_, ?_⟩, ⟨?_, up _ _, ?_, ?_⟩, ⟨?_, up _ _, ?_, ?_⟩, ?_, up _ _, ?_, ?_⟩ <;> first | (unfold Up; decide) | decide

theorem low_own : ∀ g ∈ groups A, ∀ y ∈ g.2.2, Low y := by
  simp only [groups, List.mem_cons, List.not_mem_nil, or_false, forall_eq_or_imp, forall_eq, false_imp_iff, implies_true, true_and, and_true]
  exact ⟨⟨_, _, rfl, by decide⟩, ⟨_, _, rfl, by decide⟩, ⟨_, _, rfl, by decide⟩⟩

/-- The entry of a value is none of the generator's. -/
theorem entry_own (h : Right A tab) (hl : Lettered A) {e : Parse.Enum} (he : e ∈ A.enums) {v : Parse.Name} (hv : v ∈ e.vals)
    {g : CStr × List CStr × List CStr} (hg : g ∈ groups A) : entry e v ∉ group g.1 g.2.1 g.2.2 := by
  intro hm
  obtain ⟨h1, h2, h3, _⟩ := names_up A g hg
  rcases up_group h1 h2 hm with hu | ⟨y, hy, e1⟩
  · exact not_up hl he hv hu
  · rw [entry_eq] at e1
    obtain ⟨e2, _⟩ := split_eq (up_pre e) h1 (low_value hl he hv) (low_own g hg y hy) e1
    rw [h3 (fun hn => by rw [hn] at hy; cases hy)] at e2
    exact unreserved h he (w := [84, 82, 65, 86]) (by simp) (List.append_cancel_right (bs := [95]) (e2.trans rfl))

theorem first_own (h : Right A tab) {e : Parse.Enum} (he : e ∈ A.enums) {g : CStr × List CStr × List CStr} (hg : g ∈ groups A) :
    first e ∉ group g.1 g.2.1 g.2.2 ↔ ∀ n ∈ g.2.1, first e ≠ g.1 ++ n := by
  obtain ⟨h1, h2, h3, h4⟩ := names_up A g hg
  constructor
  · intro hn n hm e1
    apply hn
    rw [e1, group]
    exact List.mem_cons_of_mem _ (List.mem_append_left _ (List.mem_map.2 ⟨n, hm, rfl⟩))
  · intro hn hm
    simp only [group, List.mem_cons, List.mem_append, List.mem_map, List.not_mem_nil, or_false] at hm
    rcases hm with e1 | ⟨y, hy, e1⟩ | ⟨y, hy, e1⟩ | e1
    · have key : ∀ w ∈ [sNS, sNT, sTRAV, sPASS], ∃ r ∈ [[78, 84], [78, 83], [84, 82, 65, 86], [80, 65, 83, 83]],
          w ++ sNULL = r ++ null := by decide
      obtain ⟨r, hr, e2⟩ := key _ h4
      rw [e2, first] at e1
      exact unreserved h he hr (List.append_cancel_right e1)
    · exact hn y hy e1.symm
    · obtain ⟨c, cs, rfl, hc⟩ := low_own g hg y hy
      have := up_first e c (by rw [← e1]; simp)
      rw [hc] at this
      cases this
    · rw [first, show sSIZE = [83, 73, 90] ++ [69] from rfl, show null = [95, 78, 85, 76] ++ [76] from rfl, ← List.append_assoc,
        ← List.append_assoc] at e1
      have := List.append_inj_right' e1 rfl
      revert this
      decide

theorem first_iff (e : Parse.Enum) {p : CStr} (hp : p.map upperB = p) (n : Parse.Name) :
    first e = p ++ (idOf n).upr ↔ SameName (e.pre.orig ++ null) (p ++ n.orig) := by
  rw [SameName, map_lower_iff_upper, List.map_append, List.map_append, hp]
  exact Iff.rfl

theorem accepted_iff (h : Right A tab) (hl : Lettered A) : Accepted (header A) ↔ Clear A := by
  have tags : ((header A).map (·.1)).Nodup ↔ ∀ e ∈ A.enums, e.name.orig ∉ ownTags := by
    rw [header_tags, List.nodup_append]
    constructor
    · rintro ⟨_, _, h1⟩ e he hm
      exact h1 _ hm _ (List.mem_map.2 ⟨e, he, rfl⟩) rfl
    · intro h1
      refine ⟨by decide, Compiled.nodup_of fun i j a b ha hb e => enum_inj h ha hb (by rw [SameName, e]), fun x hx y hy e => ?_⟩
      obtain ⟨a, ha, rfl⟩ := List.mem_map.1 hy
      exact h1 a ha (e ▸ hx)
  have both : (∀ x ∈ (groups A).flatMap (fun g => group g.1 g.2.1 g.2.2), ∀ y ∈ A.enums.flatMap (fun e => first e :: e.vals.map (entry e)),
      x ≠ y) ↔ ∀ e ∈ A.enums, ∀ g ∈ groups A, ∀ n ∈ g.2.1, first e ≠ g.1 ++ n := by
    constructor
    · intro h1 e he g hg
      rw [← first_own h he hg]
      exact fun hm => h1 _ (List.mem_flatMap.2 ⟨g, hg, hm⟩) _ (List.mem_flatMap.2 ⟨e, he, List.mem_cons_self⟩) rfl
    · intro h1 x hx y hy e1
      subst e1
      obtain ⟨g, hg, hx⟩ := List.mem_flatMap.1 hx
      obtain ⟨e, he, hy⟩ := List.mem_flatMap.1 hy
      rcases List.mem_cons.1 hy with rfl | hy
      · exact (first_own h he hg).2 (h1 e he g hg) hx
      · obtain ⟨v, hv, rfl⟩ := List.mem_map.1 hy
        exact entry_own h hl he hv hg hx
  have four : (∀ e ∈ A.enums, ∀ g ∈ groups A, ∀ n ∈ g.2.1, first e ≠ g.1 ++ n) ↔
      (∀ e ∈ A.enums, ∀ n ∈ A.nodesets, ¬ SameName (e.pre.orig ++ null) ([78, 83, 95] ++ n.name.orig)) ∧
      (∀ e ∈ A.enums, ∀ n ∈ A.nodes, ¬ SameName (e.pre.orig ++ null) ([78, 84, 95] ++ n.name.orig)) ∧
      (∀ e ∈ A.enums, ∀ t ∈ A.traversals, ¬ SameName (e.pre.orig ++ null) ([84, 82, 65, 86, 95] ++ t.uid.orig)) ∧
      ∀ e ∈ A.enums, ∀ p ∈ A.passes, ¬ SameName (e.pre.orig ++ null) ([80, 65, 83, 83, 95] ++ p.name.orig) := by
    simp only [groups, List.mem_cons, List.not_mem_nil, or_false, forall_eq_or_imp, forall_eq, List.mem_map, forall_exists_index, and_imp,
      forall_apply_eq_imp_iff₂, ne_eq, sNS, sNT, sTRAV, sPASS]
    simp only [first_iff _ (show [78, 83, 95].map upperB = [78, 83, 95] by decide), first_iff _ (show [78, 84, 95].map upperB = [78, 84, 95] by decide),
      first_iff _ (show [84, 82, 65, 86, 95].map upperB = [84, 82, 65, 86, 95] by decide),
      first_iff _ (show [80, 65, 83, 83, 95].map upperB = [80, 65, 83, 83, 95] by decide)]
    constructor
    · intro h1
      exact ⟨fun e he => (h1 e he).1, fun e he => (h1 e he).2.1, fun e he => (h1 e he).2.2.1, fun e he => (h1 e he).2.2.2⟩
    · rintro ⟨h1, h2, h3, h4⟩ e he
      exact ⟨h1 e he, h2 e he, h3 e he, h4 e he⟩
  constructor
  · rintro ⟨h1, h2⟩
    rw [header_entries, List.nodup_append, own_iff h, user_nodup h hl, both, four] at h2
    obtain ⟨⟨g1, g2, g3, g4⟩, g5, g6, g7, g8, g9⟩ := h2
    exact ⟨g1, g2, g3, g4, g5, tags.1 h1, g7, g6, g8, g9⟩
  · intro c
    refine ⟨tags.2 c.tags, ?_⟩
    rw [header_entries, List.nodup_append, own_iff h, user_nodup h hl, both, four]
    exact ⟨⟨c.node, c.nodeset, c.uid, c.pass⟩, c.values, c.nodesets, c.nodes, c.uids, c.passes⟩

end Verif.EnumHeader
