import Verif.Lemmas.NodeGenCtor

/-!
# Lemmas about the names in the generated header, and about generated calls of constructors
-/

namespace Verif.Spec.NodeGen
open Verif.Str Verif.Ids Verif.NodeGen Verif.Spec.Str Verif.Spec.Ids

/-! ## Joined names -/

/-- Parts of a name joined by underscores. -/
def joinU : List CStr → CStr
  | [] => []
  | [x] => x
  | x :: y :: r => x ++ 95 :: joinU (y :: r)

theorem split_under (a b c d : CStr) (ha : (95 : UInt8) ∉ a) (hc : (95 : UInt8) ∉ c) (h : a ++ 95 :: b = c ++ 95 :: d) :
    a = c ∧ b = d := by
  induction a generalizing c with
  | nil =>
    cases c with
    | nil => simpa using h
    | cons y c =>
      simp only [List.nil_append, List.cons_append, List.cons.injEq] at h
      exact absurd h.1 (fun e => hc (by rw [e]; simp))
  | cons x a ih =>
    cases c with
    | nil =>
      simp only [List.nil_append, List.cons_append, List.cons.injEq] at h
      exact absurd h.1 (fun e => ha (by rw [e]; simp))
    | cons y c =>
      simp only [List.cons_append, List.cons.injEq] at h
      obtain ⟨h1, h2⟩ := ih c (fun hm => ha (by simp [hm])) (fun hm => hc (by simp [hm])) h.2
      exact ⟨by rw [h.1, h1], h2⟩

theorem joinU_inj : ∀ (a b : List CStr), a ≠ [] → b ≠ [] → (∀ x ∈ a, (95 : UInt8) ∉ x) → (∀ x ∈ b, (95 : UInt8) ∉ x) →
    joinU a = joinU b → a = b := by
  intro a
  induction a with
  | nil => intro b h; exact absurd rfl h
  | cons x a ih =>
    intro b _ hb ha1 hb1 h
    cases b with
    | nil => exact absurd rfl hb
    | cons y b =>
      cases a with
      | nil =>
        cases b with
        | nil => simp only [joinU] at h; rw [h]
        | cons z b =>
          simp only [joinU] at h
          exact absurd (ha1 x (by simp)) (by rw [h]; simp)
      | cons w a =>
        cases b with
        | nil =>
          simp only [joinU] at h
          exact absurd (hb1 y (by simp)) (by rw [← h]; simp)
        | cons z b =>
          simp only [joinU] at h
          obtain ⟨h1, h2⟩ := split_under _ _ _ _ (ha1 x (by simp)) (hb1 y (by simp)) h
          rw [h1, ih (z :: b) (by simp) (by simp) (fun u hu => ha1 u (by simp [hu])) (fun u hu => hb1 u (by simp [hu])) h2]

theorem upperB_under (b : UInt8) : upperB b = 95 → b = 95 := by
  revert b; apply u8_forall; decide +kernel

theorem lowerB_under (b : UInt8) : lowerB b = 95 → b = 95 := by
  revert b; apply u8_forall; decide +kernel

theorem nu_lwr {i : Id} (hw : WfId i) (h : NoUnderscore i) : (95 : UInt8) ∉ i.lwr := by
  rw [hw.1]
  intro hm
  obtain ⟨b, hb, e⟩ := List.mem_map.1 hm
  rw [lowerB_under b e] at hb
  exact h hb

theorem nu_upr {i : Id} (hw : WfId i) (h : NoUnderscore i) : (95 : UInt8) ∉ i.upr := by
  rw [hw.2]
  intro hm
  obtain ⟨b, hb, e⟩ := List.mem_map.1 hm
  rw [upperB_under b e] at hb
  exact h hb

theorem upr_iff {a b : Id} (ha : WfId a) (hb : WfId b) : a.upr = b.upr ↔ a.lwr = b.lwr := by
  rw [ha.1, hb.1, ha.2, hb.2]
  exact (map_lower_iff_upper _ _).symm

/-! ## Structures -/

/-- The type of a member. -/
def tyOf (p : Prog) (a : Attr) : CTy :=
  match attrType p a with
  | .ok t => t
  | _ => .nodePtr

theorem attrType_ok {p : Prog} {a : Attr} (h : AttrOk p a) (he : ∀ e ∈ p.enums, WfId e) : attrType p a = .ok (tyOf p a) := by
  have : ∃ t, attrType p a = .ok t := by
    unfold attrType
    cases ht : a.type with
    | linkOrEnum =>
      obtain ⟨r, hr, hwr, e, hem, hs⟩ := h.enum ht
      dsimp only
      unfold enumName
      rw [hr]
      simp only [STlookup, Res.bind_ok]
      have hf : stFind r.lwr p.table ≠ none := by
        intro hn
        refine (stFind_none _ _).1 hn ⟨e, e⟩ (List.mem_map.2 ⟨e, hem, rfl⟩) ?_
        exact (sameName_iff (he e hem) hwr).1 hs
      cases hx : stFind r.lwr p.table with
      | none => exact absurd hx hf
      | some x => exact ⟨_, rfl⟩
    | user =>
      obtain ⟨r, hr⟩ := h.user ht
      rw [hr]
      exact ⟨_, rfl⟩
    | _ => exact ⟨_, rfl⟩
  obtain ⟨t, ht⟩ := this
  unfold tyOf
  rw [ht]

/-- The member for an attribute. -/
def attrMember (p : Prog) (n : Node) (a : Attr) : Member :=
  match a.inh || a.syn with
  | true => .valued (sNode ++ n.name.upr ++ sU ++ a.name.upr ++ sStruct) (sU ++ a.name.lwr) (tyOf p a) a.name.lwr
  | false => .plain (tyOf p a) a.name.lwr

theorem dgnsAttributes {p : Prog} (n : Node) (l : List Attr) (h : ∀ a ∈ l, AttrOk p a) (he : ∀ e ∈ p.enums, WfId e) :
    DGNSattributes p n l = .ok (l.map (attrMember p n)) := by
  induction l with
  | nil => rfl
  | cons a l ih =>
    simp only [DGNSattributes, attrType_ok (h a (by simp)) he, ih (fun b hb => h b (by simp [hb])), Res.bind_ok,
      List.map_cons, attrMember]
    cases a.inh || a.syn <;> rfl

/-- The structure for a node. -/
def structOf (p : Prog) (n : Node) : Struct :=
  ⟨sData ++ n.name.upr, n.name.lwr, childMember n ++ n.attrs.map (attrMember p n)⟩

theorem dgnsInodes {p : Prog} (l : List Node) (h : ∀ n ∈ l, ∀ a ∈ n.attrs, AttrOk p a) (he : ∀ e ∈ p.enums, WfId e) :
    DGNSinodes p l = .ok (l.map (structOf p)) := by
  induction l with
  | nil => rfl
  | cons n l ih =>
    simp only [DGNSinodes, DGNSinode, dgnsAttributes n n.attrs (h n (by simp)) he, ih (fun m hm => h m (by simp [hm])),
      Res.bind_ok, List.map_cons, structOf]

/-! ## Tags -/

/-- The kinds of tags, by the parts of the name after `NODE_`. -/
def tagParts : CStr × Option CStr × Nat → List CStr
  | (n, _, 0) => [[68, 65, 84, 65], n]
  | (n, _, 1) => [[67, 72, 73, 76, 68, 82, 69, 78], n]
  | (n, _, 2) => [[67, 72, 73, 76, 68, 82, 69, 78], n, [83, 84, 82, 85, 67, 84]]
  | (n, a, _) => [n, a.getD [], [83, 84, 82, 85, 67, 84]]

/-- The tag. -/
def tagName (t : CStr × Option CStr × Nat) : CStr := sNode ++ joinU (tagParts t)

/-- The tags of a member. -/
def memberTags (n : Node) : List (CStr × Option CStr × Nat) :=
  (if n.children = [] then [] else [(n.name.upr, none, 1), (n.name.upr, none, 2)]) ++
    (n.attrs.filter fun a => a.inh || a.syn).map fun a => (n.name.upr, some a.name.upr, 3)

theorem attrTags (p : Prog) (n : Node) (l : List Attr) : (l.map (attrMember p n)).flatMap (·.tags) =
    ((l.filter fun a => a.inh || a.syn).map fun a => (n.name.upr, some a.name.upr, 3)).map tagName := by
  induction l with
  | nil => rfl
  | cons a l ih =>
    rw [List.map_cons, List.flatMap_cons, ih]
    cases hx : (a.inh || a.syn) with
    | true =>
      simp only [attrMember, hx, Member.tags, List.filter_cons, if_true, List.map_cons, List.singleton_append,
        List.cons.injEq, and_true]
      simp [tagName, tagParts, joinU, sNode, sU, sStruct]
    | false => simp [attrMember, hx, Member.tags]

theorem structTags (p : Prog) (n : Node) : (structOf p n).members.flatMap (·.tags) = (memberTags n).map tagName := by
  unfold structOf memberTags
  rw [List.flatMap_append, attrTags, List.map_append]
  congr 1
  by_cases hne : n.children = []
  · simp [childMember, hne]
  · rw [childMember_ne hne]
    simp [hne, Member.tags, tagName, tagParts, joinU, sNode, sStruct, sChildrenTag]

theorem all_tags (p : Prog) (l : List Node) : (l.map (structOf p)).map (·.tag) ++
      (l.map (structOf p)).flatMap (fun s => s.members.flatMap (·.tags)) =
    ((l.map fun n : Node => (n.name.upr, none, 0)) ++ l.flatMap memberTags).map tagName := by
  rw [List.map_append, List.map_map, List.map_map, List.flatMap_map, List.map_flatMap]
  simp only [structTags]
  rfl

theorem tagName_inj (s t : CStr × Option CStr × Nat)
    (hs : (95 : UInt8) ∉ s.1 ∧ (95 : UInt8) ∉ s.2.1.getD []) (ht : (95 : UInt8) ∉ t.1 ∧ (95 : UInt8) ∉ t.2.1.getD [])
    (h : tagName s = tagName t) : tagParts s = tagParts t := by
  unfold tagName at h
  refine joinU_inj _ _ ?_ ?_ ?_ ?_ (List.append_cancel_left h)
  · unfold tagParts; split <;> simp
  · unfold tagParts; split <;> simp
  · obtain ⟨n, a, k⟩ := s
    unfold tagParts
    split <;> (rename_i e; cases e; simp only [List.mem_cons, List.not_mem_nil, or_false, forall_eq_or_imp, forall_eq])
    · exact ⟨by decide, hs.1⟩
    · exact ⟨by decide, hs.1⟩
    · exact ⟨by decide, hs.1, by decide⟩
    · exact ⟨hs.1, hs.2, by decide⟩
  · obtain ⟨n, a, k⟩ := t
    unfold tagParts
    split <;> (rename_i e; cases e; simp only [List.mem_cons, List.not_mem_nil, or_false, forall_eq_or_imp, forall_eq])
    · exact ⟨by decide, ht.1⟩
    · exact ⟨by decide, ht.1⟩
    · exact ⟨by decide, ht.1, by decide⟩
    · exact ⟨ht.1, ht.2, by decide⟩

theorem mem_memberTags {n : Node} {t : CStr × Option CStr × Nat} (h : t ∈ memberTags n) :
    t = (n.name.upr, none, 1) ∨ t = (n.name.upr, none, 2) ∨ ∃ a ∈ n.attrs, t = (n.name.upr, some a.name.upr, 3) := by
  unfold memberTags at h
  rcases List.mem_append.1 h with h | h
  · split at h
    · simp at h
    · simp only [List.mem_cons, List.not_mem_nil, or_false] at h
      rcases h with h | h
      · exact Or.inl h
      · exact Or.inr (Or.inl h)
  · obtain ⟨a, ha, e⟩ := List.mem_map.1 h
    exact Or.inr (Or.inr ⟨a, (List.mem_filter.1 ha).1, e.symm⟩)

theorem children_eq : "children".toUTF8.toList = [99, 104, 105, 108, 100, 114, 101, 110] := by decide +kernel

theorem upr_ne {i : Id} (hw : WfId i) (w u : CStr) (hu : w.map upperB = u) (h : ¬ SameName i.orig w) : i.upr ≠ u := by
  intro e
  apply h
  unfold SameName
  rw [map_lower_iff_upper, hu, ← e, hw.2]

theorem nodes_upr {p : Prog} (hw : WfProg p) : p.nodes.Pairwise fun a b => a.name.upr ≠ b.name.upr := by
  have h := (List.pairwise_append.1 hw.names).1
  rw [List.pairwise_map] at h
  refine List.Pairwise.imp_of_mem ?_ h
  intro a b ha hb hab e
  exact hab ((sameName_iff (hw.nodeIds a ha) (hw.nodeIds b hb)).2 ((upr_iff (hw.nodeIds a ha) (hw.nodeIds b hb)).1 e))

theorem tags_ok {p : Prog} (hw : WfProg p) (hp : Plain p) :
    twice ((p.nodes.map (structOf p)).map (·.tag) ++
      (p.nodes.map (structOf p)).flatMap (fun s => s.members.flatMap (·.tags))) = false := by
  have hch : ∀ n ∈ p.nodes, n.name.upr ≠ [67, 72, 73, 76, 68, 82, 69, 78] := fun n hn =>
    upr_ne (hw.nodeIds n hn) _ _ (by rw [children_eq]; decide) (hp.nodes n hn).2.2.1
  rw [all_tags, twice_false, List.pairwise_map]
  refine List.Pairwise.imp_of_mem (R := fun s t => tagParts s ≠ tagParts t) ?_ ?_
  · have nu : ∀ s ∈ (p.nodes.map fun n : Node => (n.name.upr, (none : Option CStr), 0)) ++ p.nodes.flatMap memberTags,
        (95 : UInt8) ∉ s.1 ∧ (95 : UInt8) ∉ s.2.1.getD [] := by
      intro s hs
      rcases List.mem_append.1 hs with h | h
      · obtain ⟨n, hn, e⟩ := List.mem_map.1 h
        rw [← e]
        exact ⟨nu_upr (hw.nodeIds n hn) (hp.nodes n hn).2.1, by simp⟩
      · obtain ⟨n, hn, h⟩ := List.mem_flatMap.1 h
        have hnn := nu_upr (hw.nodeIds n hn) (hp.nodes n hn).2.1
        rcases mem_memberTags h with e | e | ⟨a, ha, e⟩
        · rw [e]; exact ⟨hnn, by simp⟩
        · rw [e]; exact ⟨hnn, by simp⟩
        · rw [e]; exact ⟨hnn, nu_upr (hw.attrs n hn a ha).wf (hp.attrs n hn a ha).1⟩
    intro s t hs ht hst e
    exact hst (tagName_inj s t (nu s hs) (nu t ht) e)
  · have hnd := nodes_upr hw
    rw [List.pairwise_append, List.pairwise_map, List.pairwise_flatMap]
    refine ⟨?_, ⟨?_, ?_⟩, ?_⟩
    · refine hnd.imp ?_
      intro a b hab e
      simp only [tagParts, List.cons.injEq, and_true, true_and] at e
      exact hab e
    · intro n hn
      unfold memberTags
      rw [List.pairwise_append]
      refine ⟨?_, ?_, ?_⟩
      · split
        · simp
        · simp [tagParts]
      · rw [List.pairwise_map]
        have := (List.pairwise_append.1 (hw.fields n hn)).2.1
        rw [List.pairwise_map] at this
        refine List.Pairwise.imp_of_mem ?_ (this.filter _)
        intro a b ha hb hab e
        have ha := (hw.attrs n hn a (List.mem_filter.1 ha).1).wf
        have hb := (hw.attrs n hn b (List.mem_filter.1 hb).1).wf
        simp only [tagParts, Option.getD_some, List.cons.injEq, and_true, true_and] at e
        exact hab ((sameName_iff ha hb).2 ((upr_iff ha hb).1 e))
      · intro s hs t ht e
        obtain ⟨a, ha, et⟩ := List.mem_map.1 ht
        split at hs
        · simp at hs
        · simp only [List.mem_cons, List.not_mem_nil, or_false] at hs
          rcases hs with es | es
          · rw [es, ← et] at e
            simp [tagParts] at e
          · rw [es, ← et] at e
            simp only [tagParts, List.cons.injEq] at e
            exact hch n hn e.1.symm
    · refine List.Pairwise.imp_of_mem ?_ hnd
      intro n m hn hm hnm s hs t ht e
      rcases mem_memberTags hs with es | es | ⟨a, ha, es⟩ <;> rcases mem_memberTags ht with et | et | ⟨b, hb, et⟩ <;>
        rw [es, et] at e <;> simp only [tagParts, List.cons.injEq, and_true, true_and, reduceCtorEq, and_false] at e
      · exact hnm e
      · exact hnm e
      · exact hch m hm e.1.symm
      · exact hch n hn e.1
      · exact hnm e.1
    · intro s hs t ht e
      obtain ⟨n, hn, es⟩ := List.mem_map.1 hs
      obtain ⟨m, hm, ht⟩ := List.mem_flatMap.1 ht
      rcases mem_memberTags ht with et | et | ⟨b, hb, et⟩ <;> rw [← es, et] at e <;> simp [tagParts] at e

/-! ## Members -/

theorem cWords_eq : cWords = keywords := by decide +kernel

theorem keywords_under : ∀ k ∈ keywords, (95 : UInt8) ∉ k := by decide

theorem under_not_keyword (k : CStr) (h : (95 : UInt8) ∈ k) : k ∉ keywords := fun hk => keywords_under k hk h

/-- The parts of the names of members. -/
def memberParts (n : Node) : List (List CStr) :=
  (if n.children = [] then [] else [[n.name.lwr, [99, 104, 105, 108, 100, 114, 101, 110]]]) ++
    n.attrs.map fun a => match a.inh || a.syn with
      | true => [[], a.name.lwr]
      | false => [a.name.lwr]

theorem memberNames (p : Prog) (n : Node) : (structOf p n).members.map (·.name) = (memberParts n).map joinU := by
  unfold structOf memberParts
  rw [List.map_append, List.map_append]
  congr 1
  · by_cases hne : n.children = []
    · simp [childMember, hne]
    · rw [childMember_ne hne]
      simp [hne, Member.name, joinU, sChildren]
  · rw [List.map_map, List.map_map]
    refine List.map_congr_left fun a _ => ?_
    simp only [Function.comp, attrMember]
    cases (a.inh || a.syn) <;> simp [Member.name, joinU, sU]

theorem struct_ok {p : Prog} (hw : WfProg p) (hp : Plain p) (n : Node) (hn : n ∈ p.nodes) :
    structOk (structOf p n) = true := by
  have hnn := nu_lwr (hw.nodeIds n hn) (hp.nodes n hn).2.1
  have hne0 : n.name.lwr ≠ [] := by
    rw [(hw.nodeIds n hn).1]
    intro e
    exact (hp.nodes n hn).1 (List.map_eq_nil_iff.1 e)
  have hna : ∀ a ∈ n.attrs, (95 : UInt8) ∉ a.name.lwr := fun a ha => nu_lwr (hw.attrs n hn a ha).wf (hp.attrs n hn a ha).1
  have hka : ∀ a ∈ n.attrs, a.name.lwr ∉ keywords := fun a ha => by
    have := (hp.attrs n hn a ha).2
    rwa [cWords_eq, ← lwr_low (hw.attrs n hn a ha).wf] at this
  have hkc : ∀ c ∈ n.children, c.name.lwr ∉ keywords := fun c hc => by
    have := (hp.children n hn c hc).2
    rwa [cWords_eq, ← lwr_low (hw.childIds n hn c hc)] at this
  have hda := (List.pairwise_append.1 (hw.fields n hn)).2.1
  rw [List.pairwise_map] at hda
  have hdc := (List.pairwise_append.1 (hw.fields n hn)).1
  rw [List.pairwise_map] at hdc
  have mem : ∀ x ∈ memberParts n, x = [n.name.lwr, [99, 104, 105, 108, 100, 114, 101, 110]] ∨
      ∃ a ∈ n.attrs, x = [[], a.name.lwr] ∨ x = [a.name.lwr] := by
    intro x hx
    unfold memberParts at hx
    rcases List.mem_append.1 hx with h | h
    · split at h
      · simp at h
      · exact Or.inl (by simpa using h)
    · obtain ⟨a, ha, e⟩ := List.mem_map.1 h
      refine Or.inr ⟨a, ha, ?_⟩
      split at e
      · exact Or.inl e.symm
      · exact Or.inr e.symm
  have nu : ∀ x ∈ memberParts n, x ≠ [] ∧ ∀ y ∈ x, (95 : UInt8) ∉ y := by
    intro x hx
    rcases mem x hx with e | ⟨a, ha, e | e⟩
    · rw [e]; simp only [ne_eq, reduceCtorEq, not_false_eq_true, List.mem_cons, List.not_mem_nil, or_false,
        forall_eq_or_imp, forall_eq, true_and]
      exact ⟨hnn, by decide⟩
    · rw [e]; simp only [ne_eq, reduceCtorEq, not_false_eq_true, List.mem_cons, List.not_mem_nil, or_false,
        forall_eq_or_imp, forall_eq, true_and]
      exact hna a ha
    · rw [e]; simp only [ne_eq, reduceCtorEq, not_false_eq_true, List.mem_cons, List.not_mem_nil, or_false,
        forall_eq, true_and]
      exact hna a ha
  unfold structOk
  rw [memberNames]
  simp only [Bool.and_eq_true, Bool.not_eq_true', List.all_eq_true]
  refine ⟨⟨?_, ?_⟩, ?_⟩
  · rw [twice_false, List.pairwise_map]
    refine List.Pairwise.imp_of_mem (R := fun a b => a ≠ b) ?_ ?_
    · intro a b ha hb hab e
      exact hab (joinU_inj a b (nu a ha).1 (nu b hb).1 (nu a ha).2 (nu b hb).2 e)
    · unfold memberParts
      rw [List.pairwise_append]
      refine ⟨?_, ?_, ?_⟩
      · split <;> simp
      · rw [List.pairwise_map]
        refine List.Pairwise.imp_of_mem ?_ hda
        intro a b ha hb hab e
        apply hab
        rw [sameName_iff (hw.attrs n hn a ha).wf (hw.attrs n hn b hb).wf]
        split at e <;> split at e <;> simp at e
        · exact e
        · exact e
      · intro x hx y hy e
        split at hx
        · simp at hx
        · obtain ⟨a, ha, ey⟩ := List.mem_map.1 hy
          rw [List.mem_singleton.1 hx, ← ey] at e
          split at e <;> simp at e
          exact hne0 e.1
  · rw [List.any_eq_false]
    intro x hx
    obtain ⟨y, hy, e⟩ := List.mem_map.1 hx
    simp only [List.contains_eq_mem, decide_eq_true_eq]
    rcases mem y hy with ey | ⟨a, ha, ey | ey⟩
    · rw [← e, ey]; exact under_not_keyword _ (by simp [joinU])
    · rw [← e, ey]; exact under_not_keyword _ (by simp [joinU])
    · rw [← e, ey]; exact hka a ha
  · intro m hm
    unfold structOf at hm
    rcases List.mem_append.1 hm with h | h
    · by_cases hne : n.children = []
      · rw [childMember, hne] at h; simp at h
      · rw [childMember_ne hne, List.mem_singleton] at h
        rw [h]
        simp only [Member.inner]
        constructor
        · rw [twice_false, List.pairwise_map]
          refine List.Pairwise.imp_of_mem ?_ hdc
          intro a b ha hb hab e
          exact hab ((sameName_iff (hw.childIds n hn a ha) (hw.childIds n hn b hb)).2 e)
        · rw [List.any_eq_false]
          intro x hx
          obtain ⟨c, hc, e⟩ := List.mem_map.1 hx
          simp only [List.contains_eq_mem, decide_eq_true_eq]
          rw [← e]
          exact hkc c hc
    · obtain ⟨a, ha, e⟩ := List.mem_map.1 h
      rw [← e]
      unfold attrMember
      split
      · simp only [Member.inner]
        constructor
        · rw [twice_false, List.pairwise_cons]
          simp only [List.mem_singleton, forall_eq, List.pairwise_cons, List.not_mem_nil, false_implies, implies_true,
            List.Pairwise.nil, and_self, and_true]
          intro e
          exact hna a ha (by rw [← e]; decide)
        · rw [List.any_eq_false]
          intro x hx
          simp only [List.mem_cons, List.not_mem_nil, or_false] at hx
          simp only [List.contains_eq_mem, decide_eq_true_eq]
          rcases hx with e | e
          · rw [e]; exact under_not_keyword _ (by decide)
          · rw [e]; exact hka a ha
      · exact ⟨rfl, rfl⟩

/-! ## Owners and fields -/

/-- What has macros and access functions: the owner, the field, and whether the field can be assigned to. -/
structure Key where
  owner : Id
  field : Id
  ro : Bool

/-- The fields of nodes and nodesets. -/
def keys (p : Prog) : List Key :=
  p.nodes.flatMap (fun n => n.children.map (fun c => ⟨n.name, c.name, false⟩) ++
    n.attrs.map fun a => ⟨n.name, a.name, !classic a⟩) ++
  p.sets.flatMap fun s => s.attrs.map fun a => ⟨s.name, a.name, !classic a⟩

/-- The parts of the name of an access function after `CCNaccess_`. -/
def fnParts (k : Key) : List CStr :=
  match k.ro with
  | true => [[114, 101, 97, 100, 111, 110, 108, 121], k.owner.lwr, k.field.lwr]
  | false => [k.owner.lwr, k.field.lwr]

theorem fn_names (p : Prog) : (fns p).map (·.name) = (keys p).map fun k => sAccess ++ 95 :: joinU (fnParts k) := by
  unfold fns keys
  rw [List.map_append, List.map_append, List.map_flatMap, List.map_flatMap, List.map_flatMap, List.map_flatMap]
  congr 1
  · congr 1
    funext n
    unfold DGNAFinode
    rw [List.map_append, List.map_append, List.map_map, List.map_map, List.map_map, List.map_map]
    congr 1
    · refine List.map_congr_left fun c _ => ?_
      simp [DGNAFchild, fnParts, joinU, sU]
    · refine List.map_congr_left fun a _ => ?_
      simp only [Function.comp, DGNAFattribute, fnParts]
      cases classic a <;> simp [joinU, sU, sReadonly]
  · congr 1
    funext n
    unfold DGNSAFinodeset
    rw [List.map_map, List.map_map]
    refine List.map_congr_left fun a _ => ?_
    simp only [Function.comp, DGNSAFattribute, fnParts]
    cases classic a <;> simp [joinU, sU, sReadonlyU]

/-- The macro of a field. -/
def keyMacro (k : Key) : Macro :=
  ⟨joinU [k.owner.upr, k.field.upr], some (sAccess ++ 95 :: joinU (fnParts k)), !k.ro⟩

theorem macros_eq (p : Prog) : macros p = (keys p).map keyMacro ++ baseMacros := by
  unfold macros keys
  congr 1
  rw [List.map_append, List.map_flatMap, List.map_flatMap]
  congr 1
  · congr 1
    funext n
    unfold DGNMinode
    rw [List.map_append, List.map_map, List.map_map]
    congr 1
    · refine List.map_congr_left fun c _ => ?_
      simp [DGNMchild, keyMacro, fnParts, joinU, sU]
    · refine List.map_congr_left fun a _ => ?_
      simp only [Function.comp, DGNMattribute, keyMacro, fnParts]
      cases classic a <;> simp [joinU, sU, sReadonly]
  · congr 1
    funext n
    unfold DGNMinodeset
    rw [List.map_map]
    refine List.map_congr_left fun a _ => ?_
    simp only [Function.comp, DGNMattribute, keyMacro, fnParts]
    cases classic a <;> simp [joinU, sU, sReadonly]

theorem keys_wf {p : Prog} (hw : WfProg p) : ∀ k ∈ keys p, WfId k.owner ∧ WfId k.field := by
  intro k hk
  unfold keys at hk
  rcases List.mem_append.1 hk with h | h
  · obtain ⟨n, hn, h⟩ := List.mem_flatMap.1 h
    rcases List.mem_append.1 h with h | h
    · obtain ⟨c, hc, e⟩ := List.mem_map.1 h
      rw [← e]; exact ⟨hw.nodeIds n hn, hw.childIds n hn c hc⟩
    · obtain ⟨c, hc, e⟩ := List.mem_map.1 h
      rw [← e]; exact ⟨hw.nodeIds n hn, (hw.attrs n hn c hc).wf⟩
  · obtain ⟨s, hs, h⟩ := List.mem_flatMap.1 h
    obtain ⟨a, ha, e⟩ := List.mem_map.1 h
    rw [← e]; exact ⟨hw.setIds s hs, (hw.sattrs s hs a ha).wf⟩

theorem keys_nu {p : Prog} (hp : Plain p) : ∀ k ∈ keys p, NoUnderscore k.owner ∧ NoUnderscore k.field ∧
    ¬ SameName k.owner.orig "node".toUTF8.toList := by
  intro k hk
  unfold keys at hk
  rcases List.mem_append.1 hk with h | h
  · obtain ⟨n, hn, h⟩ := List.mem_flatMap.1 h
    rcases List.mem_append.1 h with h | h
    · obtain ⟨c, hc, e⟩ := List.mem_map.1 h
      rw [← e]; exact ⟨(hp.nodes n hn).2.1, (hp.children n hn c hc).1, (hp.nodes n hn).2.2.2⟩
    · obtain ⟨c, hc, e⟩ := List.mem_map.1 h
      rw [← e]; exact ⟨(hp.nodes n hn).2.1, (hp.attrs n hn c hc).1, (hp.nodes n hn).2.2.2⟩
  · obtain ⟨s, hs, h⟩ := List.mem_flatMap.1 h
    obtain ⟨a, ha, e⟩ := List.mem_map.1 h
    rw [← e]; exact ⟨(hp.sets s hs).1, hp.sattrs s hs a ha, (hp.sets s hs).2⟩

/-- Different fields have different owners or different names. -/
theorem keys_distinct {p : Prog} (hw : WfProg p) :
    (keys p).Pairwise fun a b => ¬ (SameName a.owner.orig b.owner.orig ∧ SameName a.field.orig b.field.orig) := by
  have hn := hw.names
  unfold Distinct at hn
  rw [List.pairwise_append, List.pairwise_map, List.pairwise_map] at hn
  unfold keys
  rw [List.pairwise_append, List.pairwise_flatMap, List.pairwise_flatMap]
  refine ⟨⟨?_, ?_⟩, ⟨?_, ?_⟩, ?_⟩
  · intro n hnm
    have hf := hw.fields n hnm
    unfold Distinct at hf
    rw [List.pairwise_append, List.pairwise_map, List.pairwise_map] at hf
    rw [List.pairwise_append, List.pairwise_map, List.pairwise_map]
    refine ⟨hf.1.imp fun h e => h e.2, hf.2.1.imp fun h e => h e.2, ?_⟩
    intro x hx y hy e
    obtain ⟨c, hc, ex⟩ := List.mem_map.1 hx
    obtain ⟨a, ha, ey⟩ := List.mem_map.1 hy
    rw [← ex, ← ey] at e
    exact hf.2.2 _ (List.mem_map_of_mem hc) _ (List.mem_map_of_mem ha) e.2
  · refine hn.1.imp ?_
    intro n m h x hx y hy e
    have e1 : x.owner = n.name := by
      rcases List.mem_append.1 hx with hx | hx <;> (obtain ⟨c, _, ex⟩ := List.mem_map.1 hx; rw [← ex])
    have e2 : y.owner = m.name := by
      rcases List.mem_append.1 hy with hx | hx <;> (obtain ⟨c, _, ex⟩ := List.mem_map.1 hx; rw [← ex])
    rw [e1, e2] at e
    exact h e.1
  · intro s hs
    have hf := hw.setAttrs s hs
    unfold Distinct at hf
    rw [List.pairwise_map] at hf
    rw [List.pairwise_map]
    exact hf.imp fun h e => h e.2
  · refine hn.2.1.imp ?_
    intro n m h x hx y hy e
    obtain ⟨c, _, ex⟩ := List.mem_map.1 hx
    obtain ⟨d, _, ey⟩ := List.mem_map.1 hy
    rw [← ex, ← ey] at e
    exact h e.1
  · intro x hx y hy e
    obtain ⟨n, hnm, hx⟩ := List.mem_flatMap.1 hx
    obtain ⟨s, hs, hy⟩ := List.mem_flatMap.1 hy
    have e1 : x.owner = n.name := by
      rcases List.mem_append.1 hx with hx | hx <;> (obtain ⟨c, _, ex⟩ := List.mem_map.1 hx; rw [← ex])
    obtain ⟨d, _, ey⟩ := List.mem_map.1 hy
    rw [e1, ← ey] at e
    exact hn.2.2 _ (List.mem_map_of_mem hnm) _ (List.mem_map_of_mem hs) e.1

theorem fns_ok {p : Prog} (hw : WfProg p) (hp : Plain p) : twice ((fns p).map (·.name)) = false := by
  rw [fn_names, twice_false, List.pairwise_map]
  refine List.Pairwise.imp_of_mem ?_ (keys_distinct hw)
  intro a b ha hb hab e
  have wa := keys_wf hw a ha
  have wb := keys_wf hw b hb
  have na := keys_nu hp a ha
  have nb := keys_nu hp b hb
  have nu : ∀ k : Key, (95 : UInt8) ∉ k.owner.lwr → (95 : UInt8) ∉ k.field.lwr → ∀ x ∈ fnParts k, (95 : UInt8) ∉ x := by
    intro k h1 h2
    unfold fnParts
    split <;> simp only [List.mem_cons, List.not_mem_nil, or_false, forall_eq_or_imp, forall_eq]
    · exact ⟨by decide, h1, h2⟩
    · exact ⟨h1, h2⟩
  have ne : ∀ k, fnParts k ≠ [] := by intro k; unfold fnParts; split <;> simp
  have e1 := List.append_cancel_left e
  rw [List.cons.injEq] at e1
  have e2 := joinU_inj _ _ (ne a) (ne b) (nu a (nu_lwr wa.1 na.1) (nu_lwr wa.2 na.2.1))
    (nu b (nu_lwr wb.1 nb.1) (nu_lwr wb.2 nb.2.1)) e1.2
  apply hab
  rw [sameName_iff wa.1 wb.1, sameName_iff wa.2 wb.2]
  unfold fnParts at e2
  split at e2 <;> split at e2 <;> simp at e2
  · exact e2
  · exact e2

theorem baseNames : baseMacros.all (fun m => match m.name with
    | 78 :: 79 :: 68 :: 69 :: 95 :: r => !r.contains 95
    | _ => false) = true := by decide

theorem macros_ok {p : Prog} (hw : WfProg p) (hp : Plain p) : macroClash (macros p) = false := by
  rw [macroClash_false, macros_eq, List.pairwise_append, List.pairwise_map]
  refine ⟨?_, ?_, ?_⟩
  · refine List.Pairwise.imp_of_mem ?_ (keys_distinct hw)
    intro a b ha hb hab e
    exfalso
    have wa := keys_wf hw a ha
    have wb := keys_wf hw b hb
    have na := keys_nu hp a ha
    have nb := keys_nu hp b hb
    simp only [keyMacro] at e
    have e2 := joinU_inj [b.owner.upr, b.field.upr] [a.owner.upr, a.field.upr] (by simp) (by simp)
      (by simp only [List.mem_cons, List.not_mem_nil, or_false, forall_eq_or_imp, forall_eq]
          exact ⟨nu_upr wb.1 nb.1, nu_upr wb.2 nb.2.1⟩)
      (by simp only [List.mem_cons, List.not_mem_nil, or_false, forall_eq_or_imp, forall_eq]
          exact ⟨nu_upr wa.1 na.1, nu_upr wa.2 na.2.1⟩) e
    simp only [List.cons.injEq, and_true] at e2
    apply hab
    rw [sameName_iff wa.1 wb.1, sameName_iff wa.2 wb.2]
    exact ⟨((upr_iff wb.1 wa.1).1 e2.1).symm, ((upr_iff wb.2 wa.2).1 e2.2).symm⟩
  · rw [← macroClash_false]; decide
  · intro x hx y hy e
    exfalso
    obtain ⟨k, hk, ek⟩ := List.mem_map.1 hx
    have wk := keys_wf hw k hk
    have nk := keys_nu hp k hk
    have hb := List.all_eq_true.1 baseNames y hy
    split at hb
    · rename_i r hr
      rw [hr, ← ek] at e
      simp only [keyMacro] at e
      have hr95 : (95 : UInt8) ∉ r := by simpa using hb
      have e2 := joinU_inj [[78, 79, 68, 69], r] [k.owner.upr, k.field.upr] (by simp) (by simp)
        (by simp only [List.mem_cons, List.not_mem_nil, or_false, forall_eq_or_imp, forall_eq]
            exact ⟨by decide, hr95⟩)
        (by simp only [List.mem_cons, List.not_mem_nil, or_false, forall_eq_or_imp, forall_eq]
            exact ⟨nu_upr wk.1 nk.1, nu_upr wk.2 nk.2.1⟩) (by simpa [joinU] using e)
      simp only [List.cons.injEq, and_true] at e2
      exact upr_ne wk.1 _ [78, 79, 68, 69] (by rw [sVar_eq]; decide) nk.2.2 e2.1.symm
    · cases hb

/-- The header compiles. -/
theorem compile_plain {p : Prog} (hw : WfProg p) (hp : Plain p) :
    compile p = .ok ⟨p.nodes.map (structOf p), macros p, fns p⟩ := by
  refine compile_of (dgnsInodes p.nodes hw.attrs hw.enumIds) (tags_ok hw hp) ?_ (macros_ok hw hp) (fns_ok hw hp)
  rw [List.all_eq_true]
  intro s hs
  obtain ⟨n, hn, e⟩ := List.mem_map.1 hs
  rw [← e]
  exact struct_ok hw hp n hn

/-! ## Generated calls -/

/-- Arguments with commas. -/
def argToks : List Rhs → Nat → List CTok
  | [], _ => []
  | r :: rs, k => sepArg k ++ .arg r :: argToks rs (k + 1)

theorem argToks_append (a b : List Rhs) (k : Nat) : argToks (a ++ b) k = argToks a k ++ argToks b (k + a.length) := by
  induction a generalizing k with
  | nil => simp [argToks]
  | cons x a ih =>
    simp only [List.cons_append, argToks, ih, List.append_assoc, List.length_cons]
    rw [Nat.add_right_comm, Nat.add_assoc]

theorem ccChildren (cs : List Child) (k : Nat) :
    DGCCchildren cs k = (argToks (List.replicate (cs.countP (·.ctor)) .null) k, k + cs.countP (·.ctor)) := by
  induction cs generalizing k with
  | nil => simp [DGCCchildren, argToks]
  | cons c cs ih =>
    simp only [DGCCchildren]
    cases hc : c.ctor with
    | true =>
      simp only [ih, List.countP_cons, hc, if_true, List.replicate_succ, argToks]
      simp only [Prod.mk.injEq, true_and]; omega
    | false => simp [ih, hc]

theorem ccAttributes (as : List Attr) (k : Nat) :
    ∃ rs, DGCCattributes as k = .ok (argToks rs k, k + rs.length) ∧
      evalArgs rs = .ok ((as.filter (·.ctor)).map fun a => emptyOf a.type) := by
  induction as generalizing k with
  | nil => exact ⟨[], by simp [DGCCattributes, argToks], rfl⟩
  | cons a as ih =>
    simp only [DGCCattributes]
    cases hc : a.ctor with
    | true =>
      obtain ⟨rs, h1, h2⟩ := ih (k + 1)
      have : ∃ d, attrArg a = .ok d ∧ evalRhs [] d = .ok (emptyOf a.type) := by
        unfold attrArg
        by_cases hu : a.type = .user
        · rw [hu]; exact ⟨.zero, rfl, rfl⟩
        · obtain ⟨d, h3, h4⟩ := default_ok a.type hu []
          refine ⟨d, ?_, h4⟩
          split
          · rename_i e; exact absurd e hu
          · exact h3
      obtain ⟨d, h3, h4⟩ := this
      refine ⟨d :: rs, ?_, ?_⟩
      · simp only [h3, h1, Res.bind_ok, argToks, List.length_cons]
        have e : k + 1 + rs.length = k + (rs.length + 1) := by omega
        rw [e]
      · simp [evalArgs, h4, h2, hc, Res.bind_ok]
    | false =>
      obtain ⟨rs, h1, h2⟩ := ih k
      exact ⟨rs, h1, by simp [h2, hc]⟩

theorem readArgs_rest (rs : List Rhs) (k : Nat) : readArgsRest (argToks rs (k + 1)) = some rs := by
  induction rs generalizing k with
  | nil => rfl
  | cons r rs ih =>
    simp only [argToks, sepArg, List.cons_append, List.nil_append, readArgsRest, ih (k + 1)]
    rfl

theorem readArgs_all (rs : List Rhs) : readArgs (argToks rs 0) = some rs := by
  cases rs with
  | nil => rfl
  | cons r rs =>
    simp only [argToks, sepArg, List.nil_append, readArgs, readArgs_rest rs 0]
    rfl

theorem evalArgs_append (a b : List Rhs) (va vb : List Val) (ha : evalArgs a = .ok va) (hb : evalArgs b = .ok vb) :
    evalArgs (a ++ b) = .ok (va ++ vb) := by
  induction a generalizing va with
  | nil => cases ha; exact hb
  | cons x a ih =>
    simp only [evalArgs, Res.bind_eq_ok] at ha
    obtain ⟨v, h1, vs, h2, h3⟩ := ha
    cases h3
    simp [evalArgs, h1, ih vs h2, Res.bind_ok]

theorem evalArgs_null (k : Nat) : evalArgs (List.replicate k .null) = .ok (List.replicate k .null) := by
  induction k with
  | zero => rfl
  | succ k ih => simp [List.replicate_succ, evalArgs, evalRhs, ih, Res.bind_ok]

/-- The generated call gives a node in which nothing is filled in. -/
theorem construct_default {p : Prog} (hw : WfProg p) {h : Header} (hcomp : compile p = .ok h) (n : Node)
    (hn : n ∈ p.nodes) (hok : CtorOk p n) : ∃ o, constructDefault p n = .ok o ∧ Fresh n o := by
  obtain ⟨rs, h1, h2⟩ := ccAttributes n.attrs (n.children.countP (·.ctor))
  have hev := evalArgs_append _ _ _ _ (evalArgs_null (n.children.countP (·.ctor))) h2
  obtain ⟨o, h3, h4⟩ := construct_spec hw hcomp n hn hok _ (by
    simp only [List.length_append, List.length_replicate, List.length_map, ← List.countP_eq_length_filter]
    rfl : (List.replicate (n.children.countP (·.ctor)) Val.null ++
      (n.attrs.filter (·.ctor)).map fun a => emptyOf a.type).length = arity n)
  refine ⟨o, ?_, ?_⟩
  · unfold constructDefault DGCCinode
    rw [ccChildren]
    simp only [Nat.zero_add, h1, Res.bind_ok]
    have e : argToks (List.replicate (n.children.countP (·.ctor)) .null) 0 ++ argToks rs (n.children.countP (·.ctor)) =
        argToks (List.replicate (n.children.countP (·.ctor)) .null ++ rs) 0 := by
      rw [argToks_append, List.length_replicate, Nat.zero_add]
    rw [e, readArgs_all]
    simp only [hev, Res.bind_ok]
    exact h3
  · refine ⟨h4.type, ?_, ?_, h4.attrUnset, h4.num, h4.array⟩
    · intro c hc
      cases hct : c.ctor with
      | false => exact h4.childNull c hc hct
      | true =>
        obtain ⟨i, hi⟩ := List.getElem?_of_mem hc
        rw [h4.childGiven i c hi hct]
        have := (List.getElem?_eq_some_iff.1 (filter_get (fun c : Child => c.ctor) n.children i c hi hct)).1
        rw [← List.countP_eq_length_filter] at this
        rw [List.getElem?_append_left (by simpa using this), List.getElem?_replicate, if_pos this]
    · intro a ha hcl
      cases hct : a.ctor with
      | false => exact h4.attrEmpty a ha hct hcl
      | true =>
        obtain ⟨i, hi⟩ := List.getElem?_of_mem ha
        rw [h4.attrGiven i a hi hct, List.getElem?_append_right (by simp)]
        simp only [List.length_replicate, Nat.add_sub_cancel_left, List.getElem?_map]
        rw [filter_get (fun a : Attr => a.ctor) n.attrs i a hi hct]
        rfl

end Verif.Spec.NodeGen
