import Verif.Lemmas.NodeGenHeader
import Verif.Lemmas.HashTable
import Verif.Props.HashTable
import Verif.Props.Str

/-!
# Lemmas about generated traversal functions and access through nodesets
-/

namespace Verif.Spec.NodeGen
open Verif.Str Verif.Ids Verif.NodeGen Verif.Spec.Str Verif.Spec.Ids

/-! ## The table of children -/

/-- The children with their nodes, in order. -/
def pairs (l : List Node) : List (CStr × Id) := l.flatMap fun n => n.children.map fun c => (c.name.orig, n.name)

/-- The nodes of a child, last first. -/
def occ (l : List (CStr × Id)) (q : CStr) : List Id := ((l.filter (·.1 == q)).map (·.2)).reverse

theorem occ_snoc (l : List (CStr × Id)) (k q : CStr) (n : Id) :
    occ (l ++ [(k, n)]) q = if k = q then n :: occ l q else occ l q := by
  unfold occ
  by_cases h : k = q
  · simp [List.filter_append, h]
  · simp [List.filter_append, h]

/-- The table holds these children. -/
structure Filled (t : Lookup) (l : List (CStr × Id)) : Prop where
  inv : HT.Inv t
  hash : t.hash = HT.StringHash
  eq : t.eq = HT.StringEqual
  abs : ∀ q, HT.abs t q = if occ l q = [] then none else some (q, some (occ l q))

theorem Filled.keys {t : Lookup} {l : List (CStr × Id)} (h : Filled t l) : Map.KeyFns t.hash t.eq := by
  rw [h.hash, h.eq]; exact Props.C06_string_table.1

theorem fill_one {t : Lookup} {l : List (CStr × Id)} (h : Filled t l) (k : CStr) (n : Id) (v : List Id)
    (hv : v = n :: occ l k) : ∃ t', HT.HTinsert t k (some v) = .ok t' ∧ Filled t' (l ++ [(k, n)]) := by
  obtain ⟨t', h1, h2, h3, h4, _, h6, _⟩ := HT.insert_spec h.keys h.inv k (some v)
  refine ⟨t', h1, h2, h3.trans h.hash, h4.trans h.eq, ?_⟩
  intro q
  rw [h6, occ_snoc, h.eq]
  unfold Map.insert
  by_cases hq : k = q
  · subst hq
    rw [if_pos ((Props.C06_string_table.2 k k).2 rfl), if_pos rfl, if_neg (by simp), hv, h.abs]
    split <;> rfl
  · rw [if_neg (fun e => hq ((Props.C06_string_table.2 k q).1 e)), if_neg hq, h.abs]

theorem fill_children (curr : Id) (cs : List Child) (t : Lookup) (l : List (CStr × Id)) (h : Filled t l) :
    ∃ t', DGT_Fchildren curr cs t = .ok t' ∧ Filled t' (l ++ cs.map fun c => (c.name.orig, curr)) := by
  induction cs generalizing t l with
  | nil => exact ⟨t, rfl, by simpa using h⟩
  | cons c cs ih =>
    simp only [DGT_Fchildren, HT.lookup_eq h.inv, Res.bind_ok]
    have hget : Map.get (HT.abs t) c.name.orig = if occ l c.name.orig = [] then none else some (occ l c.name.orig) := by
      unfold Map.get
      rw [h.abs]
      by_cases e : occ l c.name.orig = [] <;> simp [e]
    rw [hget]
    by_cases e : occ l c.name.orig = []
    · obtain ⟨t', h1, h2⟩ := fill_one h c.name.orig curr [curr] (by rw [e])
      obtain ⟨t'', h3, h4⟩ := ih t' _ h2
      refine ⟨t'', ?_, by simpa using h4⟩
      simp only [e, if_true, h1, Res.bind_ok]
      exact h3
    · obtain ⟨t', h1, h2⟩ := fill_one h c.name.orig curr _ rfl
      obtain ⟨t'', h3, h4⟩ := ih t' _ h2
      refine ⟨t'', ?_, by simpa using h4⟩
      simp only [e, if_false, h1, Res.bind_ok]
      exact h3

theorem fill_nodes (ns : List Node) (t : Lookup) (l : List (CStr × Id)) (h : Filled t l) :
    ∃ t', DGT_Finodes ns t = .ok t' ∧ Filled t' (l ++ pairs ns) := by
  induction ns generalizing t l with
  | nil => exact ⟨t, rfl, by simpa [pairs] using h⟩
  | cons n ns ih =>
    obtain ⟨t', h1, h2⟩ := fill_children n.name n.children t l h
    obtain ⟨t'', h3, h4⟩ := ih t' _ h2
    exact ⟨t'', by simp only [DGT_Finodes, h1, Res.bind_ok]; exact h3, by simpa [pairs] using h4⟩

/-- The entries in the order of the table: each child once, with its nodes. -/
theorem entries (p : Prog) : ∃ t, DGT_Finodes p.nodes (HT.HTnew_String p.nodes.length) = .ok t ∧
    t.buckets.flatten.Pairwise (fun a b => a.1 ≠ b.1) ∧
    (∀ e ∈ t.buckets.flatten, e.2 = some (occ (pairs p.nodes) e.1) ∧ occ (pairs p.nodes) e.1 ≠ []) ∧
    ∀ q, occ (pairs p.nodes) q ≠ [] → (q, some (occ (pairs p.nodes) q)) ∈ t.buckets.flatten := by
  by_cases hz : p.nodes = []
  · rw [hz]
    refine ⟨_, rfl, ?_, ?_, ?_⟩
    · simp [HT.HTnew_String, HT.HTnew]
    · simp [HT.HTnew_String, HT.HTnew]
    · intro q hq; exact absurd rfl hq
  · have h0 : Filled (HT.HTnew_String p.nodes.length) [] :=
      ⟨HT.inv_new _ (List.length_pos_iff.2 hz) _ _, rfl, rfl, fun q => by
        unfold HT.HTnew_String; rw [HT.abs_new]; rfl⟩
    obtain ⟨t, h1, h2⟩ := fill_nodes p.nodes _ _ h0
    rw [List.nil_append] at h2
    refine ⟨t, h1, ?_, ?_, ?_⟩
    · refine (h2.inv.flat_pairwise h2.keys).imp ?_
      intro a b hab e
      rw [h2.eq] at hab
      rw [(Props.C06_string_table.2 a.1 b.1).2 e] at hab
      cases hab
    · intro e he
      have := h2.inv.abs_mem h2.keys e he
      rw [h2.abs] at this
      split at this
      · cases this
      · rename_i hne
        rw [Option.some.injEq] at this
        exact ⟨by rw [← this], hne⟩
    · intro q hq
      exact (h2.inv.mem_of_abs q _ (by rw [h2.abs, if_neg hq])).1

theorem mem_occ {l : List (CStr × Id)} {q : CStr} {i : Id} : i ∈ occ l q ↔ (q, i) ∈ l := by
  unfold occ
  simp only [List.mem_reverse, List.mem_map, List.mem_filter, beq_iff_eq]
  constructor
  · rintro ⟨a, ⟨h1, h2⟩, h3⟩
    rw [← h2, ← h3]; exact h1
  · intro h
    exact ⟨_, ⟨h, rfl⟩, rfl⟩

theorem mem_pairs {ns : List Node} {q : CStr} {i : Id} :
    (q, i) ∈ pairs ns ↔ ∃ n ∈ ns, n.name = i ∧ ∃ c ∈ n.children, c.name.orig = q := by
  unfold pairs
  simp only [List.mem_flatMap, List.mem_map, Prod.mk.injEq]
  constructor
  · rintro ⟨n, h1, c, h2, h3, h4⟩
    exact ⟨n, h1, h4, c, h2, h3⟩
  · rintro ⟨n, h1, h4, c, h2, h3⟩
    exact ⟨n, h1, c, h2, h3, h4⟩

/-- The nodes of a child have different names. -/
theorem occ_distinct {p : Prog} (hw : WfProg p) (q : CStr) :
    (occ (pairs p.nodes) q).Pairwise fun a b => a.upr ≠ b.upr := by
  unfold occ
  rw [List.pairwise_reverse, List.pairwise_map, List.pairwise_filter]
  unfold pairs
  rw [List.pairwise_flatMap]
  constructor
  · intro n hn
    have hf := hw.fields n hn
    unfold Distinct at hf
    rw [List.pairwise_append, List.pairwise_map] at hf
    rw [List.pairwise_map]
    refine hf.1.imp ?_
    intro a b hab h1 h2
    exfalso
    apply hab
    rw [beq_iff_eq] at h1 h2
    have e : a.name.orig = b.name.orig := h1.trans h2.symm
    rw [e]; rfl
  · refine (nodes_upr hw).imp ?_
    intro n m hnm x hx y hy _ _
    obtain ⟨c, _, ex⟩ := List.mem_map.1 hx
    obtain ⟨d, _, ey⟩ := List.mem_map.1 hy
    rw [← ex, ← ey]
    exact Ne.symm hnm

/-! ## The functions -/

theorem upperKey_ok (k : CStr) (h1 : Ascii k) (h2 : NoNul k) (h3 : k.length + 1 < 2 ^ 63) :
    upperKey k = .ok (k.map upperB) := by
  obtain ⟨lo, up, _, h5, _, h7, _⟩ := Props.C12_fold k h1 h2 h3
  unfold upperKey
  rw [h5, Res.bind_ok]
  exact h7

/-- The function of an entry. -/
def travOf (e : CStr × Option (List Id)) : TravFn :=
  ⟨sTRAV ++ e.1, (e.2.getD []).map fun i => (i.upr, i.upr ++ sU ++ e.1.map upperB)⟩

theorem mapSource_ok (l : List (CStr × Option (List Id))) (h : ∀ e ∈ l, Ascii e.1 ∧ NoNul e.1 ∧ e.1.length + 1 < 2 ^ 63) :
    mapSource l = .ok (l.map travOf) := by
  induction l with
  | nil => rfl
  | cons e l ih =>
    have he := h e (by simp)
    simp only [mapSource, MapChildrenSource, upperKey_ok e.1 he.1 he.2.1 he.2.2, Res.bind_ok,
      ih fun x hx => h x (List.mem_cons_of_mem _ hx), List.map_cons]
    rfl

theorem travWords_eq : coreNames = travWords.map fun w => sTRAV ++ w := by decide +kernel

/-- The functions that are generated. -/
theorem compileTrav_ok {p : Prog} (hw : WfProg p) (ht : TravNames p) :
    ∃ fs, compileTrav p = .ok fs ∧ fs.Pairwise (fun a b => a.name ≠ b.name) ∧
      ∀ f, f ∈ fs ↔ ∃ q, occ (pairs p.nodes) q ≠ [] ∧ f = travOf (q, some (occ (pairs p.nodes) q)) := by
  obtain ⟨t, h1, h2, h3, h4⟩ := entries p
  have hk : ∀ e ∈ t.buckets.flatten, Ascii e.1 ∧ NoNul e.1 ∧ e.1.length + 1 < 2 ^ 63 ∧ e.1 ∉ travWords := by
    intro e he
    obtain ⟨i, hi⟩ := List.exists_mem_of_ne_nil _ (h3 e he).2
    rw [mem_occ, mem_pairs] at hi
    obtain ⟨n, hn, _, c, hc, e1⟩ := hi
    rw [← e1]; exact ht n hn c hc
  have hs := mapSource_ok t.buckets.flatten fun e he => ⟨(hk e he).1, (hk e he).2.1, (hk e he).2.2.1⟩
  have hp : (t.buckets.flatten.map travOf).Pairwise (fun a b => a.name ≠ b.name) := by
    rw [List.pairwise_map]
    exact h2.imp fun h e => h (List.append_cancel_left e)
  refine ⟨t.buckets.flatten.map travOf, ?_, hp, ?_⟩
  · unfold compileTrav DGT_Fast
    simp only [h1, Res.bind_ok, hs]
    have g1 : twice ((t.buckets.flatten.map travOf).map (·.name)) = false := by
      rw [twice_false, List.pairwise_map]; exact hp
    have g2 : (t.buckets.flatten.map travOf).any (fun f => coreNames.contains f.name) = false := by
      rw [List.any_eq_false]
      intro f hf
      obtain ⟨e, he, ef⟩ := List.mem_map.1 hf
      rw [List.contains_eq_mem, decide_eq_true_eq, travWords_eq, ← ef]
      intro hm
      obtain ⟨w, hwm, ew⟩ := List.mem_map.1 hm
      exact (hk e he).2.2.2 (by rw [← List.append_cancel_left ew]; exact hwm)
    have g3 : (t.buckets.flatten.map travOf).any (fun f => twice (f.cases.map (·.1))) = false := by
      rw [List.any_eq_false]
      intro f hf
      obtain ⟨e, he, ef⟩ := List.mem_map.1 hf
      rw [Bool.not_eq_true, twice_false, ← ef]
      simp only [travOf, (h3 e he).1, Option.getD_some, List.map_map, List.pairwise_map]
      exact occ_distinct hw e.1
    rw [g1, g2, g3]
    rfl
  · intro f
    rw [List.mem_map]
    constructor
    · rintro ⟨e, he, ef⟩
      refine ⟨e.1, (h3 e he).2, ?_⟩
      rw [← ef, ← (h3 e he).1]
    · rintro ⟨q, hq, ef⟩
      exact ⟨_, h4 q hq, ef.symm⟩

theorem find_trav {fs : List TravFn} (h : fs.Pairwise (fun a b => a.name ≠ b.name)) (f : TravFn) (hf : f ∈ fs) :
    fs.find? (·.name == f.name) = some f := by
  refine find_pairwise _ _ _ h ?_ f hf (by simp)
  intro a b hab ha hb
  simp only [beq_iff_eq] at ha hb
  exact absurd (ha.trans hb.symm) hab

theorem nodeOf_is {p : Prog} (hw : WfProg p) (n : Node) (hn : n ∈ p.nodes) (o : Obj) (h : NodeOf n o) : IsNode n o :=
  ⟨by rw [upr_up (hw.nodeIds n hn)]; exact h.1, by rw [lwr_low (hw.nodeIds n hn)]; exact h.2⟩

/-- In a node with the child, the child is replaced and nothing else. -/
theorem callTrav_ok {p : Prog} (hw : WfProg p) {h : Header} (hcomp : compile p = .ok h) (ht : TravNames p) (n : Node)
    (hn : n ∈ p.nodes) (c : Child) (hc : c ∈ n.children) (o : Obj) (ho : NodeOf n o) (v : Val)
    (hv : o.child (low c.name) = some v) (opt : Val → Val) :
    ∃ o', callTrav p ("TRAV".toUTF8.toList ++ c.name.orig) opt o = .ok o' ∧ OnlyChild (low c.name) (opt v) o o' := by
  obtain ⟨fs, h1, h2, h3⟩ := compileTrav_ok hw ht
  have hT : "TRAV".toUTF8.toList = sTRAV := by decide +kernel
  have hin : n.name ∈ occ (pairs p.nodes) c.name.orig := by
    rw [mem_occ, mem_pairs]; exact ⟨n, hn, rfl, c, hc, rfl⟩
  have hf : travOf (c.name.orig, some (occ (pairs p.nodes) c.name.orig)) ∈ fs :=
    (h3 _).2 ⟨_, List.ne_nil_of_mem hin, rfl⟩
  have his := nodeOf_is hw n hn o ho
  have hlow := lwr_low (hw.childIds n hn c hc)
  have hfind := find_trav h2 _ hf
  have hcase : (travOf (c.name.orig, some (occ (pairs p.nodes) c.name.orig))).cases.find? (·.1 == o.nt) =
      some (n.name.upr, n.name.upr ++ sU ++ c.name.upr) := by
    rw [(hw.childIds n hn c hc).2]
    refine find_pairwise (fun a b => a.1 ≠ b.1) _ _ ?_ ?_ _ ?_ (by simp [his.1])
    · simp only [travOf, Option.getD_some, List.pairwise_map]
      exact occ_distinct hw _
    · intro a b hab ha hb
      simp only [beq_iff_eq] at ha hb
      exact absurd (ha.trans hb.symm) hab
    · simp only [travOf, Option.getD_some]
      exact List.mem_map.2 ⟨n.name, hin, rfl⟩
  refine ⟨{ o with child := fun x => if x = c.name.lwr then some (opt v) else o.child x }, ?_, ?_⟩
  · unfold callTrav
    rw [hcomp, Res.bind_ok, h1, Res.bind_ok, hT]
    have e1 : fs.find? (·.name == sTRAV ++ c.name.orig) = some (travOf (c.name.orig, some (occ (pairs p.nodes) c.name.orig))) := hfind
    rw [e1]
    dsimp only
    rw [hcase]
    dsimp only
    rw [access_child (compiled hcomp) n hn c hc o his true, Res.bind_ok]
    dsimp only
    rw [hlow, hv]
    rfl
  · refine ⟨rfl, rfl, rfl, rfl, rfl, rfl, ?_, ?_⟩
    · simp [hlow]
    · intro y hy; simp [hlow, hy]

theorem node_unique {p : Prog} (hw : WfProg p) {k m : Node} (hk : k ∈ p.nodes) (hm : m ∈ p.nodes)
    (e : k.name.upr = m.name.upr) : k = m := by
  have : ∀ (l : List Node), l.Pairwise (fun a b => a.name.upr ≠ b.name.upr) → k ∈ l → m ∈ l → k = m := by
    intro l hl h1 h2
    induction l with
    | nil => simp at h1
    | cons a l ih =>
      rw [List.pairwise_cons] at hl
      rcases List.mem_cons.1 h1 with e1 | h1 <;> rcases List.mem_cons.1 h2 with e2 | h2
      · exact e1.trans e2.symm
      · rw [e1] at e; exact absurd e (hl.1 m h2)
      · rw [e2] at e; exact absurd e.symm (hl.1 k h1)
      · exact ih hl.2 h1 h2
  exact this p.nodes (nodes_upr hw) hk hm

/-- In another node the program ends. -/
theorem callTrav_abort {p : Prog} (hw : WfProg p) {h : Header} (hcomp : compile p = .ok h) (ht : TravNames p) (n : Node)
    (hn : n ∈ p.nodes) (c : Child) (hc : c ∈ n.children) (m : Node) (hm : m ∈ p.nodes)
    (hno : ∀ d ∈ m.children, d.name.orig ≠ c.name.orig) (o : Obj) (ho : NodeOf m o) (opt : Val → Val) :
    callTrav p ("TRAV".toUTF8.toList ++ c.name.orig) opt o = .abort "Current target has no child" := by
  obtain ⟨fs, h1, h2, h3⟩ := compileTrav_ok hw ht
  have hT : "TRAV".toUTF8.toList = sTRAV := by decide +kernel
  have hin : n.name ∈ occ (pairs p.nodes) c.name.orig := by
    rw [mem_occ, mem_pairs]; exact ⟨n, hn, rfl, c, hc, rfl⟩
  have hf : travOf (c.name.orig, some (occ (pairs p.nodes) c.name.orig)) ∈ fs :=
    (h3 _).2 ⟨_, List.ne_nil_of_mem hin, rfl⟩
  have his := nodeOf_is hw m hm o ho
  have hcase : (travOf (c.name.orig, some (occ (pairs p.nodes) c.name.orig))).cases.find? (·.1 == o.nt) = none := by
    rw [List.find?_eq_none]
    intro x hx e
    simp only [travOf, Option.getD_some] at hx
    obtain ⟨i, hi, ex⟩ := List.mem_map.1 hx
    rw [mem_occ, mem_pairs] at hi
    obtain ⟨k, hk, e1, d, hd, e2⟩ := hi
    rw [beq_iff_eq, ← ex, his.1, ← e1] at e
    dsimp only at e
    have hkm : k = m := node_unique hw hk hm e
    rw [hkm] at hd
    exact hno d hd e2
  unfold callTrav
  rw [hcomp, Res.bind_ok, h1, Res.bind_ok, hT]
  have e1 : fs.find? (·.name == sTRAV ++ c.name.orig) = some (travOf (c.name.orig, some (occ (pairs p.nodes) c.name.orig))) :=
    find_trav h2 _ hf
  rw [e1]
  dsimp only
  rw [hcase]

/-! ## Nodesets -/

theorem macroFn_set {p : Prog} {h : Header} (hc : Compiled p h) (s : NodeSet) (hs : s ∈ p.sets) (a : Attr)
    (ha : a ∈ s.attrs) : macroFn h (s.name.upr ++ sU ++ a.name.upr) = .ok (classic a, DGNSAFattribute s a) := by
  have := macroFn_eq hc (DGNMattribute s.name a) (macro_set s hs _ (by
    unfold DGNMinodeset; exact List.mem_map_of_mem ha)) (DGNSAFattribute s a)
    (fn_set s hs _ (by unfold DGNSAFinodeset; exact List.mem_map_of_mem ha)) (by
      rw [macroAttr_fn]
      unfold DGNAFattribute DGNSAFattribute
      split <;> rfl)
  rw [macroAttr_name, macroAttr_lval] at this
  exact this

theorem cases_once {p : Prog} (hw : WfProg p) (s : NodeSet) (hs : s ∈ p.sets) (a : Attr) :
    (s.members.map (DGNSAFsetliteral a)).Pairwise fun x y => x.1 ≠ y.1 := by
  rw [List.pairwise_map]
  have hd := hw.members s hs
  unfold Distinct at hd
  refine List.Pairwise.imp_of_mem ?_ hd
  intro x y hx hy hxy e
  apply hxy
  rw [sameName_iff (hw.memberIds s hs x hx) (hw.memberIds s hs y hy)]
  exact (upr_iff (hw.memberIds s hs x hx) (hw.memberIds s hs y hy)).1 e

/-- Through the nodeset, the attribute of the node is used. -/
theorem access_set {p : Prog} (hw : WfProg p) {h : Header} (hcomp : compile p = .ok h) (s : NodeSet) (hs : s ∈ p.sets)
    (a : Attr) (ha : a ∈ s.attrs) (m : Id) (hm : m ∈ s.members) (n : Node) (hn : n ∈ p.nodes)
    (hnm : SameName n.name.orig m.orig) (o : Obj) (ho : NodeOf n o) :
    ∃ b ∈ n.attrs, SameName b.name.orig a.name.orig ∧
      (Computed a → accessSet h (s.name.upr ++ sU ++ a.name.upr) o = .ok (.valued (low n.name) (low a.name))) ∧
      (¬ Computed a → accessSet h (s.name.upr ++ sU ++ a.name.upr) o = .ok (.plain (low n.name) (low a.name))) := by
  obtain ⟨n', hn', h1, h2⟩ := hw.has s hs m hm
  have wm := hw.memberIds s hs m hm
  have hup : n.name.upr = m.upr := (upr_iff (hw.nodeIds n hn) wm).2 ((sameName_iff (hw.nodeIds n hn) wm).1 hnm)
  have hup' : n'.name.upr = m.upr := (upr_iff (hw.nodeIds n' hn') wm).2 ((sameName_iff (hw.nodeIds n' hn') wm).1 h1)
  have en : n' = n := node_unique hw hn' hn (hup'.trans hup.symm)
  rw [en] at h2
  obtain ⟨b, hb, hba, hcb⟩ := h2 a ha
  have his := nodeOf_is hw n hn o ho
  have wa := (hw.sattrs s hs a ha).wf
  have wb := (hw.attrs n hn b hb).wf
  have hlb : b.name.lwr = a.name.lwr := (sameName_iff wb wa).1 hba
  have hub : b.name.upr = a.name.upr := (upr_iff wb wa).2 hlb
  have hfind : (s.members.map (DGNSAFsetliteral a)).find? (·.1 == o.nt) =
      some (n.name.upr, n.name.upr ++ sU ++ b.name.upr) := by
    rw [hup, hub]
    refine find_pairwise (fun x y => x.1 ≠ y.1) _ _ (cases_once hw s hs a) ?_ _ (List.mem_map.2 ⟨m, hm, rfl⟩)
      (by simp [his.1, hup])
    intro x y hxy hx hy
    simp only [beq_iff_eq] at hx hy
    exact absurd (hx.trans hy.symm) hxy
  have htw : twice ((s.members.map (DGNSAFsetliteral a)).map (·.1)) = false := by
    rw [twice_false, List.pairwise_map]; exact cases_once hw s hs a
  refine ⟨b, hb, hba, ?_, ?_⟩
  · intro hca
    unfold accessSet
    rw [macroFn_set (compiled hcomp) s hs a ha, Res.bind_ok, classic_false hca]
    simp only [DGNSAFattribute, classic_false hca, beq_self_eq_true]
    rw [htw, hfind]
    dsimp only
    rw [(access_valued (compiled hcomp) n hn b hb (hcb.1 hca) o his).1, hlb, lwr_low (hw.nodeIds n hn), lwr_low wa]
  · intro hca
    unfold accessSet
    rw [macroFn_set (compiled hcomp) s hs a ha, Res.bind_ok, classic_true hca]
    simp only [DGNSAFattribute, classic_true hca, beq_self_eq_true]
    rw [htw, hfind]
    dsimp only
    rw [access_plain (compiled hcomp) n hn b hb (fun hb => hca (hcb.2 hb)) o his true, hlb, lwr_low (hw.nodeIds n hn),
      lwr_low wa]

/-- A node that is no member is refused. -/
theorem access_set_other {p : Prog} (hw : WfProg p) {h : Header} (hcomp : compile p = .ok h) (s : NodeSet) (hs : s ∈ p.sets)
    (a : Attr) (ha : a ∈ s.attrs) (n : Node) (hn : n ∈ p.nodes) (hno : ∀ m ∈ s.members, ¬ SameName n.name.orig m.orig)
    (o : Obj) (ho : NodeOf n o) :
    accessSet h (s.name.upr ++ sU ++ a.name.upr) o = .abort "CCNaccesserror" := by
  have his := nodeOf_is hw n hn o ho
  have hfind : (s.members.map (DGNSAFsetliteral a)).find? (·.1 == o.nt) = none := by
    rw [List.find?_eq_none]
    intro x hx e
    obtain ⟨m, hm, ex⟩ := List.mem_map.1 hx
    rw [beq_iff_eq, ← ex, his.1] at e
    apply hno m hm
    rw [sameName_iff (hw.nodeIds n hn) (hw.memberIds s hs m hm)]
    exact (upr_iff (hw.nodeIds n hn) (hw.memberIds s hs m hm)).1 e.symm
  have htw : twice ((s.members.map (DGNSAFsetliteral a)).map (·.1)) = false := by
    rw [twice_false, List.pairwise_map]; exact cases_once hw s hs a
  unfold accessSet
  rw [macroFn_set (compiled hcomp) s hs a ha, Res.bind_ok]
  cases hcl : classic a <;> simp only [DGNSAFattribute, hcl, beq_self_eq_true, htw, hfind]

/-! ## Prototypes -/

theorem protos {p : Prog} (l : List Node) (ha : ∀ n ∈ l, ∀ a ∈ n.attrs, AttrOk p a) : ∃ hs, DGIFinodes true l = .ok hs ∧
    hs.length = l.length ∧ ∀ (i : Nat) (n : Node), l[i]? = some n → ∃ hd df, hs[i]? = some hd ∧ DGIFinode false n = .ok df ∧
      hd.name = df.name ∧ hd.toks = df.toks ∧ hd.semi = true ∧ df.semi = false := by
  induction l with
  | nil => exact ⟨[], rfl, rfl, by simp⟩
  | cons n l ih =>
    obtain ⟨hs, h1, h2, h3⟩ := ih fun m hm => ha m (List.mem_cons_of_mem _ hm)
    obtain ⟨ps, h4, _⟩ := difAttributes n.attrs (childParams n.children).length (ha n (by simp))
    have hd : ∀ semi, DGIFinode semi n = .ok ⟨sAST ++ n.name.lwr, toks (childParams n.children) 0 ++
        toks ps (childParams n.children).length ++ voidTok ((childParams n.children).length + ps.length), semi⟩ := by
      intro semi
      unfold DGIFinode
      rw [difChildren]
      simp only [Nat.zero_add, h4, Res.bind_ok]
    have e : DGIFinodes true (n :: l) = .ok (⟨sAST ++ n.name.lwr, toks (childParams n.children) 0 ++
        toks ps (childParams n.children).length ++ voidTok ((childParams n.children).length + ps.length), true⟩ :: hs) := by
      unfold DGIFinodes
      rw [hd true, Res.bind_ok, h1, Res.bind_ok]
    refine ⟨_, e, by simp [h2], ?_⟩
    intro i m hi
    cases i with
    | zero =>
      rw [List.getElem?_cons_zero, Option.some.injEq] at hi
      rw [← hi]
      exact ⟨_, _, rfl, hd false, rfl, rfl, rfl, rfl⟩
    | succ i =>
      rw [List.getElem?_cons_succ] at hi ⊢
      exact h3 i m hi

end Verif.Spec.NodeGen
