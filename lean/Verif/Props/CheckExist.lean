import Verif.Lemmas.CheckExist
import Verif.Props.Ids

/-!
# Properties of the check of references (C49, C50)
-/

namespace Verif.Props
open Verif.Str Verif.Ids Verif.Grammar Verif.CheckExist Verif.Spec.Str Verif.Spec.Ids Verif.Spec.CheckExist

/-- All names in the program carry their folded forms (`C24_ids`). -/
def WfProg (p : Prog) : Prop := WfAst p.ids ∧ ∀ u ∈ uses p, WfId u

/-- The table that `buildSymbolTable` made is right about all names. -/
theorem right_of_table (p : Prog) (hw : WfProg p) (t : List (Ste Decl)) (h : BSTast p.ids = .ok t) (n : Id)
    (hn : WfId n) : Right p t n := by
  obtain ⟨h1, h2⟩ := C24_lookup p.ids hw.1 t h n hn
  intro k
  constructor
  · intro hk
    by_cases hx : ∃ x ∈ declared p.ids, SameName x.1.orig n.orig
    · obtain ⟨x, hx, hs⟩ := hx
      have := h1 x hx hs
      simp only [STlookup, Res.ok.injEq] at this
      rw [kindOf, this] at hk
      exact ⟨x, hx, hs, by simpa using hk⟩
    · have := h2 (fun x hm hs => hx ⟨x, hm, hs⟩)
      simp only [STlookup, Res.ok.injEq] at this
      rw [kindOf, this] at hk
      cases hk
  · rintro ⟨x, hx, hs, rfl⟩
    have := h1 x hx hs
    simp only [STlookup, Res.ok.injEq] at this
    rw [kindOf, this]
    rfl

/-- Position of the first flagged element, counted from `i`. -/
theorem firstOf_at {α : Type} (f : α → Bool) (l : List α) (i j : Nat) (h : firstOf f i l = some j) :
    ∃ x, i ≤ j ∧ l[j - i]? = some x ∧ f x = true := by
  induction l generalizing i with
  | nil => cases h
  | cons x l ih =>
    rw [firstOf] at h
    split at h
    · cases h; exact ⟨x, Nat.le_refl _, by simp, by assumption⟩
    · obtain ⟨y, h1, h2, h3⟩ := ih (i + 1) h
      refine ⟨y, by omega, ?_, h3⟩
      rw [show j - i = (j - (i + 1)) + 1 by omega]
      simpa using h2

theorem firstOf_none {α : Type} (f : α → Bool) (l : List α) (i : Nat) (h : firstOf f i l = none) :
    ∀ x ∈ l, f x = false := by
  induction l generalizing i with
  | nil => simp
  | cons x l ih =>
    rw [firstOf] at h
    split at h
    · cases h
    · rename_i hx
      intro y hy
      rcases List.mem_cons.1 hy with rfl | hy
      · simpa using hx
      · exact ih _ h y hy

/-- The result names the flagged node and phase, if there are any. -/
def Marked (p : Prog) (o : Out) : Prop :=
  (∀ i, o.root = some i → ∃ n, p.nodes[i]? = some n ∧ n.isRoot = true) ∧
  (o.root = none → ∀ n ∈ p.nodes, n.isRoot = false) ∧
  (∀ i, o.start = some i → ∃ n, p.phases[i]? = some n ∧ n.isStart = true) ∧
  (o.start = none → ∀ n ∈ p.phases, n.isStart = false)

theorem plainDecls_mem (kind : Kind) (n : Id) (l : List Id) (k : Nat) (h : n ∈ l) :
    ∃ j, (n, (⟨kind, j⟩ : Decl)) ∈ plainDecls kind k l := by
  induction l generalizing k with
  | nil => cases h
  | cons y l ih =>
    rcases List.mem_cons.1 h with rfl | h
    · exact ⟨k, List.mem_cons_self⟩
    · obtain ⟨j, hj⟩ := ih (k + 1) h
      exact ⟨j, List.mem_cons_of_mem _ hj⟩

theorem nodeName_wf (p : Prog) (hw : WfProg p) (x : Node) (hx : x ∈ p.nodes) : WfId x.name := by
  obtain ⟨j, hj⟩ := plainDecls_mem .node x.name (p.nodes.map (·.name)) 0 (List.mem_map.2 ⟨x, hx, rfl⟩)
  refine hw.1.1 (x.name, ⟨.node, j⟩) ?_
  rw [declared]
  exact List.mem_append_right _ (List.mem_append_right _ (List.mem_append_right _ (List.mem_append_left _ hj)))

theorem namedDecls_mem (kind : Kind) (n : Id × Option Id) (l : List (Id × Option Id)) (k : Nat) (h : n ∈ l) :
    ∃ j, (n.1, (⟨kind, j⟩ : Decl)) ∈ namedDecls kind k l := by
  induction l generalizing k with
  | nil => cases h
  | cons y l ih =>
    rcases List.mem_cons.1 h with rfl | h
    · exact ⟨k, by simp [namedDecls]⟩
    · obtain ⟨j, hj⟩ := ih (k + 1) h
      exact ⟨j, by rw [namedDecls]; exact List.mem_append_right _ hj⟩

theorem phaseName_wf (p : Prog) (hw : WfProg p) (x : Phase) (hx : x ∈ p.phases) : WfId x.name := by
  obtain ⟨j, hj⟩ := namedDecls_mem .phase (x.name, x.uid) (p.phases.map fun x => (x.name, x.uid)) 0
    (List.mem_map.2 ⟨x, hx, rfl⟩)
  refine hw.1.1 (x.name, ⟨.phase, j⟩) ?_
  rw [declared]
  exact List.mem_append_left _ hj

theorem flagged_unique {α : Type} (f : α → Bool) (l : List α) (h : (l.filter f).length ≤ 1) (x y : α) (hx : x ∈ l)
    (hy : y ∈ l) (fx : f x = true) (fy : f y = true) : x = y := by
  have mx : x ∈ l.filter f := List.mem_filter.2 ⟨hx, fx⟩
  have my : y ∈ l.filter f := List.mem_filter.2 ⟨hy, fy⟩
  match hl : l.filter f, h with
  | [], _ => rw [hl] at mx; cases mx
  | [z], _ =>
    rw [hl] at mx my
    rw [List.mem_singleton.1 mx, List.mem_singleton.1 my]
  | _ :: _ :: _, h => simp at h

theorem allPairs_get {α : Type} {R : α → α → Prop} {l m : List α} (h : AllPairs R l m) (i : Nat) (x : α)
    (hx : l[i]? = some x) : ∃ y, m[i]? = some y ∧ R x y := by
  induction h generalizing i with
  | nil => cases hx
  | cons hr _ ih =>
    cases i with
    | zero => cases hx; exact ⟨_, rfl, hr⟩
    | succ i => exact ih i hx

theorem check_core (p : Prog) (hw : WfProg p) (hp : Parsed p) (t : List (Ste Decl)) (hb : BSTast p.ids = .ok t) :
    (Sound p → ∃ o, CEXast t p = .ok o ∧ Filled p o.prog ∧ Marked p o) ∧
    (¬ Sound p → CEXast t p = .abort "CTIabortOnError") := by
  have hR : ∀ u ∈ uses p, Right p t u := fun u hu => right_of_table p hw t hb u (hw.2 u hu)
  have hW := hw.2
  have inPhase : ∀ x ∈ p.phases, ∀ u ∈ x.uid.toList ++ x.actions, u ∈ uses p := fun x hx u hu => by
    simp only [uses, List.mem_append, List.mem_flatMap]
    exact .inl ⟨x, hx, by simpa using hu⟩
  have inTrav : ∀ x ∈ p.traversals, ∀ u ∈ x.uid.toList ++ (x.nodes.toList.flatMap exprIds ++
      x.data.flatMap (fun a => a.name :: a.ref.toList)), u ∈ uses p := fun x hx u hu => by
    rw [uses]
    exact List.mem_append_right _ (List.mem_append_left _ (List.mem_flatMap.2 ⟨x, hx, hu⟩))
  have inPass : ∀ x ∈ p.passes, ∀ u ∈ x.uid.toList, u ∈ uses p := fun x hx u hu => by
    rw [uses]
    exact List.mem_append_right _ (List.mem_append_right _ (List.mem_append_left _ (List.mem_flatMap.2 ⟨x, hx, hu⟩)))
  have inNode : ∀ x ∈ p.nodes, ∀ u ∈ x.attrs.flatMap (fun a => a.name :: a.ref.toList) ++
      x.children.flatMap (fun c => c.name :: c.ref.toList), u ∈ uses p := fun x hx u hu => by
    rw [uses]
    exact List.mem_append_right _ (List.mem_append_right _ (List.mem_append_right _
      (List.mem_append_left _ (List.mem_flatMap.2 ⟨x, hx, hu⟩))))
  have inSet : ∀ x ∈ p.sets, ∀ u ∈ x.attrs.flatMap (fun a => a.name :: a.ref.toList) ++
      x.expr.toList.flatMap exprIds, u ∈ uses p := fun x hx u hu => by
    rw [uses]
    exact List.mem_append_right _ (List.mem_append_right _ (List.mem_append_right _ (List.mem_append_right _
      (List.mem_append_left _ (List.mem_flatMap.2 ⟨x, hx, hu⟩)))))
  have inEnum : ∀ x ∈ p.enums, x.uid ∈ uses p := fun x hx => by
    rw [uses]
    exact List.mem_append_right _ (List.mem_append_right _ (List.mem_append_right _ (List.mem_append_right _
      (List.mem_append_right _ (List.mem_map.2 ⟨x, hx, rfl⟩)))))
  have nameIn : ∀ (l : List Attr) (a : Attr), a ∈ l → a.name ∈ l.flatMap (fun a => a.name :: a.ref.toList) :=
    fun l a ha => List.mem_flatMap.2 ⟨a, ha, List.mem_cons_self⟩
  have refIn : ∀ (l : List Attr) (a : Attr), a ∈ l → ∀ r ∈ a.ref, r ∈ l.flatMap (fun a => a.name :: a.ref.toList) :=
    fun l a ha r hr => List.mem_flatMap.2 ⟨a, ha, List.mem_cons_of_mem _ (by simpa using hr)⟩
  have exprIn : ∀ (o : Option Expr) (e : Expr), e ∈ o → ∀ r ∈ exprIds e, r ∈ o.toList.flatMap exprIds :=
    fun o e he r hr => List.mem_flatMap.2 ⟨e, by simpa using he, hr⟩
  -- phases
  obtain ⟨e1, ss1, s1, h1, c1, hs1⟩ := phases_spec p t p.phases 0 {}
    (fun x hx a ha => hR a (inPhase x hx a (List.mem_append_right _ ha)))
    (fun x hx u hu => hW u (inPhase x hx u (List.mem_append_left _ (by simpa using hu))))
  -- traversals
  obtain ⟨l2, e2, n2, h2, c2, f2⟩ := traversals_spec p t p.traversals { errors := e1, seenStart := ss1, start := s1 }
    (fun x hx u hu => hW u (inTrav x hx u (List.mem_append_left _ (by simpa using hu))))
    (fun x hx a ha => hW _ (inTrav x hx _ (List.mem_append_right _ (List.mem_append_right _ (nameIn _ a ha)))))
    (fun x hx e he a ha => hR a (inTrav x hx a (List.mem_append_right _ (List.mem_append_left _ (exprIn _ e he a ha)))))
    hp.data
    (fun x hx a ha r hr => hR r (inTrav x hx r (List.mem_append_right _ (List.mem_append_right _ (refIn _ a ha r hr)))))
  -- passes
  obtain ⟨e3, h3, c3⟩ := passes_spec p.passes { errors := e2, seenStart := ss1, start := s1, datas := n2 }
    (fun x hx u hu => hW u (inPass x hx u (by simpa using hu)))
  -- nodes
  obtain ⟨l4, e4, sr4, s4, h4, c4, hs4, f4⟩ := nodes_spec p t p.nodes 0
    { errors := e3, seenStart := ss1, start := s1, datas := n2 } rfl
    (fun x hx => nodeName_wf p hw x hx)
    (fun x hx a ha => hW _ (inNode x hx _ (List.mem_append_left _ (nameIn _ a ha))))
    (fun x hx c hc => hW _ (inNode x hx _ (List.mem_append_right _ (List.mem_flatMap.2 ⟨c, hc, List.mem_cons_self⟩))))
    hp.attrs hp.children
    (fun x hx a ha r hr => hR r (inNode x hx r (List.mem_append_left _ (refIn _ a ha r hr))))
    (fun x hx c hc r hr => hR r (inNode x hx r (List.mem_append_right _ (List.mem_flatMap.2
      ⟨c, hc, List.mem_cons_of_mem _ (by simpa using hr)⟩))))
  -- nodesets
  obtain ⟨l5, e5, h5, c5, f5⟩ := sets_spec p t p.sets
    { errors := e4, seenRoot := sr4, root := s4, seenStart := ss1, start := s1, datas := n2 } rfl
    (fun x hx a ha => hW _ (inSet x hx _ (List.mem_append_left _ (nameIn _ a ha))))
    hp.setAttrs
    (fun x hx a ha r hr => hR r (inSet x hx r (List.mem_append_left _ (refIn _ a ha r hr))))
    (fun x hx e he a ha => hR a (inSet x hx a (List.mem_append_right _ (exprIn _ e he a ha))))
  -- enums
  obtain ⟨e6, n6, h6, c6⟩ := enums_spec p.enums
    { errors := e5, seenRoot := sr4, root := s4, seenStart := ss1, start := s1, datas := n2 }
    (fun x hx => hW _ (inEnum x hx))
  have hd : Fresh [] ((p.enums.map (·.uid)).map (·.lwr)) ↔ Distinct (p.enums.map (·.uid)) := by
    apply distinct_iff
    intro i hi
    obtain ⟨a, ha, rfl⟩ := List.mem_map.1 hi
    exact hW _ (inEnum a ha)
  have all : Counts 0 e6 (Sound p) := by
    refine (((((c1.trans c2).trans c3).trans c4).trans c5).trans c6).congr ?_
    simp only [keys, List.map_nil, hd]
    constructor
    · rintro ⟨⟨⟨⟨⟨⟨a1, a2, a3⟩, b1, b2, b3⟩, c⟩, d1, d2, d3⟩, e1, e2⟩, f⟩
      exact ⟨a1, by simpa [flagged] using a3, a2, b1, c, b2, b3, by simpa [flagged] using d2, d1, d3, e1, e2, f⟩
    · rintro ⟨a1, a3, a2, b1, c, b2, b3, d2, d1, d3, e1, e2, f⟩
      exact ⟨⟨⟨⟨⟨⟨a1, a2, by simpa [flagged] using a3⟩, b1, b2, b3⟩, c⟩, d1, by simpa [flagged] using d2, d3⟩,
        e1, e2⟩, f⟩
  have run : CEXast t p = if e6 ≠ 0 then .abort "CTIabortOnError"
      else .ok ⟨{ p with traversals := l2, nodes := l4, sets := l5 }, s4, s1⟩ := by
    simp only [CEXast, h1, Res.bind_ok, h2, h3, h4, h5, h6]
  constructor
  · intro hs
    have h0 := all.2.2 hs
    refine ⟨_, by rw [run, if_neg (by simp [h0])], ?_, ?_⟩
    · have i1 : 0 ≤ e1 := c1.1
      have i2 : e1 ≤ e2 := c2.1
      have i3 : e2 ≤ e3 := c3.1
      have i4 : e3 ≤ e4 := c4.1
      have i5 : e4 ≤ e5 := c5.1
      have i6 : e5 ≤ e6 := c6.1
      exact ⟨rfl, rfl, rfl, f2 (by show e2 = e1; omega), f4 (by show e4 = e3; omega), f5 (by show e5 = e4; omega)⟩
    · have hs4' : s4 = firstOf (·.isRoot) 0 p.nodes := by rw [hs4]; simp
      have hs1' : s1 = firstOf (·.isStart) 0 p.phases := by rw [hs1]; simp
      refine ⟨fun i hi => ?_, fun hi => ?_, fun i hi => ?_, fun hi => ?_⟩
      · obtain ⟨x, _, hx⟩ := firstOf_at _ _ _ _ (hs4' ▸ hi)
        exact ⟨x, by simpa using hx⟩
      · exact firstOf_none _ _ _ (hs4' ▸ hi)
      · obtain ⟨x, _, hx⟩ := firstOf_at _ _ _ _ (hs1' ▸ hi)
        exact ⟨x, by simpa using hx⟩
      · exact firstOf_none _ _ _ (hs1' ▸ hi)
  · intro hs
    rw [run, if_pos (fun h => hs (all.2.1 h))]

/-- C49: `buildSymbolTable` and `checkExistance` accept exactly the specifications without name clashes in which every
reference stands for something of the right kind, and fill in the types of children and attributes; all others end the
compiler.  Missing: specifications in which two passes share a target function (`C24_functions_false`). -/
theorem C49_check_partial (p : Prog) (hw : WfProg p) (hp : Parsed p) (hf : ¬ Clash (functions p.ids)) :
    (¬ Clash (names p.ids) ∧ Sound p → ∃ o, check p = .ok o ∧ Filled p o.prog) ∧
    (¬ (¬ Clash (names p.ids) ∧ Sound p) → check p = .abort "CTIabortOnError") := by
  obtain ⟨h1, h2⟩ := C24_reports_partial p.ids hw.1 hf
  constructor
  · rintro ⟨hc, hs⟩
    obtain ⟨t, ht⟩ := h2 hc
    obtain ⟨o, ho, hfi, _⟩ := (check_core p hw hp t ht).1 hs
    exact ⟨o, by simp only [check, ht, Res.bind_ok, ho], hfi⟩
  · intro hn
    by_cases hc : Clash (names p.ids)
    · simp only [check, h1 hc, Res.bind_abort]
    · obtain ⟨t, ht⟩ := h2 hc
      simp only [check, ht, Res.bind_ok]
      exact (check_core p hw hp t ht).2 (fun hs => hn ⟨hc, hs⟩)

/-- Test specification: a root node with a child that is a node, a child that is a nodeset and an attribute that is an
enum; a start phase with a traversal and a pass. -/
def sampleProg : Prog where
  phases := [⟨mkId [112], none, true, [mkId [84], mkId [113]]⟩]
  traversals := [⟨mkId [116], some (mkId [85]), some (.op .union (.ref (mkId [115])) (.lit [mkId [98]])),
    [⟨mkId [100], .linkOrEnum, some (mkId [98])⟩]⟩]
  passes := [⟨mkId [113], none, some (mkId [102])⟩]
  nodes := [⟨mkId [97], true, [⟨mkId [120], some (mkId [98]), .none⟩, ⟨mkId [121], some (mkId [83]), .none⟩],
    [⟨mkId [107], .linkOrEnum, some (mkId [101])⟩]⟩, ⟨mkId [98], false, [], [⟨mkId [107], .prim, none⟩]⟩]
  sets := [⟨mkId [115], some (.lit [mkId [98]]), []⟩]
  enums := [⟨mkId [101], mkId [69]⟩]

theorem sampleProg_wf : WfProg sampleProg := by
  unfold WfProg WfAst WfId
  decide +kernel

theorem sampleProg_parsed : Parsed sampleProg := by
  constructor <;> decide +kernel

/-- The names of the result, for tests. -/
def outTypes (o : Out) : List (List CType × List AType) :=
  o.prog.nodes.map fun n => (n.children.map (·.type), n.attrs.map (·.type))

/-- The test specification passes the check, so it is one of those the theorem calls sound. -/
example : Sound sampleProg ∧ ∃ o, check sampleProg = .ok o ∧
    outTypes o = [([.inode, .inodeset], [.linkOrEnum]), ([], [.prim])] := by
  have hf : ¬ Clash (functions sampleProg.ids) := by unfold Clash; decide +kernel
  have h := (C49_check_partial sampleProg sampleProg_wf sampleProg_parsed hf)
  have hrun : (match check sampleProg with
      | .ok o => decide (outTypes o = [([.inode, .inodeset], [.linkOrEnum]), ([], [.prim])])
      | _ => false) = true := by decide +kernel
  refine ⟨?_, ?_⟩
  · refine Classical.byContradiction fun hs => ?_
    rw [h.2 (fun x => hs x.2)] at hrun
    cases hrun
  · cases hc : check sampleProg with
    | ok o => rw [hc] at hrun; exact ⟨o, rfl, by simpa using hrun⟩
    | ub w => rw [hc] at hrun; cases hrun
    | abort w => rw [hc] at hrun; cases hrun
    | diverge => rw [hc] at hrun; cases hrun

/-- A child whose type is an enum is not accepted. -/
example : check { sampleProg with nodes := [⟨mkId [98], false, [⟨mkId [120], some (mkId [101]), .none⟩], []⟩] } =
    .abort "CTIabortOnError" := by
  refine (C49_check_partial _ ?_ ?_ ?_).2 ?_
  · unfold WfProg WfAst WfId
    decide +kernel
  · constructor <;> decide +kernel
  · unfold Clash; decide +kernel
  · rintro ⟨_, hs⟩
    have := (hs.fields _ List.mem_cons_self).2.2 _ List.mem_cons_self (mkId [101]) rfl
    revert this
    unfold Denotes
    decide +kernel

/-- C50: if an accepted specification has a root node and a start phase, the generated header names them.  Missing:
nothing demands that there is a root node or a start phase (`C50_missing_false`). -/
theorem C50_root_partial (p : Prog) (hw : WfProg p) (hp : Parsed p) (o : Out) (h : check p = .ok o)
    (hr : ∃ n ∈ p.nodes, n.isRoot = true) (hs : ∃ x ∈ p.phases, x.isStart = true) :
    ∃ n ∈ p.nodes, ∃ x ∈ p.phases, n.isRoot = true ∧ (∀ m ∈ p.nodes, m.isRoot = true → m = n) ∧
      x.isStart = true ∧ (∀ y ∈ p.phases, y.isStart = true → y = x) ∧
      rootDefines o = .ok (n.name.orig.map upperB, x.name.orig.map upperB) := by
  obtain ⟨t, ht, hc⟩ := Res.bind_eq_ok.1 h
  obtain ⟨k1, k2⟩ := check_core p hw hp t ht
  by_cases hsd : Sound p
  · obtain ⟨o', ho', hfi, m1, m2, m3, m4⟩ := k1 hsd
    obtain rfl : o = o' := by rw [ho'] at hc; exact (Res.ok.inj hc).symm
    obtain ⟨n0, hn0, hn0'⟩ := hr
    obtain ⟨x0, hx0, hx0'⟩ := hs
    cases hor : o.root with
    | none => exact absurd hn0' (by simp [m2 hor n0 hn0])
    | some i =>
      cases hos : o.start with
      | none => exact absurd hx0' (by simp [m4 hos x0 hx0])
      | some j =>
        obtain ⟨n, hn, hnr⟩ := m1 i hor
        obtain ⟨x, hx, hxs⟩ := m3 j hos
        have hnm := List.mem_of_getElem? hn
        have hxm := List.mem_of_getElem? hx
        refine ⟨n, hnm, x, hxm, hnr, fun m hm hmr => flagged_unique _ _ hsd.root m n hm hnm hmr hnr, hxs,
          fun y hy hys => flagged_unique _ _ hsd.start y x hy hxm hys hxs, ?_⟩
        obtain ⟨n', hn', hname, _⟩ := allPairs_get hfi.nodes i n hn
        rw [← (nodeName_wf p hw n hnm).2, ← (phaseName_wf p hw x hxm).2, ← hname]
        simp only [rootDefines, rootName, startName, hor, hos, hn', hfi.phases, hx, Res.bind_ok]
  · rw [k2 hsd] at hc
    cases hc

/-- `ast` and `p` are the names in the header of the test specification. -/
example : ∃ o, check sampleProg = .ok o ∧ rootDefines o = .ok ([65], [80]) := by
  have hrun : (check sampleProg).isOk = true := by decide +kernel
  cases hc : check sampleProg with
  | ok o =>
    obtain ⟨n, hn, x, hx, hr, _, hs, _, h⟩ := C50_root_partial sampleProg sampleProg_wf sampleProg_parsed o hc
      (by decide +kernel) (by decide +kernel)
    refine ⟨o, rfl, ?_⟩
    have h1 : ∀ n ∈ sampleProg.nodes, n.isRoot = true → n.name.orig.map upperB = [65] := by decide +kernel
    have h2 : ∀ x ∈ sampleProg.phases, x.name.orig.map upperB = [80] := by decide +kernel
    rw [h, h1 n hn hr, h2 x hx]
  | ub w => rw [hc] at hrun; cases hrun
  | abort w => rw [hc] at hrun; cases hrun
  | diverge => rw [hc] at hrun; cases hrun

/-- Test specification without a root node. -/
def rootless : Prog where
  phases := [⟨mkId [112], none, true, []⟩]
  nodes := [⟨mkId [97], false, [], []⟩]

/-- C50 fails without the hypotheses: a specification without a root node passes the check, and printing the name of
the root dereferences NULL. -/
theorem C50_missing_false : ∃ p, WfProg p ∧ Parsed p ∧ Sound p ∧ (∃ x ∈ p.phases, x.isStart = true) ∧
    ∃ o, check p = .ok o ∧ (rootDefines o).isUB = true := by
  have hw : WfProg rootless := by
    unfold WfProg WfAst WfId
    decide +kernel
  have hp : Parsed rootless := by constructor <;> decide +kernel
  have hf : ¬ Clash (functions rootless.ids) := by unfold Clash; decide +kernel
  have hrun : (match check rootless with
      | .ok o => (rootDefines o).isUB
      | _ => false) = true := by decide +kernel
  have h := C49_check_partial rootless hw hp hf
  refine ⟨rootless, hw, hp, ?_, by decide +kernel, ?_⟩
  · refine Classical.byContradiction fun hs => ?_
    rw [h.2 (fun x => hs x.2)] at hrun
    cases hrun
  · cases hc : check rootless with
    | ok o => rw [hc] at hrun; exact ⟨o, rfl, hrun⟩
    | ub w => rw [hc] at hrun; cases hrun
    | abort w => rw [hc] at hrun; cases hrun
    | diverge => rw [hc] at hrun; cases hrun

/-- Test specification whose start phase has a node as action. -/
def nodeAction : Prog where
  phases := [⟨mkId [112], none, true, [mkId [97]]⟩]
  nodes := [⟨mkId [97], true, [], []⟩]

/-- C50: that an action exists does not mean that it can be run.  A node is accepted as action of a phase. -/
theorem C50_action_false : ∃ p, WfProg p ∧ Parsed p ∧ (∃ o, check p = .ok o) ∧
    ∃ x ∈ p.phases, ∃ a ∈ x.actions,
      ¬ Denotes p a .phase ∧ ¬ Denotes p a .traversal ∧ ¬ Denotes p a .pass ∧ Denotes p a .node := by
  refine ⟨nodeAction, ?_, ?_, ?_, ⟨mkId [112], none, true, [mkId [97]]⟩, by simp [nodeAction], mkId [97], by simp, ?_⟩
  · unfold WfProg WfAst WfId
    decide +kernel
  · constructor <;> decide +kernel
  · have hrun : (check nodeAction).isOk = true := by decide +kernel
    cases hc : check nodeAction with
    | ok o => exact ⟨o, rfl⟩
    | ub w => rw [hc] at hrun; cases hrun
    | abort w => rw [hc] at hrun; cases hrun
    | diverge => rw [hc] at hrun; cases hrun
  · unfold Denotes
    decide +kernel

end Verif.Props
