import Verif.Spec.NodeGen
import Verif.Lemmas.Ids

/-!
# Lemmas about generated node types: constructors and access
-/

namespace Verif.Spec.NodeGen
open Verif.Str Verif.Ids Verif.NodeGen Verif.Spec.Str Verif.Spec.Ids

theorem lwr_low {i : Id} (h : WfId i) : i.lwr = low i := h.1

theorem upr_up {i : Id} (h : WfId i) : i.upr = up i := h.2

theorem twice_false (l : List CStr) : twice l = false ↔ l.Pairwise (· ≠ ·) := by
  induction l with
  | nil => simp [twice]
  | cons x l ih =>
    simp only [twice, Bool.or_eq_false_iff, ih, List.pairwise_cons, List.contains_eq_mem, decide_eq_false_iff_not]
    constructor
    · rintro ⟨h, h2⟩
      exact ⟨fun b hb e => h (e ▸ hb), h2⟩
    · rintro ⟨h, h2⟩
      exact ⟨fun hb => h x hb rfl, h2⟩

theorem macroClash_false (l : List Macro) : macroClash l = false ↔ l.Pairwise fun a b => b.name = a.name → b = a := by
  induction l with
  | nil => simp [macroClash]
  | cons x l ih =>
    simp only [macroClash, Bool.or_eq_false_iff, ih, List.pairwise_cons, List.any_eq_false, Bool.and_eq_true,
      beq_iff_eq, bne_iff_ne, not_and, ne_eq, Classical.not_not]

theorem find_pairwise {α : Type} (R : α → α → Prop) (f : α → Bool) (l : List α) (hp : l.Pairwise R)
    (h : ∀ a b, R a b → f a = true → f b = true → a = b) (x : α) (hx : x ∈ l) (hf : f x = true) :
    l.find? f = some x := by
  induction l with
  | nil => simp at hx
  | cons y l ih =>
    rw [List.pairwise_cons] at hp
    simp only [List.find?_cons]
    cases hy : f y with
    | true =>
      rcases List.mem_cons.1 hx with e | hm
      · rw [e]
      · exact congrArg some (h y x (hp.1 x hm) hy hf)
    | false =>
      rcases List.mem_cons.1 hx with e | hm
      · rw [← e, hf] at hy; cases hy
      · exact ih hp.2 hm

theorem findMacro_eq (ms : List Macro) (h : macroClash ms = false) (m : Macro) (hm : m ∈ ms) :
    findMacro ms m.name = some m := by
  rw [macroClash_false] at h
  unfold findMacro
  refine find_pairwise (fun a b => a.name = b.name → a = b) _ _ (List.pairwise_reverse.2 h) ?_ m (by simpa using hm) (by simp)
  intro a b hab ha hb
  simp only [beq_iff_eq] at ha hb
  exact hab (ha.trans hb.symm)

theorem findFn_eq (fs : List Fn) (h : twice (fs.map (·.name)) = false) (f : Fn) (hf : f ∈ fs) :
    fs.find? (·.name == f.name) = some f := by
  rw [twice_false, List.pairwise_map] at h
  refine find_pairwise _ _ _ h ?_ f hf (by simp)
  intro a b hab ha hb
  simp only [beq_iff_eq] at ha hb
  exact absurd (ha.trans hb.symm) hab

/-- What compilation gives. -/
theorem compile_ok {p : Prog} {h : Header} (hc : compile p = .ok h) :
    DGNSinodes p p.nodes = .ok h.structs ∧ h.macros = macros p ∧ h.fns = fns p ∧
    twice (h.structs.map (·.tag) ++ h.structs.flatMap fun s => s.members.flatMap (·.tags)) = false ∧
    h.structs.all structOk = true ∧ macroClash (macros p) = false ∧ twice ((fns p).map (·.name)) = false := by
  unfold compile at hc
  rw [Res.bind_eq_ok] at hc
  obtain ⟨ss, h1, hc⟩ := hc
  split at hc <;> try cases hc
  rename_i h2
  split at hc <;> try cases hc
  rename_i h3
  split at hc <;> try cases hc
  rename_i h4
  split at hc <;> try cases hc
  rename_i h5
  exact ⟨h1, rfl, rfl, h2, h3, h4, h5⟩

theorem compile_of {p : Prog} {ss : List Struct} (h1 : DGNSinodes p p.nodes = .ok ss)
    (h2 : twice (ss.map (·.tag) ++ ss.flatMap fun s => s.members.flatMap (·.tags)) = false)
    (h3 : ss.all structOk = true) (h4 : macroClash (macros p) = false) (h5 : twice ((fns p).map (·.name)) = false) :
    compile p = .ok ⟨ss, macros p, fns p⟩ := by
  unfold compile
  rw [h1, Res.bind_ok, h2, h3, h4, h5]

/-! ## Structures -/

theorem inodes_mem {p : Prog} {l : List Node} {ss : List Struct} (h : DGNSinodes p l = .ok ss) (n : Node) (hn : n ∈ l) :
    ∃ as, DGNSattributes p n n.attrs = .ok as ∧ (⟨sData ++ n.name.upr, n.name.lwr, childMember n ++ as⟩ : Struct) ∈ ss := by
  induction l generalizing ss with
  | nil => simp at hn
  | cons m l ih =>
    simp only [DGNSinodes, Res.bind_eq_ok] at h
    obtain ⟨s, h1, ss', h2, h3⟩ := h
    cases h3
    rcases List.mem_cons.1 hn with e | hm
    · subst e
      simp only [DGNSinode, Res.bind_eq_ok] at h1
      obtain ⟨as, h4, h5⟩ := h1
      cases h5
      exact ⟨as, h4, by simp⟩
    · obtain ⟨as, h4, h5⟩ := ih h2 hm
      exact ⟨as, h4, by simp [h5]⟩

theorem classic_iff (a : Attr) : classic a = true ↔ ¬ Computed a := by
  unfold classic Computed
  cases a.inh <;> cases a.syn <;> simp

theorem or_iff (a : Attr) : (a.inh || a.syn) = true ↔ Computed a := by
  unfold Computed
  cases a.inh <;> cases a.syn <;> simp

theorem attributes_mem {p : Prog} {n : Node} {l : List Attr} {ms : List Member} (h : DGNSattributes p n l = .ok ms)
    (a : Attr) (ha : a ∈ l) : ∃ t, attrType p a = .ok t ∧
      (Computed a → Member.valued (sNode ++ n.name.upr ++ sU ++ a.name.upr ++ sStruct) (sU ++ a.name.lwr) t a.name.lwr ∈ ms) ∧
      (¬ Computed a → Member.plain t a.name.lwr ∈ ms) := by
  induction l generalizing ms with
  | nil => simp at ha
  | cons b l ih =>
    simp only [DGNSattributes, Res.bind_eq_ok] at h
    obtain ⟨t, h1, ms', h2, h3⟩ := h
    rcases List.mem_cons.1 ha with e | hm
    · subst e
      refine ⟨t, h1, ?_, ?_⟩
      · intro hc
        rw [(or_iff a).2 hc] at h3
        cases h3; simp
      · intro hc
        have : (a.inh || a.syn) = false := by
          cases hx : (a.inh || a.syn) with
          | true => exact absurd ((or_iff a).1 hx) hc
          | false => rfl
        rw [this] at h3
        cases h3; simp
    · obtain ⟨t', h4, h5, h6⟩ := ih h2 hm
      refine ⟨t', h4, ?_, ?_⟩
      · intro hc
        have := h5 hc
        split at h3 <;> cases h3 <;> exact List.mem_cons_of_mem _ this
      · intro hc
        have := h6 hc
        split at h3 <;> cases h3 <;> exact List.mem_cons_of_mem _ this

theorem childMember_ne {n : Node} (h : n.children ≠ []) :
    childMember n = [.children (sChildrenTag ++ n.name.upr) (sChildrenTag ++ n.name.upr ++ sStruct)
      (n.name.lwr ++ sChildren) (n.children.map fun c => c.name.lwr)] := by
  unfold childMember
  split
  · rename_i e; exact absurd e h
  · rfl

/-- Facts about the compiled header for one node. -/
structure Compiled (p : Prog) (h : Header) : Prop where
  structs : DGNSinodes p p.nodes = .ok h.structs
  macros : h.macros = macros p
  fns : h.fns = fns p
  clash : macroClash (Verif.NodeGen.macros p) = false
  once : twice ((Verif.NodeGen.fns p).map (·.name)) = false

theorem compiled {p : Prog} {h : Header} (hc : compile p = .ok h) : Compiled p h := by
  obtain ⟨h1, h2, h3, _, _, h6, h7⟩ := compile_ok hc
  exact ⟨h1, h2, h3, h6, h7⟩

theorem hasMember_child {p : Prog} {h : Header} (hc : Compiled p h) (n : Node) (hn : n ∈ p.nodes) (c : Child)
    (hcm : c ∈ n.children) : hasMember h (.child n.name.lwr c.name.lwr) = true := by
  obtain ⟨as, _, h2⟩ := inodes_mem hc.structs n hn
  have hne : n.children ≠ [] := fun e => by rw [e] at hcm; simp at hcm
  unfold hasMember
  rw [List.any_eq_true]
  refine ⟨_, h2, ?_⟩
  simp only [beq_self_eq_true, Bool.true_and, List.any_eq_true]
  refine ⟨_, List.mem_append_left _ (by rw [childMember_ne hne]; exact List.mem_singleton.2 rfl), ?_⟩
  simp only [beq_self_eq_true, Bool.true_and, List.contains_eq_mem, decide_eq_true_eq]
  exact List.mem_map_of_mem hcm

theorem hasMember_attr {p : Prog} {h : Header} (hc : Compiled p h) (n : Node) (hn : n ∈ p.nodes) (a : Attr)
    (ha : a ∈ n.attrs) : (Computed a → hasMember h (.valued n.name.lwr a.name.lwr) = true) ∧
      (¬ Computed a → hasMember h (.plain n.name.lwr a.name.lwr) = true) := by
  obtain ⟨as, h1, h2⟩ := inodes_mem hc.structs n hn
  obtain ⟨t, _, h4, h5⟩ := attributes_mem h1 a ha
  constructor
  · intro hcomp
    unfold hasMember
    rw [List.any_eq_true]
    refine ⟨_, h2, ?_⟩
    simp only [beq_self_eq_true, Bool.true_and, List.any_eq_true]
    exact ⟨_, List.mem_append_right _ (h4 hcomp), by simp⟩
  · intro hcomp
    unfold hasMember
    rw [List.any_eq_true]
    refine ⟨_, h2, ?_⟩
    simp only [beq_self_eq_true, Bool.true_and, List.any_eq_true]
    exact ⟨_, List.mem_append_right _ (h5 hcomp), by simp⟩

theorem hasNamed_valued {p : Prog} {h : Header} (hc : Compiled p h) (n : Node) (hn : n ∈ p.nodes) (a : Attr)
    (ha : a ∈ n.attrs) (hcomp : Computed a) : hasNamed h n.name.lwr (sU ++ a.name.lwr) false = true := by
  obtain ⟨as, h1, h2⟩ := inodes_mem hc.structs n hn
  obtain ⟨t, _, h4, _⟩ := attributes_mem h1 a ha
  unfold hasNamed
  rw [List.any_eq_true]
  refine ⟨_, h2, ?_⟩
  simp only [beq_self_eq_true, Bool.true_and, List.any_eq_true]
  exact ⟨_, List.mem_append_right _ (h4 hcomp), by simp⟩

theorem hasNamed_children {p : Prog} {h : Header} (hc : Compiled p h) (n : Node) (hn : n ∈ p.nodes)
    (hne : n.children ≠ []) : hasNamed h n.name.lwr (n.name.lwr ++ sChildren) true = true := by
  obtain ⟨as, h1, h2⟩ := inodes_mem hc.structs n hn
  unfold hasNamed
  rw [List.any_eq_true]
  refine ⟨_, h2, ?_⟩
  simp only [beq_self_eq_true, Bool.true_and, List.any_eq_true]
  exact ⟨_, List.mem_append_left _ (by rw [childMember_ne hne]; exact List.mem_singleton.2 rfl), by simp⟩

/-! ## Access -/

theorem macroFn_eq {p : Prog} {h : Header} (hc : Compiled p h) (m : Macro) (hm : m ∈ macros p) (f : Fn) (hf : f ∈ fns p)
    (hfn : m.fn = some f.name) : macroFn h m.name = .ok (m.lval, f) := by
  unfold macroFn
  rw [hc.macros, findMacro_eq _ hc.clash m hm]
  dsimp only
  rw [hfn]
  dsimp only
  rw [hc.fns, findFn_eq _ hc.once f hf]

theorem macro_node {p : Prog} (n : Node) (hn : n ∈ p.nodes) (m : Macro) (hm : m ∈ DGNMinode n) : m ∈ macros p := by
  unfold macros
  simp only [List.mem_append, List.mem_flatMap]
  exact Or.inl (Or.inl ⟨n, hn, hm⟩)

theorem macro_set {p : Prog} (s : NodeSet) (hs : s ∈ p.sets) (m : Macro) (hm : m ∈ DGNMinodeset s) : m ∈ macros p := by
  unfold macros
  simp only [List.mem_append, List.mem_flatMap]
  exact Or.inl (Or.inr ⟨s, hs, hm⟩)

theorem fn_node {p : Prog} (n : Node) (hn : n ∈ p.nodes) (f : Fn) (hf : f ∈ DGNAFinode n) : f ∈ fns p := by
  unfold fns
  simp only [List.mem_append, List.mem_flatMap]
  exact Or.inl ⟨n, hn, hf⟩

theorem fn_set {p : Prog} (s : NodeSet) (hs : s ∈ p.sets) (f : Fn) (hf : f ∈ DGNSAFinodeset s) : f ∈ fns p := by
  unfold fns
  simp only [List.mem_append, List.mem_flatMap]
  exact Or.inr ⟨s, hs, hf⟩

theorem callMember_ok {h : Header} {nt : CStr} {path : Path} {o : Obj} (h1 : hasMember h path = true)
    (h2 : o.nt = nt) (h3 : o.node = path.node) : callMember h nt path o = .ok path := by
  unfold callMember
  rw [h1, h2, h3]
  simp

theorem callMember_other {h : Header} {nt : CStr} {path : Path} {o : Obj} (h1 : hasMember h path = true)
    (h2 : o.nt ≠ nt) : callMember h nt path o = .abort "CCNaccesserror" := by
  unfold callMember
  rw [h1]
  dsimp only
  have : (o.nt == nt) = false := by simpa using h2
  rw [this]

theorem macroFn_child {p : Prog} {h : Header} (hc : Compiled p h) (n : Node) (hn : n ∈ p.nodes) (c : Child)
    (hcm : c ∈ n.children) :
    macroFn h (n.name.upr ++ sU ++ c.name.upr) = .ok (true, DGNAFchild n.name c) :=
  macroFn_eq hc (DGNMchild n.name c) (macro_node n hn _ (by
    unfold DGNMinode; exact List.mem_append_left _ (List.mem_map_of_mem hcm))) (DGNAFchild n.name c)
    (fn_node n hn _ (by unfold DGNAFinode; exact List.mem_append_left _ (List.mem_map_of_mem hcm))) rfl

theorem macroAttr_name (n : Id) (a : Attr) : (DGNMattribute n a).name = n.upr ++ sU ++ a.name.upr := by
  unfold DGNMattribute; split <;> rfl

theorem macroAttr_lval (n : Id) (a : Attr) : (DGNMattribute n a).lval = classic a := by
  unfold DGNMattribute; split <;> (rename_i h; rw [h])

theorem macroAttr_fn (n : Id) (a : Attr) : (DGNMattribute n a).fn = some (DGNAFattribute n a).name := by
  unfold DGNMattribute DGNAFattribute; split <;> rfl

theorem fnAttr_lval (n : Id) (a : Attr) : (DGNAFattribute n a).lval = classic a := by
  unfold DGNAFattribute; split <;> (rename_i h; rw [h])

theorem macroFn_attr {p : Prog} {h : Header} (hc : Compiled p h) (n : Node) (hn : n ∈ p.nodes) (a : Attr)
    (ha : a ∈ n.attrs) :
    macroFn h (n.name.upr ++ sU ++ a.name.upr) = .ok (classic a, DGNAFattribute n.name a) := by
  have := macroFn_eq hc (DGNMattribute n.name a) (macro_node n hn _ (by
    unfold DGNMinode; exact List.mem_append_right _ (List.mem_map_of_mem ha))) (DGNAFattribute n.name a)
    (fn_node n hn _ (by unfold DGNAFinode; exact List.mem_append_right _ (List.mem_map_of_mem ha))) (macroAttr_fn _ _)
  rwa [macroAttr_name, macroAttr_lval] at this

/-- The object is a node of this type. -/
def IsNode (n : Node) (o : Obj) : Prop := o.nt = n.name.upr ∧ o.node = n.name.lwr

theorem access_child {p : Prog} {h : Header} (hc : Compiled p h) (n : Node) (hn : n ∈ p.nodes) (c : Child)
    (hcm : c ∈ n.children) (o : Obj) (ho : IsNode n o) (lval : Bool) :
    accessNode h lval (n.name.upr ++ sU ++ c.name.upr) o = .ok (.child n.name.lwr c.name.lwr) := by
  unfold accessNode
  rw [macroFn_child hc n hn c hcm, Res.bind_ok]
  simp only [DGNAFchild, Bool.or_true, beq_self_eq_true]
  exact callMember_ok (hasMember_child hc n hn c hcm) ho.1 ho.2

theorem access_child_other {p : Prog} {h : Header} (hc : Compiled p h) (n : Node) (hn : n ∈ p.nodes) (c : Child)
    (hcm : c ∈ n.children) (o : Obj) (ho : o.nt ≠ n.name.upr) (lval : Bool) :
    accessNode h lval (n.name.upr ++ sU ++ c.name.upr) o = .abort "CCNaccesserror" := by
  unfold accessNode
  rw [macroFn_child hc n hn c hcm, Res.bind_ok]
  simp only [DGNAFchild, Bool.or_true, beq_self_eq_true]
  exact callMember_other (hasMember_child hc n hn c hcm) ho

theorem classic_true {a : Attr} (h : ¬ Computed a) : classic a = true := (classic_iff a).2 h

theorem classic_false {a : Attr} (h : Computed a) : classic a = false := by
  cases hc : classic a with
  | true => exact absurd h ((classic_iff a).1 hc)
  | false => rfl

theorem access_plain {p : Prog} {h : Header} (hc : Compiled p h) (n : Node) (hn : n ∈ p.nodes) (a : Attr)
    (ha : a ∈ n.attrs) (hcl : ¬ Computed a) (o : Obj) (ho : IsNode n o) (lval : Bool) :
    accessNode h lval (n.name.upr ++ sU ++ a.name.upr) o = .ok (.plain n.name.lwr a.name.lwr) := by
  unfold accessNode
  rw [macroFn_attr hc n hn a ha, Res.bind_ok]
  simp only [fnAttr_lval, beq_self_eq_true]
  simp only [DGNAFattribute, classic_true hcl, Bool.or_true]
  exact callMember_ok ((hasMember_attr hc n hn a ha).2 hcl) ho.1 ho.2

theorem access_valued {p : Prog} {h : Header} (hc : Compiled p h) (n : Node) (hn : n ∈ p.nodes) (a : Attr)
    (ha : a ∈ n.attrs) (hcl : Computed a) (o : Obj) (ho : IsNode n o) :
    accessNode h false (n.name.upr ++ sU ++ a.name.upr) o = .ok (.valued n.name.lwr a.name.lwr) ∧
    accessNode h true (n.name.upr ++ sU ++ a.name.upr) o = .abort "not an lvalue" := by
  constructor
  · unfold accessNode
    rw [macroFn_attr hc n hn a ha, Res.bind_ok]
    simp only [fnAttr_lval, beq_self_eq_true]
    simp only [DGNAFattribute, classic_false hcl, Bool.not_false, Bool.or_false]
    exact callMember_ok ((hasMember_attr hc n hn a ha).1 hcl) ho.1 ho.2
  · unfold accessNode
    rw [macroFn_attr hc n hn a ha, Res.bind_ok]
    simp [classic_false hcl]

theorem access_attr_other {p : Prog} {h : Header} (hc : Compiled p h) (n : Node) (hn : n ∈ p.nodes) (a : Attr)
    (ha : a ∈ n.attrs) (o : Obj) (ho : o.nt ≠ n.name.upr) :
    accessNode h false (n.name.upr ++ sU ++ a.name.upr) o = .abort "CCNaccesserror" := by
  unfold accessNode
  rw [macroFn_attr hc n hn a ha, Res.bind_ok]
  simp only [fnAttr_lval, beq_self_eq_true, Bool.not_false, Bool.true_or]
  by_cases hcl : Computed a
  · simp only [DGNAFattribute, classic_false hcl]
    exact callMember_other ((hasMember_attr hc n hn a ha).1 hcl) ho
  · simp only [DGNAFattribute, classic_true hcl]
    exact callMember_other ((hasMember_attr hc n hn a ha).2 hcl) ho

/-! ## Parameter lists -/

/-- Parameters with commas, the first of them preceded by a comma unless `k` is 0. -/
def toks : List Param → Nat → List PTok
  | [], _ => []
  | q :: ps, k => sepTok k ++ .param q :: toks ps (k + 1)

theorem toks_append (a b : List Param) (k : Nat) : toks (a ++ b) k = toks a k ++ toks b (k + a.length) := by
  induction a generalizing k with
  | nil => simp [toks]
  | cons x a ih =>
    simp only [List.cons_append, toks, ih, List.append_assoc, List.length_cons]
    rw [Nat.add_right_comm, Nat.add_assoc]

/-- The parameters for children. -/
def childParams (cs : List Child) : List Param := (cs.filter (·.ctor)).map fun c => ⟨.nodePtr, c.name.lwr⟩

theorem difChildren (cs : List Child) (k : Nat) :
    DGIFchildren cs k = (toks (childParams cs) k, k + (childParams cs).length) := by
  induction cs generalizing k with
  | nil => simp [DGIFchildren, childParams, toks]
  | cons c cs ih =>
    simp only [DGIFchildren]
    cases hc : c.ctor with
    | true =>
      have e : childParams (c :: cs) = ⟨.nodePtr, c.name.lwr⟩ :: childParams cs := by simp [childParams, hc]
      rw [e]
      simp only [ih, toks, List.length_cons]
      simp only [Prod.mk.injEq, true_and]; omega
    | false =>
      have e : childParams (c :: cs) = childParams cs := by simp [childParams, hc]
      rw [e]
      exact ih k

/-- The name of the parameter for an attribute. -/
def paramName (a : Attr) : CStr :=
  match a.type with
  | .user => a.name.lwr
  | _ => a.name.orig

theorem attrParam_ok {p : Prog} {a : Attr} (ha : AttrOk p a) : ∃ ty, attrParam a = .ok ⟨ty, paramName a⟩ ∧
    ∀ t, ty = .enum t → ∃ r, a.ref = some r ∧ t = r.orig ∧ a.type = .linkOrEnum := by
  unfold attrParam paramName
  cases ht : a.type with
  | linkOrEnum =>
    obtain ⟨r, hr, _⟩ := ha.enum ht
    dsimp only
    rw [hr]
    exact ⟨_, rfl, fun t e => ⟨r, rfl, by cases e; rfl, rfl⟩⟩
  | user =>
    obtain ⟨r, hr⟩ := ha.user ht
    dsimp only
    rw [hr]
    exact ⟨_, rfl, fun t e => by cases e⟩
  | _ => exact ⟨_, rfl, fun t e => by cases e⟩

theorem difAttributes {p : Prog} (as : List Attr) (k : Nat) (ha : ∀ a ∈ as, AttrOk p a) :
    ∃ ps, DGIFattributes as k = .ok (toks ps k, k + ps.length) ∧ ps.map (·.name) = (as.filter (·.ctor)).map paramName ∧
      ∀ q ∈ ps, ∀ t, q.ty = .enum t → ∃ a ∈ as, a.ctor = true ∧ a.type = .linkOrEnum ∧ ∃ r, a.ref = some r ∧ t = r.orig := by
  induction as generalizing k with
  | nil => exact ⟨[], by simp [DGIFattributes, toks], rfl, by simp⟩
  | cons a as ih =>
    have ha' : ∀ b ∈ as, AttrOk p b := fun b hb => ha b (by simp [hb])
    simp only [DGIFattributes]
    cases hc : a.ctor with
    | true =>
      obtain ⟨ty, h1, h2⟩ := attrParam_ok (ha a (by simp))
      obtain ⟨ps, h3, h4, h5⟩ := ih (k + 1) ha'
      refine ⟨⟨ty, paramName a⟩ :: ps, ?_, ?_, ?_⟩
      · simp only [h1, h3, Res.bind_ok, toks, List.length_cons]
        have e : k + 1 + ps.length = k + (ps.length + 1) := by omega
        rw [e]
      · simp [hc, h4]
      · intro q hq t ht
        rcases List.mem_cons.1 hq with e | hm
        · subst e
          obtain ⟨r, hr, e, htt⟩ := h2 t ht
          exact ⟨a, by simp, hc, htt, r, hr, e⟩
        · obtain ⟨b, hb, h6⟩ := h5 q hm t ht
          exact ⟨b, by simp [hb], h6⟩
    | false =>
      obtain ⟨ps, h3, h4, h5⟩ := ih k ha'
      refine ⟨ps, h3, by simp [hc, h4], ?_⟩
      intro q hq t ht
      obtain ⟨b, hb, h6⟩ := h5 q hq t ht
      exact ⟨b, by simp [hb], h6⟩

theorem read_toks (q : Param) (ps : List Param) : readParams (.param q :: toks ps 1) = some (q :: ps) := by
  suffices h : ∀ k q, readParams (.param q :: toks ps (k + 1)) = some (q :: ps) from h 0 q
  induction ps with
  | nil => intro k q; rfl
  | cons r ps ih =>
    intro k q
    simp only [toks, sepTok, List.cons_append, List.nil_append, readParams, ih (k + 1) r]
    rfl

theorem read_all (ps : List Param) : readParams (toks ps 0 ++ voidTok ps.length) = some ps := by
  cases ps with
  | nil => rfl
  | cons q ps =>
    simp only [toks, sepTok, List.nil_append, List.length_cons, voidTok, List.append_nil]
    exact read_toks q ps

/-- The head of a constructor. -/
theorem difNode {p : Prog} (n : Node) (ha : ∀ a ∈ n.attrs, AttrOk p a) (semi : Bool) :
    ∃ tk ps, DGIFinode semi n = .ok ⟨sAST ++ n.name.lwr, tk, semi⟩ ∧ readParams tk = some ps ∧
      ps.map (·.name) = (n.children.filter (·.ctor)).map (·.name.lwr) ++ (n.attrs.filter (·.ctor)).map paramName ∧
      ∀ q ∈ ps, ∀ t, q.ty = .enum t → ∃ a ∈ n.attrs, a.ctor = true ∧ a.type = .linkOrEnum ∧
        ∃ r, a.ref = some r ∧ t = r.orig := by
  obtain ⟨ps, h1, h2, h3⟩ := difAttributes n.attrs (childParams n.children).length ha
  refine ⟨toks (childParams n.children ++ ps) 0 ++ voidTok (childParams n.children ++ ps).length,
    childParams n.children ++ ps, ?_, read_all _, ?_, ?_⟩
  · unfold DGIFinode
    rw [difChildren]
    simp only [Nat.zero_add, h1, Res.bind_ok, toks_append, List.length_append]
  · simp [childParams, h2]
  · intro q hq t ht
    rcases List.mem_append.1 hq with h | h
    · simp only [childParams, List.mem_map] at h
      obtain ⟨c, _, e⟩ := h
      rw [← e] at ht; cases ht
    · exact h3 q h t ht

end Verif.Spec.NodeGen
