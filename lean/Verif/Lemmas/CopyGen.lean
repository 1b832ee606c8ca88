import Verif.Lemmas.NodeGenHeader
import Verif.Spec.CopyGen

/-!
# Copying and releasing, from names to positions
-/

namespace Verif.CopyGen
open Verif.Str Verif.Ids Verif.Spec.Str Verif.Spec.Ids Verif.Spec.NodeGen
open Verif.NodeGen (CTok Header Struct Member Obj sU sData sAST compile DGNSinodes childMember)
open Verif.Trav (Addr Ptr Mem DataB Field NodeD AttrD)
open Verif.Tables (value sNT sCPY sDEL)
open Verif.Spec.CopyGen (shape kind)

/-- Facts about the program, its header and the enumeration of the types of nodes. -/
structure Setting (p : NodeGen.Prog) (hd : Header) (enum : List CStr) : Prop where
  wf : WfProg p
  comp : compile p = .ok hd
  no : ∀ (k : Nat) n, p.nodes[k]? = some n → value enum (sNT ++ n.name.upr) = some (k + 1)

variable {p : NodeGen.Prog} {hd : Header} {enum : List CStr}

theorem Setting.structs (h : Setting p hd enum) : hd.structs = p.nodes.map (structOf p) := by
  have h1 := (compiled h.comp).structs
  rw [dgnsInodes p.nodes h.wf.attrs h.wf.enumIds] at h1
  exact (Res.ok.inj h1).symm

theorem find_map {α : Type} (f : α → CStr) (l : List α) (hp : l.Pairwise fun a b => f a ≠ f b) {x : α} (hx : x ∈ l) :
    l.find? (fun a => f a == f x) = some x := by
  induction l with
  | nil => cases hx
  | cons y l ih =>
    rw [List.pairwise_cons] at hp
    rcases List.mem_cons.1 hx with rfl | hx
    · simp
    · rw [List.find?_cons_of_neg (by simpa using hp.1 x hx)]
      exact ih hp.2 hx

theorem Setting.lwrs (h : Setting p hd enum) : p.nodes.Pairwise fun a b => a.name.lwr ≠ b.name.lwr := by
  have h1 : Distinct (p.nodes.map (·.name)) := (List.pairwise_append.1 h.wf.names).1
  have h2 := distinct_lwr h1 (by
    intro i hi
    obtain ⟨n, hn, rfl⟩ := List.mem_map.1 hi
    exact h.wf.nodeIds n hn)
  exact (List.pairwise_map (f := fun n : NodeGen.Node => n.name)).1 h2

theorem Setting.named (h : Setting p hd enum) {n : NodeGen.Node} (hn : n ∈ p.nodes) : structNamed hd n.name.lwr = .ok (structOf p n) := by
  unfold structNamed
  rw [h.structs]
  have : (p.nodes.map (structOf p)).find? (fun s => s.node == n.name.lwr) = some (structOf p n) := by
    rw [List.find?_map]
    have e : ((fun s : Struct => s.node == n.name.lwr) ∘ structOf p) = fun m : NodeGen.Node => m.name.lwr == n.name.lwr := by
      funext m; rfl
    rw [e, find_map (fun m : NodeGen.Node => m.name.lwr) p.nodes h.lwrs hn]
    rfl
  rw [this]

theorem Setting.typeNo (h : Setting p hd enum) {k : Nat} {n : NodeGen.Node} (hn : p.nodes[k]? = some n) : typeNo enum n.name.upr = .ok (k + 1) := by
  unfold CopyGen.typeNo
  rw [h.no k n hn]

theorem Setting.structNo (h : Setting p hd enum) {k : Nat} {n : NodeGen.Node} (hn : p.nodes[k]? = some n) :
    structNo enum (structOf p n) = .ok (k + 1) := by
  unfold CopyGen.structNo structOf
  simp only [List.drop_left]
  exact h.typeNo hn

theorem attr_isAttr (p : NodeGen.Prog) (n : NodeGen.Node) (a : NodeGen.Attr) : isAttr (attrMember p n a) = true := by
  unfold attrMember
  split <;> rfl

theorem attrs_of (p : NodeGen.Prog) (n : NodeGen.Node) : attrsOf (structOf p n) = n.attrs.map (attrMember p n) := by
  unfold attrsOf structOf
  simp only [List.filter_append]
  have h1 : (childMember n).filter isAttr = [] := by
    unfold childMember
    split <;> rfl
  have h2 : (n.attrs.map (attrMember p n)).filter isAttr = n.attrs.map (attrMember p n) := by
    rw [List.filter_eq_self]
    intro m hm
    obtain ⟨a, _, rfl⟩ := List.mem_map.1 hm
    exact attr_isAttr p n a
  rw [h1, h2, List.nil_append]

theorem kids_none (p : NodeGen.Prog) (n : NodeGen.Node) (l : List NodeGen.Attr) : kidsOf (l.map (attrMember p n)) = [] := by
  induction l with
  | nil => rfl
  | cons a l ih =>
    rw [List.map_cons]
    unfold attrMember
    split <;> exact ih

theorem kids_of (p : NodeGen.Prog) (n : NodeGen.Node) : kidsOf (structOf p n).members = n.children.map (·.name.lwr) := by
  unfold structOf
  simp only
  cases hc : n.children with
  | nil =>
    unfold childMember
    simp only [hc, List.nil_append, List.map_nil]
    exact kids_none p n n.attrs
  | cons c cs =>
    rw [childMember_ne (by rw [hc]; simp)]
    simp [kidsOf, hc]

theorem findIdx_at {α : Type} (f : α → Bool) (l : List α) {i : Nat} {x : α} (hi : l[i]? = some x) (hx : f x = true)
    (hb : ∀ j y, l[j]? = some y → f y = true → j = i) : l.findIdx? f = some i := by
  obtain ⟨hl, e⟩ := List.getElem?_eq_some_iff.1 hi
  rw [List.findIdx?_eq_some_iff_getElem]
  refine ⟨hl, by rw [e]; exact hx, fun j hj => ?_⟩
  intro hy
  have := hb j _ (List.getElem?_eq_some_iff.2 ⟨by omega, rfl⟩) hy
  omega

theorem pairwise_index {α : Type} {R : α → α → Prop} {l : List α} (h : l.Pairwise R) (hs : ∀ a b, R a b → R b a) {i j : Nat} {x y : α}
    (hx : l[i]? = some x) (hy : l[j]? = some y) (hne : i ≠ j) : R x y := by
  obtain ⟨hi, rfl⟩ := List.getElem?_eq_some_iff.1 hx
  obtain ⟨hj, rfl⟩ := List.getElem?_eq_some_iff.1 hy
  rw [List.pairwise_iff_getElem] at h
  rcases Nat.lt_or_gt_of_ne hne with h1 | h1
  · exact h i j hi hj h1
  · exact hs _ _ (h j i hj hi h1)

theorem Setting.fields (h : Setting p hd enum) {n : NodeGen.Node} (hn : n ∈ p.nodes) :
    (n.children.map (·.name) ++ n.attrs.map (·.name)).Pairwise fun a b => a.lwr ≠ b.lwr :=
  distinct_lwr (h.wf.fields n hn) (by
    intro i hi
    rcases List.mem_append.1 hi with hi | hi
    · obtain ⟨c, hc, rfl⟩ := List.mem_map.1 hi
      exact h.wf.childIds n hn c hc
    · obtain ⟨a, ha, rfl⟩ := List.mem_map.1 hi
      exact (h.wf.attrs n hn a ha).wf)

theorem Setting.kidAt (h : Setting p hd enum) {n : NodeGen.Node} (hn : n ∈ p.nodes) (ty : Nat) {i : Nat} {c : NodeGen.Child}
    (hc : n.children[i]? = some c) : kidAt ty (structOf p n) c.name.lwr = .ok (.kid ty i) := by
  unfold CopyGen.kidAt
  rw [kids_of]
  have hp := (List.pairwise_append.1 (h.fields hn)).1
  have : (n.children.map (·.name.lwr)).findIdx? (· == c.name.lwr) = some i := by
    refine findIdx_at _ _ (by rw [List.getElem?_map, hc]; rfl) (by simp) fun j y hj hy => ?_
    rw [List.getElem?_map] at hj
    cases hd : n.children[j]? with
    | none => rw [hd] at hj; cases hj
    | some d =>
      rw [hd] at hj
      cases hj
      simp only [beq_iff_eq] at hy
      refine Decidable.byContradiction fun hne => ?_
      exact pairwise_index (List.pairwise_map.1 hp) (fun _ _ h => Ne.symm h) hd hc hne hy
  rw [this]

theorem Setting.attrAt (h : Setting p hd enum) {n : NodeGen.Node} (hn : n ∈ p.nodes) (ty : Nat) {i : Nat} {a : NodeGen.Attr}
    (ha : n.attrs[i]? = some a) : CopyGen.attrAt ty (structOf p n) a.name.lwr =
      match a.inh || a.syn with
      | true => .abort "no such member"
      | false => .ok (.attr ty i) := by
  unfold CopyGen.attrAt
  rw [attrs_of]
  have hp := List.pairwise_map.1 (List.pairwise_append.1 (h.fields hn)).2.1
  have only : ∀ (j : Nat) m, (n.attrs.map (attrMember p n))[j]? = some m → isPlain a.name.lwr m = true → j = i ∧ m = attrMember p n a := by
    intro j m hj hm
    rw [List.getElem?_map] at hj
    cases hd : n.attrs[j]? with
    | none => rw [hd] at hj; cases hj
    | some d =>
      rw [hd] at hj
      simp only [Option.map_some, Option.some.injEq] at hj
      subst hj
      have e : d.name.lwr = a.name.lwr := by
        unfold attrMember isPlain at hm
        split at hm
        · rename_i heq
          split at heq
          · cases heq
          · cases heq
            simpa using hm
        · cases hm
      have : j = i := Decidable.byContradiction fun hne => pairwise_index hp (fun _ _ h => Ne.symm h) hd ha hne e
      subst this
      rw [hd] at ha
      cases ha
      exact ⟨rfl, rfl⟩
  cases hcmp : a.inh || a.syn with
  | false =>
    have : (n.attrs.map (attrMember p n)).findIdx? (isPlain a.name.lwr) = some i := by
      refine findIdx_at _ _ (x := attrMember p n a) (by rw [List.getElem?_map, ha]; rfl) ?_ fun j y hj hy => (only j y hj hy).1
      unfold attrMember
      rw [hcmp]
      simp [isPlain]
    rw [this]
  | true =>
    have : (n.attrs.map (attrMember p n)).findIdx? (isPlain a.name.lwr) = none := by
      rw [List.findIdx?_eq_none_iff]
      intro m hm
      obtain ⟨j, hj⟩ := List.getElem?_of_mem hm
      cases hx : isPlain a.name.lwr m with
      | false => rfl
      | true =>
        obtain ⟨_, e⟩ := only j m hj hx
        rw [e] at hx
        unfold attrMember at hx
        rw [hcmp] at hx
        cases hx
    rw [this]

/-- The place of a child. -/
theorem Setting.place_child (h : Setting p hd enum) {k : Nat} {n : NodeGen.Node} (hn : p.nodes[k]? = some n) {i : Nat} {c : NodeGen.Child}
    (hc : n.children[i]? = some c) : place hd enum (n.name.upr ++ sU ++ c.name.upr) = .ok (.kid (k + 1) i) := by
  have hm := List.mem_of_getElem? hn
  unfold place
  rw [macroFn_child (compiled h.comp) n hm c (List.mem_of_getElem? hc)]
  simp only [Res.bind_ok, NodeGen.DGNAFchild, Bool.and_self, h.typeNo hn, NodeGen.Path.node, h.named hm, h.structNo hn, beq_self_eq_true]
  exact h.kidAt hm _ hc

/-- The place of an attribute that is not computed. -/
theorem Setting.place_attr (h : Setting p hd enum) {k : Nat} {n : NodeGen.Node} (hn : p.nodes[k]? = some n) {i : Nat} {a : NodeGen.Attr}
    (ha : n.attrs[i]? = some a) (hcl : (a.inh || a.syn) = false) : place hd enum (n.name.upr ++ sU ++ a.name.upr) = .ok (.attr (k + 1) i) := by
  have hm := List.mem_of_getElem? hn
  have hcl' : NodeGen.classic a = true := classic_true (by rw [← or_iff, hcl]; simp)
  unfold place
  rw [macroFn_attr (compiled h.comp) n hm a (List.mem_of_getElem? ha)]
  simp only [Res.bind_ok, NodeGen.DGNAFattribute, hcl', Bool.and_self, h.typeNo hn, NodeGen.Path.node, h.named hm, h.structNo hn, beq_self_eq_true]
  rw [h.attrAt hm _ ha, hcl]

/-- Statements for children with positions. -/
def kidStmts (ty : Nat) : Nat → Nat → List IStmt
  | 0, _ => []
  | n + 1, i => .child ty i ty i :: kidStmts ty n (i + 1)

/-- Statements for attributes with positions. -/
def attrStmts (ty : Nat) : List AttrD → Nat → List IStmt
  | [], _ => []
  | a :: rest, i =>
    match a.inh || a.syn with
    | true => attrStmts ty rest (i + 1)
    | false =>
      match a.ty with
      | .string => .str ty i ty i :: attrStmts ty rest (i + 1)
      | _ => .val ty i ty i :: attrStmts ty rest (i + 1)

theorem resolveAll_append (a b : List CStmt) (x y : List IStmt) (ha : resolveAll hd enum a = .ok x) (hb : resolveAll hd enum b = .ok y) :
    resolveAll hd enum (a ++ b) = .ok (x ++ y) := by
  induction a generalizing x with
  | nil => cases ha; exact hb
  | cons s a ih =>
    simp only [resolveAll, Res.bind_eq_ok] at ha
    obtain ⟨i, h1, is, h2, h3⟩ := ha
    cases h3
    simp [resolveAll, h1, ih is h2, Res.bind_ok]

theorem Setting.resolve_kids (h : Setting p hd enum) {k : Nat} {n : NodeGen.Node} (hn : p.nodes[k]? = some n) (cs : List NodeGen.Child) :
    ∀ pre, n.children = pre ++ cs → resolveAll hd enum (DGCTchildren n.name cs) = .ok (kidStmts (k + 1) cs.length pre.length) := by
  induction cs with
  | nil => intro pre _; rfl
  | cons c cs ih =>
    intro pre hp
    have h1 := h.place_child hn (i := pre.length) (c := c) (by rw [hp]; simp)
    have h2 := ih (pre ++ [c]) (by rw [hp]; simp)
    rw [List.length_append] at h2
    simp only [DGCTchildren, resolveAll, resolve, h1, Res.bind_ok, h2, List.length_cons, List.length_nil, kidStmts]

/-- An attribute with its kind. -/
def attrD (a : NodeGen.Attr) : AttrD := ⟨kind a.type, a.inh, a.syn, a.ctor⟩

theorem Setting.resolve_attrs (h : Setting p hd enum) {k : Nat} {n : NodeGen.Node} (hn : p.nodes[k]? = some n) (as : List NodeGen.Attr) :
    ∀ pre, n.attrs = pre ++ as → resolveAll hd enum (DGCTattributes n.name as) = .ok (attrStmts (k + 1) (as.map attrD) pre.length) := by
  induction as with
  | nil => intro pre _; rfl
  | cons a as ih =>
    intro pre hp
    have h2 := ih (pre ++ [a]) (by rw [hp]; simp)
    rw [List.length_append] at h2
    simp only [List.length_cons, List.length_nil] at h2
    have ha : n.attrs[pre.length]? = some a := by rw [hp]; simp
    simp only [DGCTattributes, List.map_cons, attrStmts, attrD]
    cases hcl : a.inh || a.syn with
    | true => exact h2
    | false =>
      have h1 := h.place_attr hn ha hcl
      cases ht : a.type <;> simp only [resolveAll, resolve, h1, Res.bind_ok, h2, kind] <;> rfl

/-! ## Code -/

theorem code_append (new : Mem → Option Addr) (arg q : Ptr) (k : Trav.Prog) (a b : List IStmt) :
    code new arg q k (a ++ b) = code new arg q (code new arg q k b) a := by
  induction a with
  | nil => rfl
  | cons s a ih => cases s <;> simp only [List.cons_append, code, ih]

theorem code_kids (new : Mem → Option Addr) (ty : Nat) (arg q : Ptr) (k : Trav.Prog) (n i : Nat) :
    code new arg q k (kidStmts ty n i) = Trav.DGCTchild ty arg q n i k := by
  induction n generalizing i with
  | zero => rfl
  | succ n ih => simp only [kidStmts, code, Trav.DGCTchild, ih]

theorem code_attrs (new : Mem → Option Addr) (ty : Nat) (arg q : Ptr) (k : Trav.Prog) (l : List AttrD) (i : Nat) :
    code new arg q k (attrStmts ty l i) = Trav.DGCTattribute new ty arg q l i k := by
  induction l generalizing i with
  | nil => rfl
  | cons a l ih =>
    simp only [attrStmts, Trav.DGCTattribute]
    cases a.inh || a.syn with
    | true => exact ih _
    | false => cases a.ty <;> simp only [code, ih] <;> rfl

/-! ## The new node -/

theorem word_empty (t : NodeGen.AT) : word (emptyOf t) = Trav.FMTattributeDefaultVal (kind t) := by
  cases t <;> rfl

theorem kids_fresh {o : Obj} {cs : List NodeGen.Child} (h : ∀ c ∈ cs, o.child c.name.lwr = some .null) :
    kids o (cs.map (·.name.lwr)) = .ok (List.replicate cs.length none) := by
  induction cs with
  | nil => rfl
  | cons c cs ih =>
    simp only [List.map_cons, kids, h c (by simp), ih (fun d hd => h d (by simp [hd])), Res.bind_ok, List.length_cons, List.replicate_succ]

theorem ncchild (l : List Bool) : Trav.DGNCchild l (Trav.DGCCchild l) = List.replicate l.length none := by
  induction l with
  | nil => rfl
  | cons b l ih => cases b <;> simp [Trav.DGCCchild, Trav.DGNCchild, ih, List.replicate_succ]

theorem Setting.fields_fresh (h : Setting p hd enum) {n : NodeGen.Node} (hn : n ∈ p.nodes) {o : Obj} (hf : Fresh n o) (as : List NodeGen.Attr)
    (hs : ∀ a ∈ as, a ∈ n.attrs) : (as.map (attrMember p n)).map (field o) =
      Trav.DGNCattribute (as.map attrD) (Trav.DGCCattribute (as.map attrD)) := by
  induction as with
  | nil => rfl
  | cons a as ih =>
    have ha := hs a (by simp)
    have ok := h.wf.attrs n hn a ha
    have ih := ih fun b hb => hs b (by simp [hb])
    have e : a.name.lwr = low a.name := lwr_low ok.wf
    cases hcl : a.inh || a.syn with
    | false =>
      have hp : o.plain a.name.lwr = some (emptyOf a.type) := by
        rw [e]; exact hf.attr a ha (by rw [← or_iff, hcl]; simp)
      have hfl : field o (attrMember p n a) = .plain (Trav.FMTattributeDefaultVal (kind a.type)) := by
        unfold attrMember
        rw [hcl]
        simp only [field, hp, word_empty]
      cases hct : a.ctor <;> simp [Trav.DGNCattribute, Trav.DGCCattribute, attrD, hct, hcl, hfl, ih]
    | true =>
      have hcomp : Computed a := (or_iff a).1 hcl
      have hct : a.ctor = false := by
        cases hx : a.ctor with
        | false => rfl
        | true => exact absurd hcomp (ok.ctor hx)
      have hu : o.isSet (sU ++ a.name.lwr) = some false := by
        rw [e]; exact hf.unset a ha hcomp
      have hfl : field o (attrMember p n a) = .nested (.word 0) .undef := by
        unfold attrMember
        rw [hcl]
        simp only [field, hu]
      simp [Trav.DGNCattribute, Trav.DGCCattribute, attrD, hct, hcl, hfl, ih]

theorem members_empty (p : NodeGen.Prog) (n : NodeGen.Node) : (structOf p n).members.isEmpty = ((shape n).kids.isEmpty && (shape n).attrs.isEmpty) := by
  unfold structOf shape childMember
  cases n.children <;> cases n.attrs <;> rfl

theorem alloc_ctor (new : Mem → Option Addr) (ty : Nat) (D : NodeD) (m : Mem) :
    alloc new ty (D.kids.isEmpty && D.attrs.isEmpty) ⟨ty, List.replicate D.kids.length none, Trav.DGNCattribute D.attrs (Trav.DGCCattribute D.attrs)⟩
      D.kids.length (!D.kids.isEmpty) m = Trav.ASTx new ty D (Trav.DGCCchild D.kids) (Trav.DGCCattribute D.attrs) m := by
  unfold alloc Trav.ASTx
  rw [ncchild]
  obtain ⟨ks, as⟩ := D
  cases ks with
  | nil => cases as <;> rfl
  | cons b ks => rfl

theorem Setting.ctor (h : Setting p hd enum) {n : NodeGen.Node} (hn : n ∈ p.nodes) (hok : CtorOk p n) :
    ∃ f o, DGCTinode n = .ok f ∧ f.name = sCPY ++ n.name.lwr ∧ f.stmts = DGCTchildren n.name n.children ++ DGCTattributes n.name n.attrs ∧
      callCtor p f = .ok o ∧ Fresh n o := by
  obtain ⟨o, h1, h2⟩ := construct_default h.wf h.comp n hn hok
  unfold NodeGen.constructDefault at h1
  rw [Res.bind_eq_ok] at h1
  obtain ⟨c, h3, h4⟩ := h1
  refine ⟨⟨sCPY ++ n.name.lwr, c.1, c.2, _⟩, o, ?_, rfl, rfl, ?_, h2⟩
  · unfold DGCTinode
    rw [h3, Res.bind_ok]
  · have hc : c.1 = sAST ++ n.name.lwr := by
      unfold NodeGen.DGCCinode at h3
      simp only [Res.bind_eq_ok] at h3
      obtain ⟨s, _, h5⟩ := h3
      cases h5
      rfl
    unfold callCtor
    have : p.nodes.find? (fun m => sAST ++ m.name.lwr == c.1) = some n := by
      rw [hc]
      refine find_map (fun m : NodeGen.Node => sAST ++ m.name.lwr) p.nodes ?_ hn
      exact h.lwrs.imp fun hne e => hne (List.append_cancel_left e)
    rw [this]
    dsimp only
    cases hr : NodeGen.readArgs c.2 with
    | none => rw [hr] at h4; cases h4
    | some rs => rw [hr] at h4; exact h4

/-- `CPYx` is the handler with positions. -/
theorem Setting.copy_one (h : Setting p hd enum) {k : Nat} {n : NodeGen.Node} (hn : p.nodes[k]? = some n) (hok : CtorOk p n) :
    ∃ f, DGCTinode n = .ok f ∧ ∃ c, copyCode p hd enum f = .ok (sCPY ++ n.name.lwr, c) ∧ ∀ new, c new = Trav.DGCTinode new (k + 1) (shape n) := by
  have hm := List.mem_of_getElem? hn
  obtain ⟨f, o, h1, h2, h3, h4, h5⟩ := h.ctor hm hok
  have hnt : o.nt = n.name.upr := by rw [h5.type.1, upr_up (h.wf.nodeIds n hm)]
  have hnode : o.node = n.name.lwr := by rw [h5.type.2, lwr_low (h.wf.nodeIds n hm)]
  have hk : kids o (kidsOf (structOf p n).members) = .ok (List.replicate n.children.length none) := by
    rw [kids_of]
    refine kids_fresh fun c hc => ?_
    rw [lwr_low (h.wf.childIds n hm c hc)]
    exact h5.child c hc
  have hr := resolveAll_append _ _ _ _ (h.resolve_kids hn n.children [] rfl) (h.resolve_attrs hn n.attrs [] rfl)
  rw [← h3] at hr
  have hcode : ∃ c, copyCode p hd enum f = .ok (f.name, c) ∧ c = fun new arg =>
      Trav.expr (alloc new (k + 1) (structOf p n).members.isEmpty
        ⟨k + 1, List.replicate n.children.length none, (attrsOf (structOf p n)).map (field o)⟩ o.num o.array.isSome) fun q =>
      Trav.stmt (Trav.CopyBaseNode new q (some arg)) (code new (some arg) q (.ret q)
        (kidStmts (k + 1) n.children.length ([] : List NodeGen.Child).length ++
          attrStmts (k + 1) (n.attrs.map attrD) ([] : List NodeGen.Attr).length)) := by
    unfold copyCode
    rw [h4, Res.bind_ok, hnt, h.typeNo hn, Res.bind_ok, hnode, h.named hm, Res.bind_ok, hk, Res.bind_ok, hr, Res.bind_ok]
    exact ⟨_, rfl, rfl⟩
  obtain ⟨c, hc, hcc⟩ := hcode
  refine ⟨f, h1, c, by rw [hc, h2], ?_⟩
  · intro new
    rw [hcc]
    funext arg
    dsimp only
    have ha : ((attrsOf (structOf p n)).map (field o)) = Trav.DGNCattribute (shape n).attrs (Trav.DGCCattribute (shape n).attrs) := by
      rw [attrs_of]
      exact h.fields_fresh hm h5 n.attrs fun _ h => h
    have hl : n.children.length = (shape n).kids.length := by simp [shape]
    have har : o.array.isSome = !(shape n).kids.isEmpty := by
      rw [h5.array]
      unfold shape
      cases n.children <;> rfl
    rw [members_empty, ha, h5.num, har, hl]
    unfold Trav.DGCTinode
    congr 1
    · funext m
      exact alloc_ctor new (k + 1) (shape n) m
    · funext q
      rw [code_append, code_kids, code_attrs]
      rfl

theorem Setting.copies (h : Setting p hd enum) (ns : List NodeGen.Node) : ∀ pre, p.nodes = pre ++ ns → (∀ n ∈ ns, CtorOk p n) →
    ∃ cs, copyCodes p hd enum ns = .ok cs ∧ ∀ (j : Nat) n, ns[j]? = some n → ∃ c, cs[j]? = some (sCPY ++ n.name.lwr, c) ∧
      ∀ new, c new = Trav.DGCTinode new (pre.length + j + 1) (shape n) := by
  induction ns with
  | nil => intro pre _ _; exact ⟨[], rfl, by simp⟩
  | cons n ns ih =>
    intro pre hp hok
    obtain ⟨cs, h1, h2⟩ := ih (pre ++ [n]) (by rw [hp]; simp) fun m hm => hok m (by simp [hm])
    obtain ⟨f, h3, c, h4, h5⟩ := h.copy_one (k := pre.length) (n := n) (by rw [hp]; simp) (hok n (by simp))
    refine ⟨(sCPY ++ n.name.lwr, c) :: cs, by simp [copyCodes, h3, h4, h1, Res.bind_ok], fun j m hj => ?_⟩
    cases j with
    | zero =>
      simp only [List.getElem?_cons_zero, Option.some.injEq] at hj
      subst hj
      exact ⟨c, rfl, h5⟩
    | succ j =>
      rw [List.getElem?_cons_succ] at hj
      obtain ⟨d, h6, h7⟩ := h2 j m hj
      refine ⟨d, by rw [List.getElem?_cons_succ]; exact h6, fun new => ?_⟩
      rw [h7 new]
      congr 1
      simp only [List.length_append, List.length_cons, List.length_nil]
      omega

/-! ## Releasing -/

/-- Statements for strings with positions. -/
def strStmts (ty : Nat) : List AttrD → Nat → List FStmt
  | [], _ => []
  | a :: rest, i =>
    match a.ty with
    | .string => .str ty i :: strStmts ty rest (i + 1)
    | _ => strStmts ty rest (i + 1)

theorem resolveFrees_append (a b : List DStmt) : resolveFrees hd enum (a ++ b) = (do
    let x ← resolveFrees hd enum a
    let y ← resolveFrees hd enum b
    .ok (x ++ y)) := by
  induction a with
  | nil =>
    simp only [List.nil_append, resolveFrees, Res.bind_ok]
    cases resolveFrees hd enum b <;> rfl
  | cons s a ih =>
    simp only [List.cons_append, resolveFrees, ih]
    cases resolveFree hd enum s with
    | ok i =>
      simp only [Res.bind_ok]
      cases resolveFrees hd enum a with
      | ok x =>
        simp only [Res.bind_ok]
        cases resolveFrees hd enum b <;> rfl
      | _ => rfl
    | _ => rfl

/-- No computed string among the attributes. -/
def noText (l : List NodeGen.Attr) : Prop := ∀ a ∈ l, a.type = .string → (a.inh || a.syn) = false

theorem kind_string {t : NodeGen.AT} : kind t = .string ↔ t = .string := by cases t <;> simp [kind]

theorem Setting.resolve_strs (h : Setting p hd enum) {k : Nat} {n : NodeGen.Node} (hn : p.nodes[k]? = some n) (as : List NodeGen.Attr) :
    ∀ pre, n.attrs = pre ++ as →
      (noText as → resolveFrees hd enum (DGFTattributes n.name as) = .ok (strStmts (k + 1) (as.map attrD) pre.length)) ∧
      (¬ noText as → resolveFrees hd enum (DGFTattributes n.name as) = .abort "no such member") := by
  have hm := List.mem_of_getElem? hn
  induction as with
  | nil => intro pre _; exact ⟨fun _ => rfl, fun h => absurd (by intro a ha; cases ha) h⟩
  | cons a as ih =>
    intro pre hp
    have h2 := ih (pre ++ [a]) (by rw [hp]; simp)
    simp only [List.length_append, List.length_cons, List.length_nil] at h2
    have ha : n.attrs[pre.length]? = some a := by rw [hp]; simp
    have h1 : resolveFree hd enum (.str n.name.lwr a.name.lwr) = match a.inh || a.syn with
        | true => .abort "no such member"
        | false => .ok (.str (k + 1) pre.length) := by
      simp only [resolveFree, h.named hm, h.structNo hn, Res.bind_ok, h.attrAt hm _ ha]
      cases a.inh || a.syn <;> rfl
    by_cases ht : a.type = .string
    · have e : DGFTattributes n.name (a :: as) = .str n.name.lwr a.name.lwr :: DGFTattributes n.name as := by
        simp only [DGFTattributes, ht]
      have e2 : strStmts (k + 1) ((a :: as).map attrD) pre.length = .str (k + 1) pre.length :: strStmts (k + 1) (as.map attrD) (pre.length + 1) := by
        simp only [List.map_cons, strStmts, attrD, ht, kind]
      rw [e, e2]
      simp only [resolveFrees, h1]
      cases hcl : a.inh || a.syn with
      | true =>
        refine ⟨fun hno => ?_, fun _ => rfl⟩
        rw [hno a (by simp) ht] at hcl
        cases hcl
      | false =>
        simp only [Res.bind_ok]
        refine ⟨fun hno => ?_, fun hno => ?_⟩
        · rw [h2.1 fun b hb => hno b (by simp [hb]), Res.bind_ok]
        · rw [h2.2 fun hb => hno (by
            intro b hbm hbt
            rcases List.mem_cons.1 hbm with rfl | hbm
            · exact hcl
            · exact hb b hbm hbt)]
          rfl
    · have e : DGFTattributes n.name (a :: as) = DGFTattributes n.name as := by
        simp only [DGFTattributes]
        try (split <;> rename_i e <;> first | exact absurd e ht | rfl)
      have e2 : strStmts (k + 1) ((a :: as).map attrD) pre.length = strStmts (k + 1) (as.map attrD) (pre.length + 1) := by
        simp only [List.map_cons, strStmts, attrD]
        try (split <;> rename_i e <;> first | exact absurd (kind_string.1 e) ht | rfl)
      rw [e, e2]
      refine ⟨fun hno => h2.1 fun b hb => hno b (by simp [hb]), fun hno => h2.2 fun hb => hno ?_⟩
      intro b hbm hbt
      rcases List.mem_cons.1 hbm with rfl | hbm
      · exact absurd hbt ht
      · exact hb b hbm hbt

theorem free_strs (ty : Nat) (arg : Ptr) (l : List AttrD) (rest : List FStmt) (i : Nat) :
    freeCode arg (strStmts ty l i ++ rest) = Trav.DGFTattribute ty arg l i (freeCode arg rest) := by
  induction l generalizing i with
  | nil => rfl
  | cons a l ih =>
    simp only [strStmts, Trav.DGFTattribute]
    cases a.ty <;> simp only [List.cons_append, freeCode, ih]

theorem Setting.free_one (h : Setting p hd enum) {k : Nat} {n : NodeGen.Node} (hn : p.nodes[k]? = some n) :
    (noText n.attrs → ∃ is, resolveFrees hd enum (DGFTinode n).stmts = .ok is ∧
      ∀ arg, freeCode (some arg) is = Trav.DGFTinode (k + 1) (shape n) arg) ∧
    (¬ noText n.attrs → resolveFrees hd enum (DGFTinode n).stmts = .abort "no such member") := by
  have hm := List.mem_of_getElem? hn
  have hs := h.resolve_strs hn n.attrs [] rfl
  have hb : resolveFrees hd enum [.base n.name.lwr] = .ok [.base] := by
    simp only [resolveFrees, resolveFree, h.named hm, Res.bind_ok]
  have hc : resolveFrees hd enum (childStmt n.children) = .ok (if n.children = [] then [] else [.children]) := by
    cases n.children <;> rfl
  unfold DGFTinode
  simp only [resolveFrees_append, hc, hb, Res.bind_ok]
  refine ⟨fun hno => ?_, fun hno => ?_⟩
  · rw [hs.1 hno]
    simp only [Res.bind_ok]
    refine ⟨_, rfl, fun arg => ?_⟩
    rw [List.append_assoc]
    unfold Trav.DGFTinode
    have e : (shape n).attrs = n.attrs.map attrD := rfl
    cases hch : n.children with
    | nil =>
      simp only [if_true, List.nil_append, shape, hch, List.map_nil, List.isEmpty_nil]
      rw [free_strs]
      rfl
    | cons c cs =>
      simp only [if_neg (List.cons_ne_nil c cs), List.cons_append, List.nil_append, shape, hch, List.map_cons, List.isEmpty_cons, freeCode]
      rw [free_strs]
      rfl
  · rw [hs.2 hno]
    rfl

theorem Setting.frees (h : Setting p hd enum) (ns : List NodeGen.Node) : ∀ pre, p.nodes = pre ++ ns →
    ((∀ n ∈ ns, noText n.attrs) → ∃ cs, freeCodes hd enum ns = .ok cs ∧ ∀ (j : Nat) n, ns[j]? = some n → ∃ c, cs[j]? = some (sDEL ++ n.name.lwr, c) ∧
      ∀ new, c new = Trav.DGFTinode (pre.length + j + 1) (shape n)) ∧
    (¬ (∀ n ∈ ns, noText n.attrs) → freeCodes hd enum ns = .abort "no such member") := by
  induction ns with
  | nil => intro pre _; exact ⟨fun _ => ⟨[], rfl, by simp⟩, fun h => absurd (by simp) h⟩
  | cons n ns ih =>
    intro pre hp
    have h2 := ih (pre ++ [n]) (by rw [hp]; simp)
    have h1 := h.free_one (k := pre.length) (n := n) (by rw [hp]; simp)
    refine ⟨fun hno => ?_, fun hno => ?_⟩
    · obtain ⟨is, h3, h4⟩ := h1.1 (hno n (by simp))
      obtain ⟨cs, h5, h6⟩ := h2.1 fun m hm => hno m (by simp [hm])
      refine ⟨(sDEL ++ n.name.lwr, fun _ arg => freeCode (some arg) is) :: cs, by simp only [freeCodes, h3, h5, Res.bind_ok]; rfl, fun j m hj => ?_⟩
      cases j with
      | zero =>
        simp only [List.getElem?_cons_zero, Option.some.injEq] at hj
        subst hj
        exact ⟨_, rfl, fun _ => by funext arg; exact h4 arg⟩
      | succ j =>
        rw [List.getElem?_cons_succ] at hj
        obtain ⟨d, h7, h8⟩ := h6 j m hj
        refine ⟨d, by rw [List.getElem?_cons_succ]; exact h7, fun new => ?_⟩
        rw [h8 new]
        congr 1
        simp only [List.length_append, List.length_cons, List.length_nil]
        omega
    · by_cases hn : noText n.attrs
      · obtain ⟨is, h3, _⟩ := h1.1 hn
        have : ¬ ∀ m ∈ ns, noText m.attrs := fun hall => hno fun m hm => by
          rcases List.mem_cons.1 hm with rfl | hm
          · exact hn
          · exact hall m hm
        simp only [freeCodes, h3, Res.bind_ok, h2.2 this]
        rfl
      · simp only [freeCodes, h1.2 hn]
        rfl

end Verif.CopyGen
