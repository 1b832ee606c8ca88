import Verif.Lemmas.Described
import Verif.Props.NodeGen
import Verif.Props.Semantic
import Verif.Props.Declared

/-!
# Property theorems C70: the generated nodes of an accepted description

The theorems quantify over all descriptions that the phase `semantic` accepts.
-/

namespace Verif.Props
open Verif.Str Verif.Ids Verif.Semantic Verif.Described
open Verif.Spec.Str (lowerB upperB SameName)
open Verif.Spec.Semantic (NodeAttr SetAttr Member TypesNamed Earlier)
open Verif.Spec.Described (Classic Simple Callable Walkable Field access ObjectOf)

/-! ## The attributes of a node and of a nodeset -/

/-- C70: the generators see one node for each node of the description, with its name, its children, and attributes that are all those that
the description gives it: its own, and those of the nodesets it is a member of; nothing else. -/
theorem C70_nodes (addr : Loc → Nat) (A : Parse.Ast) (ha : Spec.Semantic.Apart addr) (hp : TypesNamed A) (he : Earlier A) (fuel : Nat) (o : Out)
    (h : checks addr fuel A = .ok o) (h0 : o.errors = 0) :
    (nodeProg A o).nodes.length = A.nodes.length ∧
    ∀ (k : Nat) (n : Parse.Node), A.nodes[k]? = some n → ∃ x, (nodeProg A o).nodes[k]? = some x ∧
      x.name.orig = n.name.orig ∧
      x.children.map (fun c => (c.name.orig, c.ctor)) = n.children.map (fun c => (c.name.orig, c.ctor)) ∧
      (∀ a, NodeAttr A k a → ∃ y ∈ x.attrs, SameName y.name.orig a.name.orig ∧ y.inh = a.inherited ∧ y.syn = a.synthesized) ∧
      (∀ y ∈ x.attrs, ∃ a, NodeAttr A k a ∧ Spec.Described.AttrAs A a y) ∧
      x.attrs.Pairwise (fun y z => ¬ SameName y.name.orig z.name.orig) := by
  have kn := known_of ha hp he h h0
  refine ⟨by simp [nodeProg], fun k n hn => ⟨_, node_at hn, rfl, ?_, ?_, ?_, ?_⟩⟩
  · simp only [nodeGen, List.map_map]
    rfl
  · intro a hna
    obtain ⟨b, hb, hl⟩ := kn.nodeAttrs k (List.getElem?_eq_some_iff.1 hn).1 a hna
    obtain ⟨a', _, hf⟩ := from_node kn hn hb
    exact ⟨attrGen b, List.mem_map.2 ⟨b, hb, rfl⟩, gen_same hf hl, hl.inh, hl.syn⟩
  · intro y hy
    obtain ⟨b, hb, rfl⟩ := List.mem_map.1 hy
    obtain ⟨a, hna, hf⟩ := from_node kn hn hb
    exact ⟨a, hna, attrAs kn.facts.right hf⟩
  · have := gen_distinct (P := NodeAttr A k) (fun b hb => from_node kn hn hb) (kn.nodeNames k (List.getElem?_eq_some_iff.1 hn).1)
    rwa [Spec.NodeGen.Distinct, List.pairwise_map] at this

/-- C70: the generators see one nodeset for each nodeset of the description, with its name, its members, and the attributes that the
description gives it. -/
theorem C70_sets (addr : Loc → Nat) (A : Parse.Ast) (ha : Spec.Semantic.Apart addr) (hp : TypesNamed A) (he : Earlier A) (fuel : Nat) (o : Out)
    (h : checks addr fuel A = .ok o) (h0 : o.errors = 0) :
    (nodeProg A o).sets.length = A.nodesets.length ∧
    ∀ (i : Nat) (s : Parse.NodeSet), A.nodesets[i]? = some s → ∃ x, (nodeProg A o).sets[i]? = some x ∧
      x.name.orig = s.name.orig ∧
      (∀ m : List UInt8, m ∈ x.members.map (·.orig) ↔ ∃ k n, A.nodes[k]? = some n ∧ Member A i k ∧ n.name.orig = m) ∧
      (∀ a, SetAttr A i a → ∃ y ∈ x.attrs, SameName y.name.orig a.name.orig ∧ y.inh = a.inherited ∧ y.syn = a.synthesized) ∧
      (∀ y ∈ x.attrs, ∃ a, SetAttr A i a ∧ Spec.Described.AttrAs A a y) ∧
      x.attrs.Pairwise (fun y z => ¬ SameName y.name.orig z.name.orig) := by
  have kn := known_of ha hp he h h0
  refine ⟨by simp [nodeProg], fun i s hs => ⟨_, set_at hs, rfl, ?_, ?_, ?_, ?_⟩⟩
  · have hi := (List.getElem?_eq_some_iff.1 hs).1
    intro m
    constructor
    · intro hm
      obtain ⟨d, hd, rfl⟩ := List.mem_map.1 hm
      obtain ⟨k, n, hn, hmem, rfl⟩ := member_mem kn hi hd
      exact ⟨k, n, hn, hmem, rfl⟩
    · rintro ⟨k, n, hn, hmem, rfl⟩
      exact List.mem_map.2 ⟨_, mem_member kn hi hn hmem, rfl⟩
  · intro a hna
    obtain ⟨b, hb, hl⟩ := kn.setAttrs i (List.getElem?_eq_some_iff.1 hs).1 a hna
    obtain ⟨a', _, hf⟩ := from_set kn hs hb
    exact ⟨attrGen b, List.mem_map.2 ⟨b, hb, rfl⟩, gen_same hf hl, hl.inh, hl.syn⟩
  · intro y hy
    obtain ⟨b, hb, rfl⟩ := List.mem_map.1 hy
    obtain ⟨a, hna, hf⟩ := from_set kn hs hb
    exact ⟨a, hna, attrAs kn.facts.right hf⟩
  · have := gen_distinct (P := SetAttr A i) (fun b hb => from_set kn hs hb) (kn.setNames i (List.getElem?_eq_some_iff.1 hs).1)
    rwa [Spec.NodeGen.Distinct, List.pairwise_map] at this

/-! ## What the generated code does -/

/-- C70: if nothing that is computed is in a constructor, the generators get what they need, so the theorems about C51 to C54 apply.
Missing: computed attributes in a constructor, which are accepted (`C70_ctor_false`). -/
theorem C70_wf_partial (addr : Loc → Nat) (A : Parse.Ast) (ha : Spec.Semantic.Apart addr) (hp : TypesNamed A) (he : Earlier A) (fuel : Nat) (o : Out)
    (h : checks addr fuel A = .ok o) (h0 : o.errors = 0) (hc : Classic A) : Spec.NodeGen.WfProg (nodeProg A o) :=
  wf_prog (known_of ha hp he h h0) hc

/-- C70: if names are simple too, `ast.h` compiles with respect to names.  Missing: other names, where the claim is false
(`C70_underscore_false`, `C70_keyword_false`, `C70_children_false`, `C70_nodeset_false`). -/
theorem C70_header_partial (addr : Loc → Nat) (A : Parse.Ast) (ha : Spec.Semantic.Apart addr) (hp : TypesNamed A) (he : Earlier A) (fuel : Nat) (o : Out)
    (h : checks addr fuel A = .ok o) (h0 : o.errors = 0) (hc : Classic A) (hs : Simple A) : ∃ hd, NodeGen.compile (nodeProg A o) = .ok hd :=
  C53_header_partial _ (wf_prog (known_of ha hp he h h0) hc) (plain_prog (known_of ha hp he h h0) hs)

/-- C70: the constructor of a node with names that work as parameters puts each argument in its field; the call that the compiler prints
itself gives a node in which nothing is filled in.  Missing: other names (`C70_user_false`, `C70_enum_false`,
`C70_child_false`). -/
theorem C70_constructor_partial (addr : Loc → Nat) (A : Parse.Ast) (ha : Spec.Semantic.Apart addr) (hp : TypesNamed A) (he : Earlier A) (fuel : Nat)
    (o : Out) (h : checks addr fuel A = .ok o) (h0 : o.errors = 0) (hc : Classic A) (hs : Simple A) (k : Nat) (n : Parse.Node)
    (hn : A.nodes[k]? = some n) (hok : Callable A k n) : ∃ x, (nodeProg A o).nodes[k]? = some x ∧
      (∀ args : List NodeGen.Val, args.length = Spec.NodeGen.arity x →
        ∃ b, NodeGen.construct (nodeProg A o) x args = .ok b ∧ Spec.NodeGen.Constructed x args b) ∧
      ∃ b, NodeGen.constructDefault (nodeProg A o) x = .ok b ∧ Spec.NodeGen.Fresh x b := by
  have kn := known_of ha hp he h h0
  obtain ⟨hd, hh⟩ := C70_header_partial addr A ha hp he fuel o h h0 hc hs
  have hm := List.mem_of_getElem? (node_at (o := o) hn)
  exact ⟨_, node_at hn, fun args hl => C51_constructor_partial _ (wf_prog kn hc) hd hh _ hm (ctor_prog kn hn hok) args hl,
    C51_default_call_partial _ (wf_prog kn hc) hd hh _ hm (ctor_prog kn hn hok)⟩

/-- C70: if `ast.h` compiles, the macro of each child and of each attribute of a node, own or of a nodeset, gives the field in nodes of the
type, and in others the program ends with an error; what is computed cannot be assigned to. -/
theorem C70_node_partial (addr : Loc → Nat) (A : Parse.Ast) (ha : Spec.Semantic.Apart addr) (hp : TypesNamed A) (he : Earlier A) (fuel : Nat) (o : Out)
    (h : checks addr fuel A = .ok o) (h0 : o.errors = 0) (hc : Classic A) (hd : NodeGen.Header) (hh : NodeGen.compile (nodeProg A o) = .ok hd)
    (k : Nat) (n : Parse.Node) (hn : A.nodes[k]? = some n) (b : NodeGen.Obj) :
    (ObjectOf n b → (∀ c ∈ n.children, NodeGen.accessNode hd true (access n.name c.name) b =
        .ok (.child (n.name.orig.map lowerB) (c.name.orig.map lowerB))) ∧
      ∀ a, NodeAttr A k a →
        (¬ Spec.Described.Computed a → NodeGen.accessNode hd true (access n.name a.name) b =
          .ok (.plain (n.name.orig.map lowerB) (a.name.orig.map lowerB))) ∧
        (Spec.Described.Computed a → NodeGen.accessNode hd false (access n.name a.name) b =
            .ok (.valued (n.name.orig.map lowerB) (a.name.orig.map lowerB)) ∧
          NodeGen.accessNode hd true (access n.name a.name) b = .abort "not an lvalue")) ∧
    (b.nt ≠ n.name.orig.map upperB → (∀ c ∈ n.children, NodeGen.accessNode hd false (access n.name c.name) b = .abort "CCNaccesserror") ∧
      ∀ a, NodeAttr A k a → NodeGen.accessNode hd false (access n.name a.name) b = .abort "CCNaccesserror") := by
  have kn := known_of ha hp he h h0
  have hm := List.mem_of_getElem? (node_at (o := o) hn)
  have hw := wf_prog kn hc
  have t := C54_node_partial _ hw hd hh _ hm b
  have get : ∀ a, NodeAttr A k a → ∃ y ∈ (nodeGen o k n).attrs, y.name.orig.map upperB = a.name.orig.map upperB ∧
      y.name.orig.map lowerB = a.name.orig.map lowerB ∧ (Spec.NodeGen.Computed y ↔ Spec.Described.Computed a) := by
    intro a hna
    obtain ⟨x, hx, hl⟩ := kn.nodeAttrs k (List.getElem?_eq_some_iff.1 hn).1 a hna
    obtain ⟨a', _, hf⟩ := from_node kn hn hx
    exact ⟨_, List.mem_map.2 ⟨x, hx, rfl⟩, upper_of_same (gen_same hf hl), gen_same hf hl, gen_computed hl⟩
  refine ⟨fun ho => ⟨fun c hcm => ?_, fun a hna => ?_⟩, fun ho => ⟨fun c hcm => ?_, fun a hna => ?_⟩⟩
  · exact t.1 ho _ (List.mem_map.2 ⟨c, hcm, rfl⟩)
  · obtain ⟨y, hy, e1, e2, e3⟩ := get a hna
    refine ⟨fun hcm => ?_, fun hcm => ?_⟩
    · have := t.2.1 ho y hy (fun hx => hcm (e3.1 hx))
      rwa [Spec.NodeGen.up, Spec.NodeGen.up, Spec.NodeGen.low, Spec.NodeGen.low, e1, e2] at this
    · have := t.2.2.1 ho y hy (e3.2 hcm)
      rwa [Spec.NodeGen.up, Spec.NodeGen.up, Spec.NodeGen.low, Spec.NodeGen.low, e1, e2] at this
  · exact (t.2.2.2 ho).1 _ (List.mem_map.2 ⟨c, hcm, rfl⟩)
  · obtain ⟨y, hy, e1, _, _⟩ := get a hna
    have := (t.2.2.2 ho).2 y hy
    rwa [Spec.NodeGen.up, Spec.NodeGen.up, e1] at this

/-- C70: if `ast.h` compiles, the macro of each attribute of a nodeset gives the field of the attribute in objects of exactly those types that
are members of the nodeset; in others the program ends with an error. -/
theorem C70_nodeset_partial (addr : Loc → Nat) (A : Parse.Ast) (ha : Spec.Semantic.Apart addr) (hp : TypesNamed A) (he : Earlier A) (fuel : Nat)
    (o : Out) (h : checks addr fuel A = .ok o) (h0 : o.errors = 0) (hc : Classic A) (hd : NodeGen.Header)
    (hh : NodeGen.compile (nodeProg A o) = .ok hd) (i : Nat) (s : Parse.NodeSet) (hs : A.nodesets[i]? = some s) (a : Parse.Attr)
    (hna : SetAttr A i a) (k : Nat) (n : Parse.Node) (hn : A.nodes[k]? = some n) (b : NodeGen.Obj) (hb : ObjectOf n b) :
    (Member A i k → ∃ p, NodeGen.accessSet hd (access s.name a.name) b = .ok p ∧ Field n a p) ∧
    (¬ Member A i k → NodeGen.accessSet hd (access s.name a.name) b = .abort "CCNaccesserror") := by
  have kn := known_of ha hp he h h0
  have hw := wf_prog kn hc
  have hi := (List.getElem?_eq_some_iff.1 hs).1
  obtain ⟨x, hx, hl⟩ := kn.setAttrs i hi a hna
  obtain ⟨a', _, hf⟩ := from_set kn hs hx
  have e2 := gen_same hf hl
  have e1 := upper_of_same e2
  have t := C54_nodeset_partial _ hw hd hh _ (List.mem_of_getElem? (set_at (o := o) hs)) (attrGen x) (List.mem_map.2 ⟨x, hx, rfl⟩) _
    (List.mem_of_getElem? (node_at (o := o) hn)) b hb
  rw [Spec.NodeGen.up, Spec.NodeGen.up, Spec.NodeGen.low, Spec.NodeGen.low, e1, show (attrGen x).name.orig.map lowerB = _ from e2, gen_computed hl] at t
  refine ⟨fun hm => ?_, fun hm => t.2 fun m hmem hsame => hm ?_⟩
  · obtain ⟨y, _, _, y1, y2⟩ := t.1 ⟨_, mem_member kn hi hn hm, rfl⟩
    by_cases hcm : Spec.Described.Computed a
    · exact ⟨_, y1 hcm, fun _ => rfl, fun hx => absurd hcm hx⟩
    · exact ⟨_, y2 hcm, fun hx => absurd hx hcm, fun _ => rfl⟩
  · obtain ⟨j, m', hj, hmj, rfl⟩ := member_mem kn hi hmem
    rwa [kn.facts.right.table.node_inj hn hj hsame]

/-- C70: if no child has the name of an existing function, `TRAVx` in an object of a node with a child `x` replaces this child by what the
traversal returns for it, and nothing else. -/
theorem C70_trav_partial (addr : Loc → Nat) (A : Parse.Ast) (ha : Spec.Semantic.Apart addr) (hp : TypesNamed A) (he : Earlier A) (fuel : Nat) (o : Out)
    (h : checks addr fuel A = .ok o) (h0 : o.errors = 0) (hc : Classic A) (hs : Simple A) (hwk : Walkable A) (n : Parse.Node) (hn : n ∈ A.nodes)
    (c : Parse.Child) (hcm : c ∈ n.children) (b : NodeGen.Obj) (hb : ObjectOf n b) (v : NodeGen.Val)
    (hv : b.child (c.name.orig.map lowerB) = some v) (opt : NodeGen.Val → NodeGen.Val) :
    ∃ b', NodeGen.callTrav (nodeProg A o) ("TRAV".toUTF8.toList ++ c.name.orig) opt b = .ok b' ∧
      Spec.NodeGen.OnlyChild (c.name.orig.map lowerB) (opt v) b b' := by
  have kn := known_of ha hp he h h0
  obtain ⟨hd, hh⟩ := C70_header_partial addr A ha hp he fuel o h h0 hc hs
  obtain ⟨k, hk⟩ := List.getElem?_of_mem hn
  exact C52_trav_partial _ (wf_prog kn hc) hd hh (trav_prog hwk) _ (List.mem_of_getElem? (node_at (o := o) hk)) _
    (List.mem_map.2 ⟨c, hcm, rfl⟩) b hb v hv opt

/-! ## Examples -/

/-- As a check: the conditions on names. -/
def simpleB (A : Parse.Ast) : Bool :=
  let field (n : Parse.Name) : Bool := decide ((95 : UInt8) ∉ n.orig) && decide (n.orig.map lowerB ∉ Spec.NodeGen.cWords)
  A.nodes.all (fun n => n.name.orig != [] && decide ((95 : UInt8) ∉ n.name.orig) && n.name.orig.map lowerB != "children".toUTF8.toList.map lowerB &&
    n.children.all (fun c => field c.name) && n.attrs.all fun a => field a.name) &&
  A.nodesets.all fun s => decide ((95 : UInt8) ∉ s.name.orig) && s.name.orig.map lowerB != "node".toUTF8.toList.map lowerB && s.attrs.all fun a => field a.name

theorem simple_of {A : Parse.Ast} (h : simpleB A = true) : Simple A := by
  simp only [simpleB, Bool.and_eq_true, List.all_eq_true, decide_eq_true_eq, bne_iff_ne, ne_eq] at h
  refine ⟨fun n hn => ?_, fun s hs => ?_, fun n hn c hc => ?_, fun n hn a ha => ?_, fun s hs a ha => ?_⟩
  · exact ⟨(h.1 n hn).1.1.1.1, (h.1 n hn).1.1.1.2, (h.1 n hn).1.1.2⟩
  · exact ⟨(h.2 s hs).1.1, (h.2 s hs).1.2⟩
  · exact (h.1 n hn).1.2 c hc
  · exact (h.1 n hn).2 a ha
  · exact (h.2 s hs).2 a ha

/-- As a check: all attributes of nodes and nodesets. -/
def attrsB (p : Parse.Attr → Bool) (A : Parse.Ast) : Bool := A.nodes.all (fun n => n.attrs.all p) && A.nodesets.all fun n => n.attrs.all p

theorem attrsB_node {p : Parse.Attr → Bool} {A : Parse.Ast} (h : attrsB p A = true) {k : Nat} {a : Parse.Attr} (ha : NodeAttr A k a) : p a = true := by
  simp only [attrsB, Bool.and_eq_true, List.all_eq_true] at h
  cases ha with
  | own h1 h2 => exact h.1 _ (List.mem_of_getElem? h1) a h2
  | member h1 h2 _ => exact h.2 _ (List.mem_of_getElem? h1) a h2

theorem classic_of {A : Parse.Ast} (h : attrsB (fun a => !a.ctor || !(a.inherited || a.synthesized)) A = true) : Classic A := by
  simp only [attrsB, Bool.and_eq_true, List.all_eq_true, Bool.or_eq_true, Bool.not_eq_true', Bool.or_eq_false_iff] at h
  have key : ∀ a : Parse.Attr, (a.ctor = false ∨ a.inherited = false ∧ a.synthesized = false) → a.ctor = true → ¬ Spec.Described.Computed a := by
    intro a h1 h2 h3
    unfold Spec.Described.Computed at h3
    simp_all
  exact ⟨fun n hn a ha => key a (h.1 n hn a ha), fun n hn a ha => key a (h.2 n hn a ha)⟩

theorem callable_of {A : Parse.Ast} {k : Nat} {n : Parse.Node} (hn : A.nodes[k]? = some n)
    (h : (attrsB (fun a => !a.ctor || (a.name.orig != "node".toUTF8.toList && a.type != .user && a.type != .link_or_enum)) A &&
      A.nodes.all fun n => n.children.all fun c => c.name.orig.map lowerB != "node".toUTF8.toList) = true) : Callable A k n := by
  rw [Bool.and_eq_true] at h
  have key := fun a => attrsB_node (k := k) (a := a) h.1
  simp only [Bool.or_eq_true, Bool.not_eq_true', Bool.and_eq_true, bne_iff_ne, ne_eq] at key
  have hc := h.2
  simp only [List.all_eq_true, bne_iff_ne, ne_eq] at hc
  refine ⟨fun c h1 _ => hc n (List.mem_of_getElem? hn) c h1, fun a h1 h2 => ?_, fun a h1 h2 h3 => ?_, fun a h1 h2 h3 => ?_⟩ <;>
    rcases key a h1 with h | h
  · simp [h] at h2
  · exact h.1.1
  · simp [h] at h2
  · exact absurd h3 h.1.2
  · simp [h] at h2
  · exact absurd h3 h.2

/-- The theorems about C70 apply to the description of sums (`Verif.Props.Semantic`). -/
example : Spec.Semantic.Apart sampleAddr ∧ TypesNamed (ast sumFile) ∧ Earlier (ast sumFile) ∧ Classic (ast sumFile) ∧ Simple (ast sumFile) ∧
    Walkable (ast sumFile) ∧ (∃ o, checks sampleAddr 60 (ast sumFile) = .ok o ∧ o.errors = 0 ∧
      (nodeProg (ast sumFile) o).nodes.map (fun x => (x.name.orig, x.attrs.map (·.name.orig))) =
        [(Lex.bytes "Add", [Lex.bytes "depth", Lex.bytes "val"]), (Lex.bytes "Num", [Lex.bytes "depth", Lex.bytes "val", Lex.bytes "lit"]),
          (Lex.bytes "Prog", [Lex.bytes "res"])]) := by
  refine ⟨sampleAddr_apart, named_of_plain (by decide +kernel), earlier_of_flat (by decide +kernel), classic_of (by decide +kernel),
    simple_of (by decide +kernel), ?_, ?_⟩
  · unfold Walkable Ascii NoNul
    decide +kernel
  · generalize hr : checks sampleAddr 60 (ast sumFile) = r
    have : (match checks sampleAddr 60 (ast sumFile) with
      | .ok o => o.errors == 0 && (nodeProg (ast sumFile) o).nodes.map (fun x => (x.name.orig, x.attrs.map (·.name.orig))) ==
        [(Lex.bytes "Add", [Lex.bytes "depth", Lex.bytes "val"]), (Lex.bytes "Num", [Lex.bytes "depth", Lex.bytes "val", Lex.bytes "lit"]),
          (Lex.bytes "Prog", [Lex.bytes "res"])]
      | _ => false) = true := by decide +kernel
    rw [hr] at this
    cases r with
    | ok o =>
      simp only [Bool.and_eq_true, beq_iff_eq] at this
      exact ⟨o, rfl, this.1, this.2⟩
    | ub w => cases this
    | abort v => cases this
    | diverge => cases this

/-- Its node `Num`, at position 1, has a constructor with one parameter, and is a member of the nodeset with the attribute `val`. -/
example : (∃ n, (ast sumFile).nodes[1]? = some n ∧ n.name.orig = Lex.bytes "Num" ∧ Callable (ast sumFile) 1 n ∧
      ObjectOf n (NodeGen.newObj (Lex.bytes "NUM") (Lex.bytes "num"))) ∧
    (∃ a, SetAttr (ast sumFile) 0 a ∧ a.name.orig = Lex.bytes "val") ∧ Member (ast sumFile) 0 1 := by
  refine ⟨?_, ?_, ?_⟩
  · obtain ⟨n, hn, hm⟩ : ∃ n : Parse.Node, (ast sumFile).nodes[1]? = some n ∧ n.name.orig = Lex.bytes "Num" := ⟨_, rfl, by decide +kernel⟩
    refine ⟨n, hn, hm, callable_of hn (by decide +kernel), ?_⟩
    unfold ObjectOf
    rw [hm]
    decide +kernel
  · obtain ⟨s, a, h1, h2, h3⟩ : ∃ (s : Parse.NodeSet) (a : Parse.Attr), (ast sumFile).nodesets[0]? = some s ∧ s.attrs[0]? = some a ∧
        a.name.orig = Lex.bytes "val" := ⟨_, _, rfl, rfl, by decide +kernel⟩
    exact ⟨a, .own h1 (List.mem_of_getElem? h2), h3⟩
  · obtain ⟨n, hn, hm⟩ : ∃ n : Parse.Node, (ast sumFile).nodes[1]? = some n ∧ n.name.orig = Lex.bytes "Num" := ⟨_, rfl, by decide +kernel⟩
    obtain ⟨s, l, hs, he, hl⟩ : ∃ (s : Parse.NodeSet) (l : List Parse.Name), (ast sumFile).nodesets[0]? = some s ∧ s.expr = .lit l ∧
        Lex.bytes "Num" ∈ l.map (·.orig) := ⟨_, _, rfl, rfl, by decide +kernel⟩
    have hd := Spec.Semantic.Means.lit (A := ast sumFile) l
    rw [← he] at hd
    obtain ⟨m, h1, h2⟩ := List.mem_map.1 hl
    exact ⟨s, n, _, hs, hn, hd, m, h1, by rw [hm, h2]; rfl⟩

/-! ## Where the claim is false -/

/-- A description that is accepted, for the generated nodes of which something holds. -/
def Yields (f : List Spec.Syntax.Entry) (P : NodeGen.Prog → Prop) : Prop :=
  TypesNamed (ast f) ∧ Earlier (ast f) ∧ ∃ o, checks sampleAddr 60 (ast f) = .ok o ∧ o.errors = 0 ∧ P (nodeProg (ast f) o)

theorem yields_of {f : List Spec.Syntax.Entry} {P : NodeGen.Prog → Prop} {p : NodeGen.Prog → Bool} (hp : ∀ x, p x = true → P x)
    (h1 : (plainAst (ast f) && flatSets (ast f)) = true) (h2 : (match checks sampleAddr 60 (ast f) with
      | .ok o => o.errors == 0 && p (nodeProg (ast f) o)
      | _ => false) = true) : Yields f P := by
  rw [Bool.and_eq_true] at h1
  refine ⟨named_of_plain h1.1, earlier_of_flat h1.2, ?_⟩
  split at h2
  · rename_i o ho
    simp only [Bool.and_eq_true, beq_iff_eq] at h2
    exact ⟨o, ho, h2.1, hp _ h2.2⟩
  · cases h2

/-- The constructor of the first node, with the right number of arguments, does not work. -/
def Makes (args : List NodeGen.Val) (w : String) (p : NodeGen.Prog) : Prop :=
  ∃ x, p.nodes[0]? = some x ∧ Spec.NodeGen.arity x = args.length ∧ NodeGen.construct p x args = .abort w

theorem makes_of (args : List NodeGen.Val) (w : String) (p : NodeGen.Prog) (h : (match p.nodes with
    | x :: _ => Spec.NodeGen.arity x == args.length && endsWith (NodeGen.construct p x args) w
    | [] => false) = true) : Makes args w p := by
  unfold Makes
  cases hp : p.nodes with
  | nil => rw [hp] at h; cases h
  | cons x l =>
    rw [hp] at h
    simp only [Bool.and_eq_true, beq_iff_eq] at h
    exact ⟨x, rfl, h.1, endsWith_eq h.2⟩

/-- `root node X { children { <kids> }, attributes { <attrs> }, equations { <eqs> } }  enum Kind …` -/
def oneFile (kids : List Spec.Syntax.Child) (attrs : List Spec.Syntax.Attr) (eqs : List Spec.Syntax.Equation) : List Spec.Syntax.Entry :=
  [.node ⟨true, nm "X" 0, kids, attrs, eqs, [], false⟩, .enum ⟨nm "Kind" 0, none, nm "K" 0, [nm "a" 0]⟩]

/-- C70 is false for a computed attribute in the constructor, after another one (see `C45_first_only_false`): it is accepted, and the
constructor assigns to what is no lvalue. -/
theorem C70_ctor_false : ∃ f, Simple (ast f) ∧ Yields f (Makes [.given 1, .given 2] "not an lvalue") :=
  ⟨oneFile [] [intAttr "a" [.constructor], intAttr "b" [.constructor, .synthesized]] [eqn none "b" []], simple_of (by decide +kernel),
    yields_of (makes_of _ _) (by decide +kernel) (by decide +kernel)⟩

/-- C70 is false for an attribute of a type of the user in the constructor, with a capital letter in its name: the parameter has the name as it
is written, the body uses it in lower case. -/
theorem C70_user_false : ∃ f, Classic (ast f) ∧ Simple (ast f) ∧ Yields f (Makes [.given 1] "undeclared identifier") :=
  ⟨oneFile [] [⟨.user (nm "T" 0), nm "Left" 0, some [.constructor]⟩] [], classic_of (by decide +kernel), simple_of (by decide +kernel),
    yields_of (makes_of _ _) (by decide +kernel) (by decide +kernel)⟩

/-- C70 is false for an enum that is written in other letter case than in its declaration. -/
theorem C70_enum_false : ∃ f, Classic (ast f) ∧ Simple (ast f) ∧ Yields f (Makes [.given 1] "parameter") :=
  ⟨oneFile [] [⟨.named (nm "kind" 0), nm "val" 0, some [.constructor]⟩] [], classic_of (by decide +kernel), simple_of (by decide +kernel),
    yields_of (makes_of _ _) (by decide +kernel) (by decide +kernel)⟩

/-- C70 is false for a child `Node` in the constructor: the parameter is the local variable. -/
theorem C70_child_false : ∃ f, Classic (ast f) ∧ Simple (ast f) ∧ (∀ n ∈ (ast f).nodes, n.attrs = []) ∧ Yields f (Makes [.given 1] "parameter") :=
  ⟨oneFile [⟨nm "X" 0, nm "Node" 0, some (true, [])⟩] [] [], classic_of (by decide +kernel), simple_of (by decide +kernel), by decide +kernel,
    yields_of (makes_of _ _) (by decide +kernel) (by decide +kernel)⟩

/-- C70 is false for names with underscores: nodes `a` with child `b_c` and `a_b` with child `c`. -/
theorem C70_underscore_false : ∃ f, Classic (ast f) ∧ Yields f (fun p => NodeGen.compile p = .abort "redefinition of function") :=
  ⟨[.node ⟨true, nm "a" 0, [⟨nm "a" 0, nm "b_c" 0, none⟩], [], [], [], false⟩,
      .node ⟨false, nm "a_b" 0, [⟨nm "a" 0, nm "c" 0, none⟩], [], [], [], false⟩], classic_of (by decide +kernel),
    yields_of (fun _ => endsWith_eq) (by decide +kernel) (by decide +kernel)⟩

/-- C70 is false for a child `Else`: members are printed in lower case. -/
theorem C70_keyword_false : ∃ f, Classic (ast f) ∧ Yields f (fun p => NodeGen.compile p = .abort "member") :=
  ⟨oneFile [⟨nm "X" 0, nm "Else" 0, none⟩] [] [], classic_of (by decide +kernel), yields_of (fun _ => endsWith_eq) (by decide +kernel) (by decide +kernel)⟩

/-- C70 is false for a node `Children` with a computed attribute `x` beside a node `x` with children. -/
theorem C70_children_false : ∃ f, Classic (ast f) ∧ Yields f (fun p => NodeGen.compile p = .abort "redefinition of struct") :=
  ⟨[.node ⟨true, nm "x" 0, [⟨nm "x" 0, nm "k" 0, none⟩], [], [], [], false⟩,
      .node ⟨false, nm "Children" 0, [], [intAttr "x" [.synthesized]], [eqn none "x" []], [], false⟩], classic_of (by decide +kernel),
    yields_of (fun _ => endsWith_eq) (by decide +kernel) (by decide +kernel)⟩

/-- C70 is false for a nodeset `Node` with an attribute `type`: a node must not have this name, a nodeset may. -/
theorem C70_nodeset_false : ∃ f, Classic (ast f) ∧ Yields f (fun p => NodeGen.compile p = .abort "macro redefined") :=
  ⟨[.node ⟨true, nm "x" 0, [], [], [], [], false⟩, .nodeset (.long (nm "Node" 0) none ⟨.lit (nm "x" 0) [], .nil⟩ [intAttr "type" []])],
    classic_of (by decide +kernel), yields_of (fun _ => endsWith_eq) (by decide +kernel) (by decide +kernel)⟩

end Verif.Props
