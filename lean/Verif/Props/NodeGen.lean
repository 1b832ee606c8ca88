import Verif.Lemmas.NodeGenTrav
import Verif.Props.Ids

/-!
# Property theorems C51, C52, C53 and C54: generated node types

Theorems quantify over all specifications that satisfy `WfProg`; `compile` is what a C compiler checks in `ast.h` and
`ast.c` with respect to names, `construct` and `callTrav` run the printed code.
-/

namespace Verif.Props
open Verif.Str Verif.Ids Verif.NodeGen Verif.Spec.Str Verif.Spec.Ids Verif.Spec.NodeGen

/-! ## A sample -/

/-- `a`. -/
def ngA : CStr := [97]
/-- `b`. -/
def ngB : CStr := [98]
/-- `Left`. -/
def ngLeft : CStr := [76, 101, 102, 116]
/-- `right`. -/
def ngRight : CStr := [114, 105, 103, 104, 116]
/-- `val`. -/
def ngVal : CStr := [118, 97, 108]
/-- `typ`. -/
def ngTyp : CStr := [116, 121, 112]
/-- `Kind`. -/
def ngKind : CStr := [75, 105, 110, 100]
/-- `Expr`. -/
def ngExpr : CStr := [69, 120, 112, 114]

/-- Node `a` with children `Left` (in the constructor) and `right`, attributes `val` (int, in the constructor), `k` (enum
`Kind`, in the constructor) and `typ` (computed); node `b` with child `Left` and attribute `typ`; nodeset `Expr` of both
with attribute `typ`. -/
def ngProg : Prog :=
  ⟨[⟨mkId ngA, [⟨mkId ngLeft, true⟩, ⟨mkId ngRight, false⟩],
      [⟨mkId ngVal, .int, none, true, false, false⟩, ⟨mkId [107], .linkOrEnum, some (mkId ngKind), true, false, false⟩,
        ⟨mkId ngTyp, .string, none, false, false, true⟩]⟩,
    ⟨mkId ngB, [⟨mkId ngLeft, false⟩], [⟨mkId ngTyp, .string, none, false, false, true⟩]⟩],
   [⟨mkId ngExpr, [mkId ngA, mkId ngB], [⟨mkId ngTyp, .string, none, false, false, true⟩]⟩], [mkId ngKind]⟩

/-- Node `a` of the sample. -/
def ngNode : Node := ⟨mkId ngA, [⟨mkId ngLeft, true⟩, ⟨mkId ngRight, false⟩],
      [⟨mkId ngVal, .int, none, true, false, false⟩, ⟨mkId [107], .linkOrEnum, some (mkId ngKind), true, false, false⟩,
        ⟨mkId ngTyp, .string, none, false, false, true⟩]⟩

/-- Node `b` of the sample. -/
def ngNodeB : Node := ⟨mkId ngB, [⟨mkId ngLeft, false⟩], [⟨mkId ngTyp, .string, none, false, false, true⟩]⟩

theorem ngWf : WfProg ngProg := by
  have wf : ∀ s, WfId (mkId s) := fun s => ⟨rfl, rfl⟩
  have ok : ∀ (q : Prog) (a : Attr), WfId a.name → a.type ≠ .linkOrEnum → a.type ≠ .user → (a.ctor = true → ¬ Computed a) →
      AttrOk q a := fun q a h1 h2 h3 h4 => ⟨h1, fun e => absurd e h2, fun e => absurd e h3, h4⟩
  have hk : AttrOk ngProg ⟨mkId [107], .linkOrEnum, some (mkId ngKind), true, false, false⟩ :=
    ⟨wf _, fun _ => ⟨_, rfl, wf _, mkId ngKind, by simp [ngProg], rfl⟩, (fun e => by cases e), (fun _ => by simp [Computed])⟩
  have hv : AttrOk ngProg ⟨mkId ngVal, .int, none, true, false, false⟩ :=
    ok _ _ (wf _) (by decide) (by decide) (by simp [Computed])
  have ht : AttrOk ngProg ⟨mkId ngTyp, .string, none, false, false, true⟩ :=
    ok _ _ (wf _) (by decide) (by decide) (by simp)
  refine ⟨?_, ?_, ?_, ?_, ?_, ?_, ?_, ?_, ?_, ?_, ?_, ?_⟩
  · simp [ngProg, wf]
  · simp [ngProg, wf]
  · simp [ngProg, wf]
  · simp [ngProg, wf]
  · simp [ngProg, wf]
  · unfold Distinct SameName; decide
  · unfold Distinct SameName; decide
  · unfold Distinct SameName; decide
  · intro n hn
    simp only [ngProg, List.mem_cons, List.not_mem_nil, or_false] at hn
    rcases hn with rfl | rfl
    · simp only [List.mem_cons, List.not_mem_nil, or_false, forall_eq_or_imp, forall_eq]
      exact ⟨hv, hk, ht⟩
    · simp only [List.mem_singleton, forall_eq]
      exact ht
  · intro s hs
    simp only [ngProg, List.mem_singleton] at hs
    rw [hs]
    simp only [List.mem_singleton, forall_eq]
    exact ht
  · unfold Distinct SameName; decide
  · intro s hs m hm
    simp only [ngProg, List.mem_singleton] at hs
    rw [hs] at hm ⊢
    simp only [List.mem_cons, List.not_mem_nil, or_false] at hm
    rcases hm with rfl | rfl
    · exact ⟨ngNode, by simp [ngProg, ngNode], rfl, by simp [ngNode, Computed, SameName]⟩
    · exact ⟨ngNodeB, by simp [ngProg, ngNodeB], rfl, by simp [ngNodeB, Computed, SameName]⟩

theorem ngPlain : Plain ngProg := by
  refine ⟨?_, ?_, ?_, ?_, ?_⟩
  · unfold NoUnderscore SameName; decide +kernel
  · unfold NoUnderscore SameName; decide +kernel
  · unfold NoUnderscore; decide +kernel
  · unfold NoUnderscore; decide +kernel
  · unfold NoUnderscore; decide +kernel

theorem ngCtor : CtorOk ngProg ngNode := by
  refine ⟨?_, ?_, ?_, ?_⟩
  · decide +kernel
  · decide +kernel
  · decide +kernel
  · intro a ha h1 h2 r hr
    simp only [ngNode, List.mem_cons, List.not_mem_nil, or_false] at ha
    rcases ha with rfl | rfl | rfl
    · cases h2
    · cases hr; exact ⟨mkId ngKind, by simp [ngProg], rfl⟩
    · cases h2

theorem ngTrav : TravNames ngProg := by
  unfold TravNames Ascii NoNul
  decide +kernel

/-- The program (or compiler) ends for this reason. -/
def endsWith {α : Type} (r : Res α) (w : String) : Bool :=
  match r with
  | .abort v => v == w
  | _ => false

theorem endsWith_eq {α : Type} {r : Res α} {w : String} (h : endsWith r w = true) : r = .abort w := by
  unfold endsWith at h
  split at h
  · rw [beq_iff_eq] at h; rw [h]
  · cases h

/-! ## C51 -/

/-- C51: if the header compiles and the fields in the constructor have names that work as parameters, the constructor
gives a node with each argument in its field, NULL in the other children, the value that stands for nothing in the other
attributes, and computed attributes marked as not computed.  Missing: names for which `CtorOk` fails, where the claim is
false (`C51_user_false`, `C51_enum_false`, `C51_node_false`). -/
theorem C51_constructor_partial (p : Prog) (hw : WfProg p) (h : Header) (hc : compile p = .ok h) (n : Node)
    (hn : n ∈ p.nodes) (hok : CtorOk p n) (args : List Val) (hl : args.length = arity n) :
    ∃ o, construct p n args = .ok o ∧ Constructed n args o :=
  construct_spec hw hc n hn hok args hl

/-- C51: the call that the compiler prints itself (for copying) gives a node in which nothing is filled in. -/
theorem C51_default_call_partial (p : Prog) (hw : WfProg p) (h : Header) (hc : compile p = .ok h) (n : Node)
    (hn : n ∈ p.nodes) (hok : CtorOk p n) : ∃ o, constructDefault p n = .ok o ∧ Fresh n o :=
  construct_default hw hc n hn hok

/-- C51: the header has one prototype for each node, in order, and it is the head of the definition. -/
theorem C51_prototypes (p : Prog) (hw : WfProg p) : ∃ hs, DGIFast p = .ok hs ∧ hs.length = p.nodes.length ∧
    ∀ (i : Nat) (n : Node), p.nodes[i]? = some n → ∃ hd df, hs[i]? = some hd ∧ DGIFinode false n = .ok df ∧
      hd.name = df.name ∧ hd.toks = df.toks ∧ hd.semi = true ∧ df.semi = false :=
  protos p.nodes hw.attrs

example : WfProg ngProg ∧ (∃ h, compile ngProg = .ok h) ∧ ngNode ∈ ngProg.nodes ∧ CtorOk ngProg ngNode ∧
    [Val.given 1, .given 2, .given 3].length = arity ngNode ∧
    ngProg.nodes[0]? = some ngNode :=
  ⟨ngWf, ⟨_, compile_plain ngWf ngPlain⟩, by simp [ngProg, ngNode], ngCtor, by decide, rfl⟩

/-- A node with one attribute in the constructor. -/
def ngOne (name : CStr) (t : AT) (r : CStr) : Prog :=
  ⟨[⟨mkId ngA, [], [⟨mkId name, t, some (mkId r), true, false, false⟩]⟩], [], [mkId ngKind]⟩

theorem ngOneWf (name : CStr) (t : AT) (r : CStr) (h : t = .linkOrEnum → SameName ngKind r) : WfProg (ngOne name t r) := by
  have wf : ∀ s, WfId (mkId s) := fun s => ⟨rfl, rfl⟩
  refine ⟨?_, ?_, ?_, ?_, ?_, ?_, ?_, ?_, ?_, ?_, ?_, ?_⟩ <;>
    simp only [ngOne, List.mem_singleton, forall_eq, List.not_mem_nil, false_implies, implies_true, List.map_cons,
      List.map_nil, List.append_nil, List.nil_append, Distinct, List.pairwise_singleton]
  · exact wf _
  · exact wf _
  · exact ⟨wf _, fun e => ⟨_, rfl, wf _, mkId ngKind, by simp, h e⟩, fun _ => ⟨_, rfl⟩, by simp [Computed]⟩

/-- C51 is false for an attribute of a user type with an upper-case letter in its name: the parameter is printed in lower
case, the body uses the name as written. -/
theorem C51_user_false : ∃ p : Prog, WfProg p ∧ Plain p ∧ ∃ n ∈ p.nodes, arity n = 1 ∧
    construct p n [.given 1] = .abort "undeclared identifier" := by
  refine ⟨ngOne ngLeft .user ngB, ngOneWf _ _ _ (fun e => by cases e), ?_, _, List.mem_singleton.2 rfl, rfl, endsWith_eq (by decide +kernel)⟩
  refine ⟨?_, ?_, ?_, ?_, ?_⟩ <;> (unfold NoUnderscore; try unfold SameName) <;> decide +kernel

/-- C51 is false for an enum that is written in other letter case than in its declaration: the parameter has an undeclared
type. -/
theorem C51_enum_false : ∃ p : Prog, WfProg p ∧ Plain p ∧ ∃ n ∈ p.nodes, arity n = 1 ∧
    construct p n [.given 1] = .abort "parameter" := by
  refine ⟨ngOne ngVal .linkOrEnum [107, 105, 110, 100], ngOneWf _ _ _ (fun _ => by unfold SameName; decide), ?_, _,
    List.mem_singleton.2 rfl, rfl, endsWith_eq (by decide +kernel)⟩
  refine ⟨?_, ?_, ?_, ?_, ?_⟩ <;> (unfold NoUnderscore; try unfold SameName) <;> decide +kernel

/-- The specification with one node `a` that has one child in the constructor. -/
def ngKid (name : CStr) : Prog := ⟨[⟨mkId ngA, [⟨mkId name, true⟩], []⟩], [], []⟩

theorem ngKidWf (name : CStr) : WfProg (ngKid name) := by
  have wf : ∀ s, WfId (mkId s) := fun s => ⟨rfl, rfl⟩
  refine ⟨?_, ?_, ?_, ?_, ?_, ?_, ?_, ?_, ?_, ?_, ?_, ?_⟩ <;>
    simp only [ngKid, List.mem_singleton, forall_eq, List.not_mem_nil, false_implies, implies_true, List.map_cons,
      List.map_nil, List.append_nil, Distinct, List.pairwise_singleton]
  · exact wf _
  · exact wf _

/-- C51 is false for a child `Node` in the constructor: the parameter has the name of the local variable. -/
theorem C51_node_false : ∃ p : Prog, WfProg p ∧ Plain p ∧ ∃ n ∈ p.nodes, arity n = 1 ∧
    construct p n [.given 1] = .abort "parameter" := by
  refine ⟨ngKid [78, 111, 100, 101], ngKidWf _, ?_, _, List.mem_singleton.2 rfl, rfl, endsWith_eq (by decide +kernel)⟩
  refine ⟨?_, ?_, ?_, ?_, ?_⟩ <;> (unfold NoUnderscore; try unfold SameName) <;> decide +kernel

/-! ## C52 -/

/-- C52: if the header compiles and no child has the name of an existing function, `TRAVx` in a node with a child `x`
replaces this child by what the traversal returns for it, and nothing else.  Missing: children with such names, where the
claim is false (`C52_clash_false`). -/
theorem C52_trav_partial (p : Prog) (hw : WfProg p) (h : Header) (hc : compile p = .ok h) (ht : TravNames p) (n : Node)
    (hn : n ∈ p.nodes) (c : Child) (hcm : c ∈ n.children) (o : Obj) (ho : NodeOf n o) (v : Val)
    (hv : o.child (low c.name) = some v) (opt : Val → Val) :
    ∃ o', callTrav p ("TRAV".toUTF8.toList ++ c.name.orig) opt o = .ok o' ∧ OnlyChild (low c.name) (opt v) o o' :=
  callTrav_ok hw hc ht n hn c hcm o ho v hv opt

/-- C52: in a node that has no child of this spelling, the program ends with an assertion. -/
theorem C52_other_partial (p : Prog) (hw : WfProg p) (h : Header) (hc : compile p = .ok h) (ht : TravNames p) (n : Node)
    (hn : n ∈ p.nodes) (c : Child) (hcm : c ∈ n.children) (m : Node) (hm : m ∈ p.nodes)
    (hno : ∀ d ∈ m.children, d.name.orig ≠ c.name.orig) (o : Obj) (ho : NodeOf m o) (opt : Val → Val) :
    callTrav p ("TRAV".toUTF8.toList ++ c.name.orig) opt o = .abort "Current target has no child" :=
  callTrav_abort hw hc ht n hn c hcm m hm hno o ho opt

example : WfProg ngProg ∧ (∃ h, compile ngProg = .ok h) ∧ TravNames ngProg ∧ ngNode ∈ ngProg.nodes ∧
    ngNodeB ∈ ngProg.nodes ∧ (⟨mkId ngRight, false⟩ : Child) ∈ ngNode.children ∧
    (∀ d ∈ ngNodeB.children, d.name.orig ≠ ngRight) ∧
    ∃ o, NodeOf ngNode o ∧ o.child (low (mkId ngRight)) = some .null :=
  ⟨ngWf, ⟨_, compile_plain ngWf ngPlain⟩, ngTrav, by simp [ngProg, ngNode], by simp [ngProg, ngNodeB],
    by simp [ngNode], by decide, ⟨up (mkId ngA), low (mkId ngA), fun _ => some .null, fun _ => none, fun _ => none, 0, none⟩,
    ⟨rfl, rfl⟩, rfl⟩

/-- C52 is false for a child `opt`: its function is called `TRAVopt`, as the one that every other function calls. -/
theorem C52_clash_false : ∃ p : Prog, WfProg p ∧ Plain p ∧ (∃ h, compile p = .ok h) ∧
    ∃ n ∈ p.nodes, ∃ c ∈ n.children, ∀ opt o,
      callTrav p ("TRAV".toUTF8.toList ++ c.name.orig) opt o = .abort "conflicting types or redefinition" := by
  have hp : Plain (ngKid [111, 112, 116]) := by
    refine ⟨?_, ?_, ?_, ?_, ?_⟩ <;> (unfold NoUnderscore; try unfold SameName) <;> decide +kernel
  refine ⟨ngKid [111, 112, 116], ngKidWf _, hp, ⟨_, compile_plain (ngKidWf _) hp⟩, _, List.mem_singleton.2 rfl, _,
    List.mem_singleton.2 rfl, ?_⟩
  intro opt o
  have e : compileTrav (ngKid [111, 112, 116]) = .abort "conflicting types or redefinition" :=
    endsWith_eq (by decide +kernel)
  unfold callTrav
  rw [compile_plain (ngKidWf _) hp, Res.bind_ok, e, Res.bind_abort]

/-! ## C53 -/

/-- C53: with names without underscores, none of them `node` or `children` for a node, `node` for a nodeset or a word of C
for a field, the declarations in the header do not clash.  Missing: other names, where the claim is false
(`C53_underscore_false`, `C53_children_false`, `C53_keyword_false`, `C53_nodeset_false`). -/
theorem C53_header_partial (p : Prog) (hw : WfProg p) (hp : Plain p) : ∃ h, compile p = .ok h :=
  ⟨_, compile_plain hw hp⟩

example : WfProg ngProg ∧ Plain ngProg := ⟨ngWf, ngPlain⟩

/-- A specification of two nodes without nodesets. -/
def ngTwo (n m : CStr) (ns ms : List CStr) (na ma : List CStr) : Prog :=
  ⟨[⟨mkId n, ns.map fun s => ⟨mkId s, false⟩, na.map fun s => ⟨mkId s, .int, none, false, false, true⟩⟩,
    ⟨mkId m, ms.map fun s => ⟨mkId s, false⟩, ma.map fun s => ⟨mkId s, .int, none, false, false, true⟩⟩], [], []⟩

theorem ngTwoWf (n m : CStr) (ns ms na ma : List CStr) (h1 : ¬ SameName n m)
    (h2 : (ns ++ na).Pairwise fun a b => ¬ SameName a b) (h3 : (ms ++ ma).Pairwise fun a b => ¬ SameName a b) :
    WfProg (ngTwo n m ns ms na ma) := by
  have wf : ∀ s, WfId (mkId s) := fun s => ⟨rfl, rfl⟩
  have fields : ∀ a b : List CStr, ((a ++ b).Pairwise fun a b => ¬ SameName a b) →
      Distinct ((a.map fun s => (⟨mkId s, false⟩ : Child)).map (·.name) ++
        (b.map fun s => (⟨mkId s, .int, none, false, false, true⟩ : Attr)).map (·.name)) := by
    intro a b h
    rw [List.map_map, List.map_map]
    have : (a.map ((fun c : Child => c.name) ∘ fun s => ⟨mkId s, false⟩)) ++
        (b.map ((fun c : Attr => c.name) ∘ fun s => ⟨mkId s, .int, none, false, false, true⟩)) = (a ++ b).map mkId := by
      rw [List.map_append]; rfl
    rw [this]
    unfold Distinct
    rw [List.pairwise_map]
    exact h
  have attrs : ∀ (b : List CStr) (p : Prog), ∀ a ∈ b.map (fun s => (⟨mkId s, .int, none, false, false, true⟩ : Attr)),
      AttrOk p a := by
    intro b p a ha
    obtain ⟨s, _, e⟩ := List.mem_map.1 ha
    rw [← e]
    exact ⟨wf _, (fun e => by cases e), (fun e => by cases e), (fun e => by cases e)⟩
  refine ⟨?_, ?_, ?_, ?_, ?_, ?_, ?_, ?_, ?_, ?_, ?_, ?_⟩ <;>
    simp only [ngTwo, List.mem_cons, forall_eq_or_imp, forall_eq, List.not_mem_nil, or_false, false_implies, implies_true]
  · exact ⟨wf _, wf _⟩
  · constructor <;> (intro c hc; obtain ⟨s, _, e⟩ := List.mem_map.1 hc; rw [← e]; exact wf _)
  · unfold Distinct; simpa [mkId] using h1
  · exact ⟨fields _ _ h2, fields _ _ h3⟩
  · exact ⟨attrs _ _, attrs _ _⟩

/-- C53 is false with underscores: child `b_c` of node `a` and child `c` of node `a_b` have the same macro and access
function. -/
theorem C53_underscore_false : ∃ p : Prog, WfProg p ∧ compile p = .abort "redefinition of function" := by
  refine ⟨ngTwo [97] [97, 95, 98] [[98, 95, 99]] [[99]] [] [], ngTwoWf _ _ _ _ _ _ ?_ ?_ ?_, endsWith_eq (by decide +kernel)⟩ <;>
    (unfold SameName; decide)

/-- C53 is false for a node `Children` with a computed attribute `x` beside a node `x` with children: both have a structure
`NODE_CHILDREN_X_STRUCT`. -/
theorem C53_children_false : ∃ p : Prog, WfProg p ∧ (∀ n ∈ p.nodes, NoUnderscore n.name) ∧
    compile p = .abort "redefinition of struct" := by
  refine ⟨ngTwo [67, 104, 105, 108, 100, 114, 101, 110] [120] [] [[97]] [[120]] [], ngTwoWf _ _ _ _ _ _ ?_ ?_ ?_, ?_,
    endsWith_eq (by decide +kernel)⟩
  · unfold SameName; decide
  · unfold SameName; decide
  · unfold SameName; decide
  · unfold NoUnderscore; decide

/-- C53 is false for a child `Else`: the lexer compares the name as written with the words of C, the member is printed in
lower case. -/
theorem C53_keyword_false : ∃ p : Prog, WfProg p ∧ (∀ n ∈ p.nodes, ∀ c ∈ n.children, c.name.orig ∉ cWords) ∧
    compile p = .abort "member" := by
  refine ⟨ngKid [69, 108, 115, 101], ngKidWf _, by decide +kernel, endsWith_eq (by decide +kernel)⟩

/-- C53 is false for a child `True`: the member is the macro of `stdbool.h`. -/
theorem C53_stdbool_false : ∃ p : Prog, WfProg p ∧ (∀ n ∈ p.nodes, ∀ c ∈ n.children, c.name.orig ∉ cWords) ∧
    compile p = .abort "member" := by
  refine ⟨ngKid [84, 114, 117, 101], ngKidWf _, by decide +kernel, endsWith_eq (by decide +kernel)⟩

/-- A nodeset without members that has one attribute. -/
def ngSet (s a : CStr) : Prog := ⟨[], [⟨mkId s, [], [⟨mkId a, .int, none, false, false, false⟩]⟩], []⟩

/-- C53 is false for a nodeset `Node` with an attribute `type`: its macro `NODE_TYPE` is the one that gives the type of
every node. -/
theorem C53_nodeset_false : ∃ p : Prog, WfProg p ∧ (∀ s ∈ p.sets, NoUnderscore s.name) ∧
    compile p = .abort "macro redefined" := by
  have wf : ∀ s, WfId (mkId s) := fun s => ⟨rfl, rfl⟩
  refine ⟨ngSet [78, 111, 100, 101] [116, 121, 112, 101], ?_, by unfold NoUnderscore; decide, endsWith_eq (by decide +kernel)⟩
  refine ⟨?_, ?_, ?_, ?_, ?_, ?_, ?_, ?_, ?_, ?_, ?_, ?_⟩ <;>
    simp only [ngSet, List.mem_singleton, forall_eq, List.not_mem_nil, false_implies, implies_true, List.map_cons,
      List.map_nil, List.nil_append, Distinct, List.pairwise_singleton, List.Pairwise.nil]
  · exact wf _
  · exact ⟨wf _, (fun e => by cases e), (fun e => by cases e), by simp [Computed]⟩

/-! ## C54 -/

/-- C54: if the header compiles, the macro of a child or attribute of a node gives this member in nodes of the type, and in
others the program ends with an error; computed attributes cannot be assigned to. -/
theorem C54_node_partial (p : Prog) (hw : WfProg p) (h : Header) (hc : compile p = .ok h) (n : Node) (hn : n ∈ p.nodes)
    (o : Obj) :
    (NodeOf n o → ∀ c ∈ n.children,
      accessNode h true (up n.name ++ 95 :: up c.name) o = .ok (.child (low n.name) (low c.name))) ∧
    (NodeOf n o → ∀ a ∈ n.attrs, ¬ Computed a →
      accessNode h true (up n.name ++ 95 :: up a.name) o = .ok (.plain (low n.name) (low a.name))) ∧
    (NodeOf n o → ∀ a ∈ n.attrs, Computed a →
      accessNode h false (up n.name ++ 95 :: up a.name) o = .ok (.valued (low n.name) (low a.name)) ∧
      accessNode h true (up n.name ++ 95 :: up a.name) o = .abort "not an lvalue") ∧
    (o.nt ≠ up n.name → (∀ c ∈ n.children, accessNode h false (up n.name ++ 95 :: up c.name) o = .abort "CCNaccesserror") ∧
      ∀ a ∈ n.attrs, accessNode h false (up n.name ++ 95 :: up a.name) o = .abort "CCNaccesserror") := by
  have wn := hw.nodeIds n hn
  have e : ∀ {i : Id}, WfId i → up n.name ++ 95 :: up i = n.name.upr ++ sU ++ i.upr := by
    intro i hi
    rw [upr_up hi, upr_up wn]; simp [sU]
  refine ⟨?_, ?_, ?_, ?_⟩
  · intro ho c hcm
    rw [e (hw.childIds n hn c hcm), access_child (compiled hc) n hn c hcm o (nodeOf_is hw n hn o ho) true, lwr_low wn,
      lwr_low (hw.childIds n hn c hcm)]
  · intro ho a ha hca
    rw [e (hw.attrs n hn a ha).wf, access_plain (compiled hc) n hn a ha hca o (nodeOf_is hw n hn o ho) true, lwr_low wn,
      lwr_low (hw.attrs n hn a ha).wf]
  · intro ho a ha hca
    have := access_valued (compiled hc) n hn a ha hca o (nodeOf_is hw n hn o ho)
    rw [e (hw.attrs n hn a ha).wf, this.1, this.2, lwr_low wn, lwr_low (hw.attrs n hn a ha).wf]
    exact ⟨rfl, rfl⟩
  · intro ho
    rw [← upr_up wn] at ho
    constructor
    · intro c hcm
      rw [e (hw.childIds n hn c hcm)]
      exact access_child_other (compiled hc) n hn c hcm o ho false
    · intro a ha
      rw [e (hw.attrs n hn a ha).wf]
      exact access_attr_other (compiled hc) n hn a ha o ho

/-- C54: if the header compiles, the macro of an attribute of a nodeset gives the attribute of the node in each member,
and in other nodes the program ends with an error. -/
theorem C54_nodeset_partial (p : Prog) (hw : WfProg p) (h : Header) (hc : compile p = .ok h) (s : NodeSet) (hs : s ∈ p.sets)
    (a : Attr) (ha : a ∈ s.attrs) (n : Node) (hn : n ∈ p.nodes) (o : Obj) (ho : NodeOf n o) :
    ((∃ m ∈ s.members, SameName n.name.orig m.orig) → ∃ b ∈ n.attrs, SameName b.name.orig a.name.orig ∧
      (Computed a → accessSet h (up s.name ++ 95 :: up a.name) o = .ok (.valued (low n.name) (low a.name))) ∧
      (¬ Computed a → accessSet h (up s.name ++ 95 :: up a.name) o = .ok (.plain (low n.name) (low a.name)))) ∧
    ((∀ m ∈ s.members, ¬ SameName n.name.orig m.orig) →
      accessSet h (up s.name ++ 95 :: up a.name) o = .abort "CCNaccesserror") := by
  have e : up s.name ++ 95 :: up a.name = s.name.upr ++ sU ++ a.name.upr := by
    rw [upr_up (hw.setIds s hs), upr_up (hw.sattrs s hs a ha).wf]; simp [sU]
  rw [e]
  constructor
  · rintro ⟨m, hm, hnm⟩
    exact access_set hw hc s hs a ha m hm n hn hnm o ho
  · intro hno
    exact access_set_other hw hc s hs a ha n hn hno o ho

example : WfProg ngProg ∧ (∃ h, compile ngProg = .ok h) ∧ ngNode ∈ ngProg.nodes ∧
    (∃ s ∈ ngProg.sets, (∃ m ∈ s.members, SameName ngNode.name.orig m.orig) ∧ s.attrs ≠ []) ∧
    NodeOf ngNode (newObj [65] [97]) :=
  ⟨ngWf, ⟨_, compile_plain ngWf ngPlain⟩, by simp [ngProg, ngNode],
    ⟨⟨mkId ngExpr, [mkId ngA, mkId ngB], [⟨mkId ngTyp, .string, none, false, false, true⟩]⟩, by simp [ngProg],
      ⟨mkId ngA, by simp, rfl⟩, by simp⟩, by unfold NodeOf; decide⟩

end Verif.Props
