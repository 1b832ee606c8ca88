import Verif.Lemmas.VisitGenCompile

/-!
# Properties C55 and C56: the functions generated for visits

`C55`: a C compiler accepts them.  `C56`: they do what the sequence of the visit says.
-/

namespace Verif.Props
open Verif.Str Verif.Ids Verif.EvalGen Verif.Spec.EvalGen Verif.Spec.Ids Verif.VisitGen Verif.Spec.VisitGen

/-! ### Samples -/

/-- An attribute of the node itself, for lists of inputs and outputs. -/
def own (attr : CStr) (syn : Bool) : ARef := ⟨none, mkId attr, mkId [116], [105, 110, 116], syn⟩

/-- A computable form of the condition on inputs of visits of children, for the inputs `p` says. -/
def inputsBefore (p : List Alt → ARef → Bool) : List Elem → List Elem → Bool
  | _, [] => true
  | pre, .eval a :: rest => inputsBefore p (pre ++ [.eval a]) rest
  | pre, .visit c alts :: rest =>
    ((visitsOf alts).all fun w => w.inputs.all fun a =>
      !p alts a || (evals pre).any fun b => decide (keyOf b = childKey c a)) && inputsBefore p (pre ++ [.visit c alts]) rest

theorem inputsBefore_ok (p : List Alt → ARef → Bool) (rest done : List Elem) (h : inputsBefore p done rest = true) :
    ∀ pre c alts post, rest = pre ++ .visit c alts :: post → ∀ w ∈ visitsOf alts, ∀ a ∈ w.inputs, p alts a = true →
      ∃ b ∈ evals (done ++ pre), keyOf b = childKey c a := by
  induction rest generalizing done with
  | nil => intro pre c alts post e; simp at e
  | cons x rest ih =>
    intro pre c alts post e w hw a ha hp
    cases pre with
    | nil =>
      rw [List.nil_append, List.cons.injEq] at e
      obtain ⟨rfl, _⟩ := e
      simp only [inputsBefore, Bool.and_eq_true, List.all_eq_true, Bool.or_eq_true, List.any_eq_true, decide_eq_true_eq] at h
      rcases h.1 w hw a ha with h1 | h1
      · rw [hp] at h1
        cases h1
      · simpa using h1
    | cons y pre =>
      rw [List.cons_append, List.cons.injEq] at e
      obtain ⟨rfl, e⟩ := e
      have h' : inputsBefore p (done ++ [x]) rest = true := by
        cases x with
        | eval a => exact h
        | visit c alts => simp only [inputsBefore, Bool.and_eq_true] at h; exact h.2
      have := ih (done ++ [x]) h' pre c alts post e w hw a ha hp
      simpa using this

/-- A computable form of `Shared`. -/
def sharedB (alts : List Alt) (a : ARef) : Bool :=
  (visitsOf alts).all fun w => w.inputs.any fun b => decide (b.iattr.lwr = a.iattr.lwr)

theorem sharedB_ok {alts : List Alt} {a : ARef} (h : Shared alts a) : sharedB alts a = true := by
  unfold sharedB
  rw [List.all_eq_true]
  intro w hw
  obtain ⟨b, hb, e⟩ := h w hw
  rw [List.any_eq_true]
  exact ⟨b, hb, by simpa using e⟩

/-- The visit of node type `A` in the sample: input `x`, outputs `y` and `z`. -/
def vA : Visit := ⟨mkId [65], 0, [own [120] false], [own [121] true, own [122] true]⟩

/-- A visit of node type `B`: no input, output `y`. -/
def vB : Visit := ⟨mkId [66], 0, [], [own [121] true]⟩

/-- The visit of the node of the sample: input `e`, outputs `s` and `t`. -/
def vN : Visit := ⟨mkId [78], 0, [own [101] false], [own [115] true, own [116] true]⟩

/-- The children of the sample: `l` can be of several types, `o` is optional, `m` is of type `A`. -/
def chL : Child := ⟨64, mkId [108], true⟩
def chO : Child := ⟨32, mkId [111], false⟩
def chM : Child := ⟨96, mkId [109], true⟩

/-- The node of the sample, with `l.x = f(this.e)`, `o.x = f()`, `m.x = f(l.y)`, `this.s = f(l.y, o.y)` and
`this.t = f(m.z)`. -/
def vNode : Node :=
  ⟨mkId [78], [chL, chO, chM],
    [⟨sref (some [108]) [120], [sref none [101]]⟩, ⟨sref (some [111]) [120], []⟩,
      ⟨sref (some [109]) [120], [sref (some [108]) [121]]⟩,
      ⟨sref none [115], [sref (some [108]) [121], sref (some [111]) [121]]⟩,
      ⟨sref none [116], [sref (some [109]) [122]]⟩]⟩

/-- The sequence of the visit of the sample. -/
def vSeq : List Elem :=
  [.eval (sref (some [108]) [120]), .visit chL [.visit vA, .dummy (mkId [67]), .visit vB],
    .eval (sref (some [109]) [120]), .visit chM [.visit vA], .eval (sref (some [111]) [120]), .visit chO [.visit vA],
    .eval (sref none [116]), .eval (sref none [115])]

theorem mkId_wf (s : CStr) : WfId (mkId s) := ⟨rfl, rfl⟩

/-- Evaluation is possible if an equation is found and its children exist. -/
theorem evalOk_of {n : Node} {a : ARef} (h1 : a.inode = none → a.syn = true) (h2 : ∀ i, a.inode = some i → WfId i)
    (h3 : ∃ e ∈ n.equations, (a.inode.map Id.lwr = e.rule.inode.map Id.lwr ∧ a.iattr.lwr = e.rule.iattr.lwr) ∧
      (∀ b ∈ e.args, ∀ i ∈ b.inode, ∃ c ∈ n.children, c.name.lwr = i.lwr) ∧ (optionals n e).length < 64) : EvalOk n a := by
  obtain ⟨e, he, hs, hr, hk⟩ := h3
  exact ⟨h1, h2, e, he, hs, fun b hb i hi => hr b hb i hi, hk⟩

theorem vSeq_ok : SeqOk [vA, vB, vN] vNode vN vSeq where
  names := by decide
  result := by decide
  once := by decide
  mem := by decide
  apart := by unfold Apart; decide
  visits := by unfold VisitOk; decide
  unique := by
    refine ⟨by unfold SameRef; decide, ?_⟩
    have : ∀ e ∈ vNode.equations, ∀ i ∈ e.rule.inode, i.lwr ≠ [116, 104, 105, 115] := by decide
    exact fun e he i hi => this e he i hi
  distinct := by unfold Distinct; decide
  evalOk := by
    intro a ha
    have : ∀ a ∈ evals vSeq, (a.inode = none → a.syn = true) ∧
        ∃ e ∈ vNode.equations, (a.inode.map Id.lwr = e.rule.inode.map Id.lwr ∧ a.iattr.lwr = e.rule.iattr.lwr) ∧
          (∀ b ∈ e.args, ∀ i ∈ b.inode, ∃ c ∈ vNode.children, c.name.lwr = i.lwr) ∧ (optionals vNode e).length < 64 := by
      decide
    obtain ⟨h1, h3⟩ := this a ha
    have hw : ∀ a ∈ evals vSeq, ∀ i ∈ a.inode, WfId i := by unfold WfId; decide
    exact evalOk_of h1 (fun i hi => hw a ha i hi) h3
  altsOk := by
    intro p hp
    have : p ∈ [(chL, [Alt.visit vA, .dummy (mkId [67]), .visit vB]), (chM, [.visit vA]), (chO, [.visit vA])] := hp
    simp only [List.mem_cons, List.not_mem_nil, or_false] at this
    rcases this with rfl | rfl | rfl
    · exact ⟨mkId_wf _, ⟨vA, _, rfl, by decide⟩, by decide⟩
    · exact ⟨mkId_wf _, ⟨vA, _, rfl, by decide⟩, by decide⟩
    · exact ⟨mkId_wf _, ⟨vA, _, rfl, by decide⟩, by decide⟩
  before pre c alts post e w hw a ha := by
    simpa using inputsBefore_ok (fun _ _ => true) vSeq [] (by decide) pre c alts post e w hw a ha rfl
  outs := by decide
  sep := by decide

/-! ### C55: a C compiler accepts the functions -/

/-- C55, partial: the function of a visit is generated without an error, and a C compiler accepts it together with the
declarations of the header: no variable is declared twice in a block, every variable that is used is declared, every
function and structure that is used is declared, calls have the right number of arguments, and results go to variables of
the right kind.  Missing: that every specification the frontend accepts meets `SeqOk`, which is false
(`C55_compile_false` and below), and the types of attributes. -/
theorem C55_compile_partial (vs : List Visit) (n : Node) (v : Visit) (seq : List Elem) (h : SeqOk vs n v seq) :
    ∃ f, DGVSvisit n v seq = .ok (0, f) ∧ compile (vs.map DGVFvisit) f = .ok () := fn_check h

example : SeqOk [vA, vB, vN] vNode vN vSeq := vSeq_ok

example : (match DGVSvisit vNode vN vSeq with
    | .ok (k, f) => decide (k = 0) && decide (compile ([vA, vB, vN].map DGVFvisit) f = .ok ()) && decide (f.body.length = 15)
    | _ => false) = true := by decide +kernel

/-! ### C56: the functions do what the sequence says -/

/-- C56, partial: running the function of a visit is the same as doing what its sequence says: the inputs are stored in
the node; every evaluation calls the function for the missing children with the values of its arguments, and stores
attributes of the node; every visit of a child is left out if the child is missing, and otherwise calls the function for
the type of the child with the attributes computed for it, and takes all its results; the outputs are returned.  This
holds for failures as well: they occur at the same point.  Missing: as for `C55_compile_partial`. -/
theorem C56_run_partial {σ V : Type} (W : World σ V) (vs : List Visit) (n : Node) (v : Visit) (seq : List Elem) (f : Fn)
    (k : Nat) (hW : Honest vs W) (h : SeqOk vs n v seq) (hf : DGVSvisit n v seq = .ok (k, f)) (args : List V)
    (hargs : args.length = v.inputs.length) (s : σ) :
    asResult v (runFn W f args s) = (visitRun W n v seq args s >>= fun p => .ok (some p.1, p.2)) := by
  obtain ⟨_, hsim⟩ := fn_sim hW h hf args hargs s
  revert hsim
  generalize runFn W f args s = x
  generalize visitRun W n v seq args s = y
  intro hsim
  cases hsim with
  | ok hab =>
    rename_i a b
    obtain ⟨h1, h2⟩ := hab
    simp only [asResult, Res.bind_ok, h1, h2]
  | ub w => rfl
  | abort w => rfl
  | diverge => rfl

/-- A world for the sample: states are lists of numbers, to which every evaluation and visit adds one; `o` is missing. -/
def sampleWorld : World (List Nat) Nat where
  isNull _ e := e == [78, 95, 79, 40, 110, 111, 100, 101, 41]
  nodeType _ e := if e = [78, 95, 76, 40, 110, 111, 100, 101, 41] then [78, 84, 95, 66] else [78, 84, 95, 65]
  reading _ _ := .ok 7
  evalFn _ xs s := .ok (xs.length + 10, s ++ [xs.length])
  visitFn fn _ xs s :=
    if fn = fnOf vA then .ok (.struct [([116, 104, 105, 115, 95, 121], xs.sum), ([116, 104, 105, 115, 95, 122], 5)], s ++ [100])
    else if fn = fnOf vB then .ok (.one 6, s ++ [200])
    else .ok (.struct [([116, 104, 105, 115, 95, 115], 0), ([116, 104, 105, 115, 95, 116], 1)], s)
  storing _ _ x s := .ok (s ++ [1000 + x])

theorem sampleWorld_ok : Honest [vA, vB, vN] sampleWorld := by
  intro v hv expr xs s r s' h
  simp only [List.mem_cons, List.not_mem_nil, or_false] at hv
  have hAB : fnOf vB ≠ fnOf vA := by decide +kernel
  have hAN : fnOf vN ≠ fnOf vA := by decide +kernel
  have hBN : fnOf vN ≠ fnOf vB := by decide +kernel
  rcases hv with rfl | rfl | rfl
  · simp only [sampleWorld, if_pos] at h
    cases h
    rfl
  · simp only [sampleWorld, if_neg hAB, if_pos] at h
    cases h
    rfl
  · simp only [sampleWorld, if_neg hAN, if_neg hBN] at h
    cases h
    rfl

example : SeqOk [vA, vB, vN] vNode vN vSeq ∧ Honest [vA, vB, vN] sampleWorld ∧ [3].length = vN.inputs.length ∧
    visitRun sampleWorld vNode vN vSeq [3] [] = .ok ([11, 11], [1003, 1, 200, 1, 100, 0, 1, 1011, 1, 1011]) :=
  ⟨vSeq_ok, sampleWorld_ok, rfl, by decide +kernel⟩

/-! ### Specifications for which it fails -/

/-- A computable form of the conditions one expects to be enough. -/
theorem sensible_of {vs : List Visit} {n : Node} {v : Visit} {seq : List Elem}
    (keys : (v.inputs.map keyOf ++ seq.flatMap elemKeys).Nodup) (children : (n.children.map fun c => c.name.lwr).Nodup)
    (mem : v ∈ vs) (apart : vs.Pairwise fun v w => v.inode.lwr = w.inode.lwr → v.index ≠ w.index)
    (visits : ∀ w ∈ vs, (∀ a ∈ w.inputs ++ w.outputs, a.inode = none) ∧ (w.outputs.map fun a => a.iattr.lwr).Nodup)
    (unique : n.equations.Pairwise fun e f =>
      ¬ (e.rule.inode.map Id.lwr = f.rule.inode.map Id.lwr ∧ e.rule.iattr.lwr = f.rule.iattr.lwr))
    (this : ∀ e ∈ n.equations, ∀ i ∈ e.rule.inode, i.lwr ≠ [116, 104, 105, 115])
    (distinct : n.children.Pairwise fun c d => c.addr ≠ d.addr)
    (eval : ∀ a ∈ evals seq, (a.inode = none → a.syn = true) ∧
      (∀ i ∈ a.inode, i.lwr = i.orig.map Spec.Str.lowerB ∧ i.upr = i.orig.map Spec.Str.upperB) ∧
      ∃ e ∈ n.equations, (a.inode.map Id.lwr = e.rule.inode.map Id.lwr ∧ a.iattr.lwr = e.rule.iattr.lwr) ∧
        (∀ b ∈ e.args, ∀ i ∈ b.inode, ∃ c ∈ n.children, c.name.lwr = i.lwr) ∧ (optionals n e).length < 64)
    (alts : ∀ p ∈ childVisits seq, (p.1.name.lwr = p.1.name.orig.map Spec.Str.lowerB ∧
      p.1.name.upr = p.1.name.orig.map Spec.Str.upperB) ∧ p.1 ∈ n.children ∧ visitsOf p.2 ≠ [] ∧ ∀ w ∈ visitsOf p.2, w ∈ vs)
    (before : inputsBefore sharedB [] seq = true) (outs : ∀ o ∈ v.outputs, ∃ b ∈ evals seq, keyOf b = keyOf o)
    (sep : ∀ b ∈ evals seq, ∀ p ∈ childVisits seq, ∀ w ∈ visitsOf p.2, ∀ o ∈ w.outputs, keyOf b ≠ childKey p.1 o) :
    Sensible vs n v seq where
  keys := keys
  children := children
  mem := mem
  apart := apart
  visits := visits
  unique := ⟨unique, fun e he i hi => this e he i hi⟩
  distinct := distinct
  evalOk a ha := evalOk_of (eval a ha).1 (fun i hi => (eval a ha).2.1 i hi) (eval a ha).2.2
  alts := alts
  before pre c alts post e w hw a ha hs := by
    simpa using inputsBefore_ok sharedB seq [] before pre c alts post e w hw a ha (sharedB_ok hs)
  outs := outs
  sep := sep

/-- The visit of node type `E`: no inputs, no outputs. -/
def vE : Visit := ⟨mkId [69], 0, [], []⟩

/-- The visit of node type `G`: no inputs, outputs `y` and `z`. -/
def vG : Visit := ⟨mkId [71], 0, [], [own [121] true, own [122] true]⟩

/-- The visit of a node without inputs and outputs. -/
def vP : Visit := ⟨mkId [78], 0, [], []⟩

/-- A node with two children. -/
def pNode : Node := ⟨mkId [78], [chL, chM], []⟩

/-- The generator itself fails if the first member of a nodeset has no output in a visit and another has one: the list of
the outputs that are wanted is NULL, and `is_desired` looks at its type. -/
theorem C55_first_false : ∃ vs n v seq, Sensible vs n v seq ∧
    DGVSvisit n v seq = .ub "NODE_TYPE(NULL)" :=
  ⟨[vE, vG, vP], pNode, vP, [.visit chL [.visit vE, .visit vG]],
    sensible_of (by decide) (by decide) (by decide) (by decide) (by decide) (by decide) (by decide) (by decide) (by decide)
      (by decide) (by decide) (by decide) (by decide), by decide +kernel⟩

/-- Two children of the same node type whose visit has several outputs: the variable for the structure is declared twice. -/
theorem C55_twice_false : ∃ vs n v seq f, Sensible vs n v seq ∧ DGVSvisit n v seq = .ok (0, f) ∧
    compile (vs.map DGVFvisit) f = .abort "redefinition" :=
  ⟨[vG, vP], pNode, vP, [.visit chL [.visit vG], .visit chM [.visit vG]], _,
    sensible_of (by decide) (by decide) (by decide) (by decide) (by decide) (by decide) (by decide) (by decide) (by decide)
      (by decide) (by decide) (by decide) (by decide), rfl, by decide +kernel⟩

/-- A visit without inputs, and with one output named `b_c`, or `c`, or `output`. -/
def vOne (t : CStr) (o : CStr) : Visit := ⟨mkId t, 0, [], [own o true]⟩

/-- The attribute `c` of a child `a_b` and the attribute `b_c` of a child `a` get the same variable. -/
theorem C55_names_false : ∃ vs n v seq f, Sensible vs n v seq ∧ DGVSvisit n v seq = .ok (0, f) ∧
    compile (vs.map DGVFvisit) f = .abort "redefinition" :=
  ⟨[vOne [69] [99], vOne [71] [98, 95, 99], vP], ⟨mkId [78], [⟨32, mkId [97, 95, 98], true⟩, ⟨64, mkId [97], true⟩], []⟩, vP,
    [.visit ⟨32, mkId [97, 95, 98], true⟩ [.visit (vOne [69] [99])],
      .visit ⟨64, mkId [97], true⟩ [.visit (vOne [71] [98, 95, 99])]], _,
    sensible_of (by decide) (by decide) (by decide) (by decide) (by decide) (by decide) (by decide) (by decide) (by decide)
      (by decide) (by decide) (by decide) (by decide), rfl, by decide +kernel⟩

/-- A child `visit` with an attribute `output` gets the variable of the structure that is returned. -/
theorem C55_result_false : ∃ vs n v seq f, Sensible vs n v seq ∧ DGVSvisit n v seq = .ok (0, f) ∧
    compile (vs.map DGVFvisit) f = .abort "redefinition" :=
  ⟨[vOne [69] [111, 117, 116, 112, 117, 116], vG],
    ⟨mkId [71], [⟨32, mkId [118, 105, 115, 105, 116], true⟩], [⟨sref none [121], []⟩, ⟨sref none [122], []⟩]⟩, vG,
    [.visit ⟨32, mkId [118, 105, 115, 105, 116], true⟩ [.visit (vOne [69] [111, 117, 116, 112, 117, 116])],
      .eval (sref none [121]), .eval (sref none [122])], _,
    sensible_of (by decide) (by decide) (by decide) (by decide) (by decide) (by decide) (by decide) (by decide) (by decide)
      (by decide) (by decide) (by decide) (by decide), rfl, by decide +kernel⟩

/-- A member of a nodeset with an inherited attribute that the nodeset does not have: no equation computes it for a child
of the nodeset, and the call uses a variable that is not declared. -/
theorem C55_input_false : ∃ vs n v seq f, Sensible vs n v seq ∧ DGVSvisit n v seq = .ok (0, f) ∧
    compile (vs.map DGVFvisit) f = .abort "undeclared" :=
  ⟨[vG, vA, vP], pNode, vP, [.visit chL [.visit vG, .visit vA]], _,
    sensible_of (by decide) (by decide) (by decide) (by decide) (by decide) (by decide) (by decide) (by decide) (by decide)
      (by decide) (by decide) (by decide) (by decide), rfl, by decide +kernel⟩

/-- C55 is false without further conditions on the specification. -/
theorem C55_compile_false : ¬ ∀ vs n v seq, Sensible vs n v seq →
    ∃ f, DGVSvisit n v seq = .ok (0, f) ∧ compile (vs.map DGVFvisit) f = .ok () := by
  intro h
  obtain ⟨vs, n, v, seq, f, h1, h2, h3⟩ := C55_twice_false
  obtain ⟨f', h4, h5⟩ := h vs n v seq h1
  rw [h2] at h4
  cases h4
  rw [h3] at h5
  cases h5

/-- A world in which every node is of type `C`. -/
def worldC : World Nat Nat where
  isNull _ _ := false
  nodeType _ _ := [78, 84, 95, 67]
  reading _ _ := .ok 0
  evalFn _ _ s := .ok (0, s)
  visitFn _ _ _ s := .ok (.void, s)
  storing _ _ _ s := .ok s

/-- C56 is false if the first member of a nodeset needs no visit: it is left out of the chain, and a child of that type
stops the program, though nothing is to be done for it. -/
theorem C56_dummy_false : ∃ (vs : List Visit) (n : Node) (v : Visit) (seq : List Elem) (f : Fn), Sensible vs n v seq ∧
    DGVSvisit n v seq = .ok (0, f) ∧ compile (vs.map DGVFvisit) f = .ok () ∧ Honest vs worldC ∧
    visitRun worldC n v seq [] 0 = .ok ([], 0) ∧ runFn worldC f [] 0 = .abort "Problem in visit" := by
  refine ⟨[vE, vP], pNode, vP, [.visit chL [.dummy (mkId [67]), .visit vE]], _,
    sensible_of (by decide) (by decide) (by decide) (by decide) (by decide) (by decide) (by decide) (by decide) (by decide)
      (by decide) (by decide) (by decide) (by decide), rfl, by decide +kernel, ?_, by decide +kernel, by decide +kernel⟩
  intro v hv expr xs s r s' h
  simp only [List.mem_cons, List.not_mem_nil, or_false] at hv
  cases h
  rcases hv with rfl | rfl <;> rfl

end Verif.Props
