import Verif.Spec.EvalGen
import Verif.Spec.Ids
import Verif.Model.VisitGen

/-!
# Specification: what a visit is meant to do

Only the data types of specifications and of worlds (`World`, `RVal`) are shared with the model.
-/

namespace Verif.Spec.VisitGen
open Verif.Str Verif.Ids Verif.EvalGen Verif.Spec.EvalGen Verif.Spec.Ids
open Verif.VisitGen (Visit Alt Elem World RVal)

/-- An attribute of the node itself or of a child. -/
abbrev Key := Option CStr × CStr

/-- The attribute a reference means. -/
def keyOf (a : ARef) : Key := (a.inode.map Id.lwr, a.iattr.lwr)

/-- The attribute of a child that an input or output of its visit means. -/
def childKey (c : Child) (a : ARef) : Key := (some c.name.lwr, a.iattr.lwr)

/-- The values that are known during a visit. -/
abbrev Known (V : Type) := Key → Option V

/-- One more value is known. -/
def Known.put {V : Type} (K : Known V) (k : Key) (x : V) : Known V := fun k' => if k' = k then some x else K k'

/-- More values are known. -/
def Known.putAll {V : Type} (K : Known V) : List Key → List V → Known V
  | k :: ks, x :: xs => Known.putAll (K.put k x) ks xs
  | _, _ => K

/-- All of them, or the first failure. -/
def allOk {α : Type} : List (Res α) → Res (List α)
  | [] => .ok []
  | x :: rest => do
    let a ← x
    let l ← allOk rest
    .ok (a :: l)

/-- A value that has to be known. -/
def need {V : Type} (K : Known V) (k : Key) : Res V :=
  match K k with
  | some x => .ok x
  | none => .ub "not computed"

/-- The equation of an attribute. -/
def equationFor (n : Node) (a : ARef) : Option Equation := n.equations.find? fun e => decide (keyOf e.rule = keyOf a)

/-- The name of the function of a visit. -/
def fnOf (v : Visit) : CStr := [67, 67, 78, 118, 105, 115, 105, 116, 95] ++ v.inode.lwr ++ [95] ++ Cti.decNat v.index

/-- The node type an alternative is for, as a constant in C. -/
def typeOf : Alt → CStr
  | .visit v => [78, 84, 95] ++ v.inode.upr
  | .dummy i => [78, 84, 95] ++ i.upr

/-- The name of a variable or member for an attribute. -/
def keyText (k : Key) : CStr := k.1.getD [116, 104, 105, 115] ++ [95] ++ k.2

/-- The values a visit function returns, in the order of its outputs: no output is returned as nothing, one as it is,
several as a structure with a member for each. -/
def unpack {V : Type} (outputs : List ARef) (r : RVal V) : Option (List V) :=
  match outputs, r with
  | [], .void => some []
  | [_], .one x => some [x]
  | _ :: _ :: _, .struct fs => if fs.map (·.1) = outputs.map (fun a => keyText (none, a.iattr.lwr)) then some (fs.map (·.2)) else none
  | _, _ => none

/-- The evaluation of an attribute: the function of its equation for the children that are missing is called with the
values of the arguments; the value is known from then on, and stored if the attribute is of the node itself. -/
def evalMeaning {σ V : Type} (W : World σ V) (n : Node) (a : ARef) (K : Known V) (s : σ) : Res (Known V × σ) :=
  match equationFor n a with
  | none => .abort "no equation"
  | some e => do
    let call := wantedCall n e.rule e fun c => W.isNull s (access n c)
    let xs ← allOk (call.args.map (W.reading s))
    let (x, s) ← W.evalFn call.fn xs s
    let s ← if a.inode = none then W.storing n.name.lwr a.iattr.lwr x s else .ok s
    .ok (K.put (keyOf a) x, s)

/-- The visit of a child: if it is missing, nothing is done; otherwise the visit function of its node type is called with
the values of the inputs, and the outputs are known from then on.  A node type that needs no visit is left alone. -/
def visitMeaning {σ V : Type} (W : World σ V) (n : Node) (c : Child) (alts : List Alt) (K : Known V) (s : σ) :
    Res (Known V × σ) :=
  if W.isNull s (access n c) then
    if c.mandatory then .ub "NODE_TYPE(NULL)" else .ok (K, s)
  else
    match alts.find? fun x => typeOf x == W.nodeType s (access n c) with
    | none => .abort "Problem in visit"
    | some (.dummy _) => .ok (K, s)
    | some (.visit v) => do
      let xs ← allOk (v.inputs.map fun a => need K (childKey c a))
      let (r, s) ← W.visitFn (fnOf v) (access n c) xs s
      match unpack v.outputs r with
      | none => .abort "incompatible types"
      | some ys => .ok (K.putAll (v.outputs.map (childKey c)) ys, s)

/-- The elements of a sequence one after the other. -/
def seqMeaning {σ V : Type} (W : World σ V) (n : Node) : List Elem → Known V → σ → Res (Known V × σ)
  | [], K, s => .ok (K, s)
  | .eval a :: rest, K, s => do
    let (K, s) ← evalMeaning W n a K s
    seqMeaning W n rest K s
  | .visit c alts :: rest, K, s => do
    let (K, s) ← visitMeaning W n c alts K s
    seqMeaning W n rest K s

/-- The inputs are stored in the node. -/
def storeAll {σ V : Type} (W : World σ V) (n : Node) : List ARef → List V → σ → Res σ
  | a :: as, x :: xs, s => do
    let s ← W.storing n.name.lwr a.iattr.lwr x s
    storeAll W n as xs s
  | _, _, s => .ok s

/-- A visit: the inputs are stored in the node, the sequence is run, the outputs are the result. -/
def visitRun {σ V : Type} (W : World σ V) (n : Node) (v : Visit) (seq : List Elem) (args : List V) (s : σ) :
    Res (List V × σ) := do
  let s ← storeAll W n v.inputs args s
  let (K, s) ← seqMeaning W n seq (Known.putAll (fun _ => none) (v.inputs.map keyOf) args) s
  let ys ← allOk (v.outputs.map fun a => need K (keyOf a))
  .ok (ys, s)

/-- The result of a function as the result of the visit it stands for. -/
def asResult {σ V : Type} (v : Visit) : Res (RVal V × σ) → Res (Option (List V) × σ)
  | .ok (r, s) => .ok (unpack v.outputs r, s)
  | .ub w => .ub w
  | .abort w => .abort w
  | .diverge => .diverge

/-- The visit functions of a world return what is declared. -/
def Honest {σ V : Type} (vs : List Visit) (W : World σ V) : Prop :=
  ∀ v ∈ vs, ∀ expr xs s r s', W.visitFn (fnOf v) expr xs s = .ok (r, s') → (unpack v.outputs r).isSome = true

/-! ### Sequences that make sense -/

/-- The visits among alternatives. -/
def visitsOf (alts : List Alt) : List Visit := alts.filterMap fun
  | .visit v => some v
  | .dummy _ => none

/-- The visits of all children in a sequence, with the child and the alternatives. -/
def childVisits (seq : List Elem) : List (Child × List Alt) := seq.filterMap fun
  | .visit c alts => some (c, alts)
  | .eval _ => none

/-- The attributes that are evaluated in a sequence. -/
def evals (seq : List Elem) : List ARef := seq.filterMap fun
  | .eval a => some a
  | .visit _ _ => none

/-- The variables an element declares: the attribute, or the outputs of the first alternative. -/
def elemVars : Elem → List CStr
  | .eval a => [keyText (keyOf a)]
  | .visit c (.visit v :: _) => v.outputs.map fun a => keyText (childKey c a)
  | .visit _ _ => []

/-- All variables for attributes in the function of a visit. -/
def variables (v : Visit) (seq : List Elem) : List CStr :=
  v.inputs.map (fun a => keyText (keyOf a)) ++ seq.flatMap elemVars

/-- The visits that return a structure into the outermost block: of a child that is always there and of one type, with
several outputs. -/
def structs (seq : List Elem) : List Visit := seq.filterMap fun
  | .visit c [.visit v] => if c.mandatory ∧ 2 ≤ v.outputs.length then some v else none
  | _ => none

/-- The attributes of a visit are those of the node itself, and no output is listed twice. -/
def VisitOk (v : Visit) : Prop :=
  (∀ a ∈ v.inputs ++ v.outputs, a.inode = none) ∧ (v.outputs.map fun a => a.iattr.lwr).Nodup

/-- Different visits have a different node type or index. -/
def Apart (vs : List Visit) : Prop := vs.Pairwise fun v w => v.inode.lwr = w.inode.lwr → v.index ≠ w.index

/-- An attribute that is evaluated has an equation, which speaks of children that exist. -/
def EvalOk (n : Node) (a : ARef) : Prop :=
  (a.inode = none → a.syn = true) ∧ (∀ i, a.inode = some i → WfId i) ∧
    ∃ e ∈ n.equations, SameRef a e.rule ∧ Resolved n e ∧ (optionals n e).length < 64

/-- A chain of alternatives starts with a visit; if any alternative has outputs, the first has. -/
def AltsOk (vs : List Visit) (alts : List Alt) : Prop :=
  (∃ v rest, alts = .visit v :: rest ∧ ∀ w ∈ visitsOf alts, w.outputs ≠ [] → v.outputs ≠ []) ∧
    ∀ w ∈ visitsOf alts, w ∈ vs

/-- A visit that can be generated.  `vs` are all visits of the specification. -/
structure SeqOk (vs : List Visit) (n : Node) (v : Visit) (seq : List Elem) : Prop where
  /-- Nothing is computed twice, and no two attributes get the same variable. -/
  names : (variables v seq).Nodup
  /-- The variable of the structure that is returned is no other variable. -/
  result : 2 ≤ v.outputs.length → [118, 105, 115, 105, 116, 95, 111, 117, 116, 112, 117, 116] ∉ variables v seq
  /-- No visit with several outputs is called twice in the outermost block. -/
  once : (structs seq).Pairwise fun v w => v.inode.lwr = w.inode.lwr → v.index ≠ w.index
  /-- The visits are declared. -/
  mem : v ∈ vs
  apart : Apart vs
  visits : ∀ w ∈ vs, VisitOk w
  /-- The equations of the node. -/
  unique : Unique n
  distinct : Distinct n
  evalOk : ∀ a ∈ evals seq, EvalOk n a
  /-- The visits of children. -/
  altsOk : ∀ p ∈ childVisits seq, WfId p.1.name ∧ AltsOk vs p.2
  /-- Inputs of the visit of a child are evaluated before. -/
  before : ∀ pre c alts post, seq = pre ++ .visit c alts :: post → ∀ w ∈ visitsOf alts, ∀ a ∈ w.inputs,
    ∃ b ∈ evals pre, keyOf b = childKey c a
  /-- Outputs are evaluated. -/
  outs : ∀ o ∈ v.outputs, ∃ b ∈ evals seq, keyOf b = keyOf o
  /-- What the visit of a child computes, the node does not compute. -/
  sep : ∀ b ∈ evals seq, ∀ p ∈ childVisits seq, ∀ w ∈ visitsOf p.2, ∀ o ∈ w.outputs, keyOf b ≠ childKey p.1 o

/-- The attributes an element computes: the one it evaluates, or the outputs of the first visit. -/
def elemKeys : Elem → List Key
  | .eval a => [keyOf a]
  | .visit c alts =>
    match visitsOf alts with
    | v :: _ => v.outputs.map (childKey c)
    | [] => []

/-- An input that the visits of all alternatives have; inherited attributes of a nodeset are such inputs, further ones of a
member are not, and no equation can compute them for a child of the nodeset. -/
def Shared (alts : List Alt) (a : ARef) : Prop := ∀ w ∈ visitsOf alts, ∃ b ∈ w.inputs, b.iattr.lwr = a.iattr.lwr

/-- A visit one expects to be able to generate: every attribute is computed once, the inputs that visits of a child share
are computed before, the children are different and exist, some alternative is a visit, and the visits are declared. -/
structure Sensible (vs : List Visit) (n : Node) (v : Visit) (seq : List Elem) : Prop where
  keys : (v.inputs.map keyOf ++ seq.flatMap elemKeys).Nodup
  children : (n.children.map fun c => c.name.lwr).Nodup
  mem : v ∈ vs
  apart : Apart vs
  visits : ∀ w ∈ vs, VisitOk w
  unique : Unique n
  distinct : Distinct n
  evalOk : ∀ a ∈ evals seq, EvalOk n a
  alts : ∀ p ∈ childVisits seq, WfId p.1.name ∧ p.1 ∈ n.children ∧ visitsOf p.2 ≠ [] ∧ ∀ w ∈ visitsOf p.2, w ∈ vs
  before : ∀ pre c alts post, seq = pre ++ .visit c alts :: post → ∀ w ∈ visitsOf alts, ∀ a ∈ w.inputs,
    Shared alts a → ∃ b ∈ evals pre, keyOf b = childKey c a
  outs : ∀ o ∈ v.outputs, ∃ b ∈ evals seq, keyOf b = keyOf o
  sep : ∀ b ∈ evals seq, ∀ p ∈ childVisits seq, ∀ w ∈ visitsOf p.2, ∀ o ∈ w.outputs, keyOf b ≠ childKey p.1 o

end Verif.Spec.VisitGen
