import Verif.Spec.Evaluate
import Verif.Spec.VisitGen
import Verif.Model.Evaluator

/-!
# Specification of the attribute evaluator

What the equations of a tree say, without visits and sequences.  From the model only data types are used, and the functions that
give types, children and references their names.
-/

namespace Verif.Spec.Evaluator
open Verif.Str Verif.Ids Verif.Induce Verif.Schedule Verif.Spec.Induce Verif.Spec.AttrTree Verif.Spec.Evaluate Verif.Evaluator
open Verif.Spec.Ids (WfId)
open Verif.Spec.EvalGen (fnName optionals)
open Verif.Spec.VisitGen (SeqOk Key keyText)

/-- The values of the arguments of an equation: those of children that are missing are left out. -/
inductive Gets {V : Type} (n : INode) (kids : Nat → Tree) (z : Vertex → Option V) : List Ref → List V → Prop where
  | nil : Gets n kids z [] []
  | missing {d c rest xs} : d.child = some c → kids c = .null → Gets n kids z rest xs → Gets n kids z (d :: rest) xs
  | value {d u x rest xs} : Means n kids d u → z u = some x → Gets n kids z rest xs → Gets n kids z (d :: rest) (x :: xs)

/-- The function of the user for an equation: its name tells which of the optional children that the equation uses are
missing. -/
def userFn (D : Names) (S : Spec) (n : INode) (kids : Nat → Tree) (q : Eqn) : CStr :=
  fnName (toNode D S n) (toRef D S n q.rule)
    ((optionals (toNode D S n) ⟨toRef D S n q.rule, q.args.map (toRef D S n)⟩).filter fun c =>
      match kids c.addr.toNat with
      | .null => true
      | .node _ _ => false)

/-- All equations of a tree hold: the value of an attribute is that of the function for the values of the arguments. -/
def Holds {V : Type} (D : Names) (S : Spec) (user : CStr → List V → V) : Tree → (Vertex → Option V) → Prop
  | .null, _ => True
  | .node n kids, z =>
    (∀ q ∈ n.eqs, ∀ v, Means n kids q.rule v → ∃ xs, Gets n kids z q.args xs ∧ z v = some (user (userFn D S n kids q) xs)) ∧
    ∀ c ∈ n.children, Holds D S user (kids c.addr) fun v => z (c.addr :: v.1, v.2)

/-- The attributes of a tree, computed or not. -/
inductive Has : Tree → Vertex → Prop where
  | root {n kids x} : x ∈ n.attrs → Has (.node n kids) ([], x.addr)
  | deeper {n kids c v} : c ∈ n.children → Has (kids c.addr) v → Has (.node n kids) (c.addr :: v.1, v.2)

/-- `z` is what evaluating a tree means: all equations hold, all attributes have a value, and nothing but the attributes to
compute has changed. -/
structure Solution {V : Type} (D : Names) (S : Spec) (user : CStr → List V → V) (T : Tree) (s z : Vertex → Option V) : Prop where
  holds : Holds D S user T z
  total : ∀ v, Has T v → z v ≠ none
  rest : ∀ v, ¬ InTree T v → z v = s v

/-- Mandatory children are there. -/
def Complete (D : Names) : Tree → Prop
  | .null => True
  | .node n kids => ∀ c ∈ n.children, (D.mandatory c.addr = true → kids c.addr ≠ .null) ∧ Complete D (kids c.addr)

/-- The names fit the specification.  They are names of identifiers, so they have no parenthesis. -/
structure Named (D : Names) (S : Spec) : Prop where
  attr : ∀ x ∈ attributes S, (D.attr x.addr).lwr = x.name
  wfAttr : ∀ a, WfId (D.attr a)
  wfChild : ∀ c, WfId (D.child c)
  wfType : ∀ t, WfId (D.type t)
  noParen : ∀ a, (40 : UInt8) ∉ (D.type a).upr ∧ (40 : UInt8) ∉ (D.attr a).upr ∧ (40 : UInt8) ∉ (D.child a).upr
  /-- Node types have different names. -/
  types : ∀ n ∈ S.nodes, ∀ m ∈ S.nodes, (D.type n.addr).lwr = (D.type m.addr).lwr → n = m
  /-- The children of a node have different names. -/
  children : ∀ n ∈ S.nodes, ∀ c ∈ n.children, ∀ d ∈ n.children, (D.child c.addr).lwr = (D.child d.addr).lwr → c = d
  /-- Addresses are pointers. -/
  size : ∀ n ∈ S.nodes, ∀ c ∈ n.children, c.addr < 2 ^ 64

/-- What the check of equations establishes for attributes that are not computed. -/
structure Classic (S : Spec) : Prop where
  args : ∀ n ∈ S.nodes, ∀ q ∈ n.eqs, ∀ d ∈ q.args, Resolved S n d
  members : ∀ s ∈ S.sets, ∀ m ∈ s.members, ∀ a ∈ s.attrs, ∃ b ∈ m.attrs, b.name = a.name ∧ b.inh = a.inh ∧ b.syn = a.syn

/-- No equation uses an inherited attribute of a child. -/
def UsesNoInherited (S : Spec) : Prop :=
  ∀ n ∈ S.nodes, ∀ q ∈ n.eqs, ∀ d ∈ q.args, d.child ≠ none → d.attr.inh = false

/-- No node has two equations for the same attribute. -/
def OneEach (S : Spec) : Prop := ∀ n ∈ S.nodes, (n.eqs.map fun q => place n q.rule).Nodup

/-- The attributes that are not computed have values. -/
def Given {V : Type} (T : Tree) (s : Vertex → Option V) : Prop := ∀ v, Has T v → ¬ InTree T v → s v ≠ none

/-- All visits of the specification. -/
def allVisits (D : Names) (S : Spec) (P : Plan) : List VisitGen.Visit :=
  S.nodes.flatMap fun n => ((P.visits n.addr).getD []).mapIdx fun i v => toVisit D S n.addr i v

/-- The visits can be generated (`C55`). -/
def Generable (D : Names) (S : Spec) (P : Plan) : Prop :=
  ∀ n ∈ S.nodes, ∀ vs, P.visits n.addr = some vs → ∀ seqs, P.seqs n.addr = some seqs → ∀ (i : Nat) v seq,
    vs[i]? = some v → seqs[i]? = some seq → ∀ es, toElems D S P n seq = .ok es →
    SeqOk (allVisits D S P) (toNode D S n) (toVisit D S n.addr i v) es

/-- The attributes that the visit functions of a node have variables for: those of the node and of the types of its children. -/
inductive VarKey (D : Names) (S : Spec) (n : INode) : Key → Prop where
  | own {x} : x ∈ n.attrs → (x.inh ∨ x.syn) → VarKey D S n (none, x.name)
  | child {c x} : c ∈ n.children →
      ((∃ m ∈ S.nodes, m.addr = c.type ∧ x ∈ m.attrs) ∨ (∃ s ∈ S.sets, s.addr = c.type ∧ x ∈ s.attrs)) → (x.inh ∨ x.syn) →
      VarKey D S n (some (D.child c.addr).lwr, x.name)

/-- Nodes of this type are all that a child of that type can be. -/
def Only (S : Spec) (t : Nat) (m : INode) : Prop := m.addr = t ∨ ∃ s ∈ S.sets, s.addr = t ∧ s.members = [m]

/-- Specifications without what the generator of visit functions cannot deal with. -/
structure Plain (D : Names) (S : Spec) (P : Plan) : Prop where
  /-- Different attributes get different variables. -/
  texts : ∀ n ∈ S.nodes, ∀ k k', VarKey D S n k → VarKey D S n k' → keyText k = keyText k' → k = k'
  result : ∀ n ∈ S.nodes, ∀ k, VarKey D S n k → keyText k ≠ [118, 105, 115, 105, 116, 95, 111, 117, 116, 112, 117, 116]
  this : ∀ n ∈ S.nodes, ∀ c ∈ n.children, (D.child c.addr).lwr ≠ [116, 104, 105, 115]
  /-- The number of optional children is counted with 64 bits. -/
  few : ∀ n ∈ S.nodes, n.children.length < 64
  /-- The computed attributes of the members of nodesets are those of the nodeset. -/
  exact : ∀ s ∈ S.sets, ∀ m ∈ s.members, ∀ b ∈ m.attrs, (b.inh ∨ b.syn) →
    ∃ a ∈ s.attrs, a.name = b.name ∧ a.inh = b.inh ∧ a.syn = b.syn
  /-- No node has two mandatory children of the same type that has several synthesized attributes. -/
  structs : ∀ n ∈ S.nodes, ∀ c ∈ n.children, ∀ d ∈ n.children, c ≠ d → D.mandatory c.addr = true → D.mandatory d.addr = true →
    ∀ m ∈ S.nodes, Only S c.type m → Only S d.type m → (m.attrs.filter (·.syn)).length ≤ 1
  /-- The members of nodesets that have visits have visits. -/
  even : ∀ s ∈ S.sets, ∀ m ∈ s.members, P.visits m.addr = some [] → P.visits s.addr = some []

/-- The evaluation of a tree can start at its root: it has visits, and no inherited attributes. -/
def CanStart (P : Plan) : Tree → Prop
  | .null => False
  | .node n _ => P.visits n.addr ≠ some [] ∧ ∀ x ∈ n.attrs, x.inh = false

end Verif.Spec.Evaluator
