import Verif.Model.Visits

/-!
# Specification of visit sequences

A set of items says what has been computed so far: `node i` is the attribute of a graph node, `visit c k` the visit `k` of
the child `c`.
-/

namespace Verif.Spec.Visits
open Verif.Graph Verif.Visits

/-- What has been computed. -/
abbrev Known := Item → Prop

/-- The graph node `p` is the attribute `a` of `o`. -/
def At (e : Env) (o a p : Nat) : Prop := e.g.nodes[p]? = some (o, a)

/-- The attribute `i` depends on the attribute `d`. -/
def DependsOn (g : Graph) (d i : Nat) : Prop :=
  d < g.nodes.length ∧ d ≠ i ∧ (g.edge d i = some .normal ∨ g.edge d i = some .induced)

/-- The visit `k` of the child `c`. -/
def VisitOf (e : Env) (c k : Nat) (v : AVisit) : Prop :=
  ∃ vs, e.visits (e.typeOf c) = some vs ∧ vs[k]? = some v

/-- The alternatives of the visit `k` of `c`: its type, or each member of the nodeset, a member that has no visit `k`
being left alone. -/
def Alternatives (e : Env) (c k : Nat) (alts : List (Nat × Option Nat)) : Prop :=
  match e.members (e.typeOf c) with
  | none => alts = [(e.typeOf c, some k)]
  | some ms => alts.map (·.1) = ms ∧
      ∀ m o, (m, o) ∈ alts → ∃ vs, e.visits m = some vs ∧ (o = some k ↔ k < vs.length) ∧ (o = none ↔ vs.length ≤ k)

/-- One element of a sequence is executed when all it needs is known, computes something new, and makes its results
known. -/
inductive Step (e : Env) : Known → Ev → Known → Prop where
  | eval {S : Known} {i o a : Nat} :
      At e o a i → (o = e.self ∨ e.syn a = false) →
      (∀ d, DependsOn e.g d i → S (.node d)) → ¬ S (.node i) →
      Step e S (.eval i) fun x => S x ∨ x = .node i
  | visit {S : Known} {c k : Nat} {alts : List (Nat × Option Nat)} {v : AVisit} :
      c ∈ e.children → VisitOf e c k v → Alternatives e c k alts → alts ≠ [] →
      (∀ j, j < k → S (.visit c j)) →
      (∀ a, a ∈ v.inputs → ∃ p, At e c a p ∧ S (.node p)) → ¬ S (.visit c k) →
      Step e S (.visit c k alts) fun x => S x ∨ x = .visit c k ∨ ∃ a p, a ∈ v.outputs ∧ At e c a p ∧ x = .node p

/-- A sequence is executed from left to right. -/
inductive Runs (e : Env) : Known → List Ev → Known → Prop where
  | nil {S : Known} : Runs e S [] S
  | cons {S T U : Known} {ev : Ev} {evs : List Ev} : Step e S ev T → Runs e T evs U → Runs e S (ev :: evs) U

/-- The inputs of a visit of the node itself become known. -/
def withInputs (e : Env) (v : AVisit) (S : Known) : Known :=
  fun x => S x ∨ ∃ a p, a ∈ v.inputs ∧ At e e.self a p ∧ x = .node p

/-- All visits of a node one after the other: the parent provides the inputs, the sequence is executed, and the outputs
are known. -/
inductive Plays (e : Env) : Known → List AVisit → List (List Ev) → Known → Prop where
  | nil {S : Known} : Plays e S [] [] S
  | cons {S T U : Known} {v : AVisit} {vs : List AVisit} {seq : List Ev} {seqs : List (List Ev)} :
      Runs e (withInputs e v S) seq T → (∀ a, a ∈ v.outputs → ∃ p, At e e.self a p ∧ T (.node p)) →
      Plays e T vs seqs U → Plays e S (v :: vs) (seq :: seqs) U

/-- The graph nodes belong to the node and its children. -/
def Owned (e : Env) : Prop := ∀ o a p, At e o a p → o ≠ e.self → o ∈ e.children

/-- The node has an equation for the graph node: it is a synthesized attribute of the node itself or an inherited
attribute of a child. -/
def HasEquation (e : Env) (i : Nat) : Prop :=
  ∃ o a, At e o a i ∧ ((o = e.self ∧ e.syn a = true) ∨ (o ≠ e.self ∧ e.syn a = false))

end Verif.Spec.Visits

namespace Verif.Spec.Visits
open Verif.Graph Verif.Visits

/-- The item that makes the attribute `d` known: the evaluation, or, for a synthesized attribute of a child, a visit of
the child that has it as an output. -/
inductive Provides (e : Env) (d : Nat) : Item → Prop where
  | eval {o a : Nat} : At e o a d → (o = e.self ∨ e.syn a = false) → Provides e d (.node d)
  | visit {o a k : Nat} {v : AVisit} : At e o a d → o ≠ e.self → e.syn a = true → VisitOf e o k v → a ∈ v.outputs →
      Provides e d (.visit o k)

/-- `y` has to come before `x`. -/
inductive Requires (e : Env) : Item → Item → Prop where
  | dep {i d : Nat} {y : Item} : DependsOn e.g d i → Provides e d y → Requires e (.node i) y
  | prev {c k j : Nat} : j < k → Requires e (.visit c k) (.visit c j)
  | input {c k a p : Nat} {v : AVisit} {y : Item} : VisitOf e c k v → a ∈ v.inputs → At e c a p → Provides e p y →
      Requires e (.visit c k) y

/-- The items can be ordered. -/
def Ordered (e : Env) : Prop := ∃ r : Item → Nat, ∀ x y, Requires e x y → r y < r x

/-- The tables are complete: every attribute of a visit of the node or of a child has a graph node, every synthesized
attribute of a child is an output of a visit, and every member of a nodeset has an entry.  The first member of a nodeset
has at least as many visits as the nodeset. -/
structure Complete (e : Env) : Prop where
  nodup : e.g.nodes.Nodup
  self : ∃ vs, e.visits e.self = some vs ∧ ∀ v, v ∈ vs → ∀ a, a ∈ v.inputs ∨ a ∈ v.outputs → ∃ p, At e e.self a p
  child : ∀ c, c ∈ e.children → ∃ vs, e.visits (e.typeOf c) = some vs ∧
    ∀ v, v ∈ vs → ∀ a, a ∈ v.inputs ∨ a ∈ v.outputs → ∃ p, At e c a p
  node : ∀ o a p, At e o a p → o ≠ e.self → o ∈ e.children
  syn : ∀ o a p, At e o a p → o ≠ e.self → e.syn a = true → ∃ k v, VisitOf e o k v ∧ a ∈ v.outputs
  member : ∀ c, c ∈ e.children → ∀ ms, e.members (e.typeOf c) = some ms → ∀ m, m ∈ ms → ∃ ws, e.visits m = some ws
  first : ∀ c, c ∈ e.children → ∀ m ms, e.members (e.typeOf c) = some (m :: ms) →
    ∀ vs ws, e.visits (e.typeOf c) = some vs → e.visits m = some ws → vs.length ≤ ws.length

end Verif.Spec.Visits
