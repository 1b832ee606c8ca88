import Verif.Model.ProductRules

/-!
# Specification of the check of equations
-/

namespace Verif.Spec.ProductRules
open Verif.Propagate (Attr Target)
open Verif.ProductRules

/-- The attributes of the type with the given name. -/
inductive TypeAttrs (env : Env) (type : Nat) (l : List Attr) : Prop where
  | node {i : Nat} {nd : NodeD} : env.lookup type = some (.node i) → env.nodes[i]? = some nd → l = nd.attrs → TypeAttrs env type l
  | set {i : Nat} : env.lookup type = some (.set i) → env.sets[i]? = some l → TypeAttrs env type l

/-- All types of children are nodes or nodesets. -/
def Typed (env : Env) : Prop := ∀ nd, nd ∈ env.nodes → ∀ c, c ∈ nd.children → ∃ l, TypeAttrs env c.type l

/-- No two children of the node have the same name, no two attributes of a node or of a nodeset have the same name. -/
structure Named (env : Env) : Prop where
  children : ∀ nd, nd ∈ env.nodes → (nd.children.map (·.name)).Nodup
  attrs : ∀ nd, nd ∈ env.nodes → (nd.attrs.map (·.name)).Nodup
  sets : ∀ l, l ∈ env.sets → (l.map (·.name)).Nodup

/-- The reference, in an equation of the node, is to the attribute `a`; `c` is the child, none for the node itself. -/
inductive RefersTo (env : Env) (nd : NodeD) (r : ARef) : Option Child → Attr → Prop where
  | this {a : Attr} : r.inode = none → a ∈ nd.attrs → a.name = r.iattr → RefersTo env nd r none a
  | child {c : Child} {l : List Attr} {a : Attr} : r.inode = some c.name → c ∈ nd.children → TypeAttrs env c.type l →
      a ∈ l → a.name = r.iattr → RefersTo env nd r (some c) a

/-- The node has an equation for the attribute with the given name, of the child with the given name or of the node. -/
def HasRule (nd : NodeD) (node : Option Nat) (name : Nat) : Prop := ∃ e, e ∈ nd.eqns ∧ e.rule = ⟨node, name⟩

/-- The equations of a node are right. -/
structure NodeOk (env : Env) (nd : NodeD) : Prop where
  syn : ∀ a, a ∈ nd.attrs → a.syn = true → HasRule nd none a.name
  inh : ∀ c, c ∈ nd.children → ∀ l, TypeAttrs env c.type l → ∀ a, a ∈ l → a.inh = true → HasRule nd (some c.name) a.name
  this : ∀ e, e ∈ nd.eqns → e.rule.inode = none → ∃ a, RefersTo env nd e.rule none a ∧ a.syn = true
  child : ∀ e, e ∈ nd.eqns → e.rule.inode ≠ none → ∃ c a, RefersTo env nd e.rule (some c) a ∧ a.inh = true
  args : ∀ e, e ∈ nd.eqns → ∀ r, r ∈ e.args → ∃ c a, RefersTo env nd r c a

/-- The references of the equations of a node, in the order of the text. -/
def refs (nd : NodeD) : List ARef := nd.eqns.flatMap fun e => e.rule :: e.args

/-- All references with their nodes. -/
def allRefs (env : Env) : List (NodeD × ARef) := env.nodes.flatMap fun nd => (refs nd).map fun r => (nd, r)

/-- What is stored in a reference: the attribute it refers to with the child. -/
def Stored (env : Env) (x : NodeD × ARef) (y : Resolution) : Prop :=
  (∀ a, y.attr = some a → RefersTo env x.1 x.2 y.child a) ∧ (y.attr = none → ¬ ∃ c a, RefersTo env x.1 x.2 c a)

end Verif.Spec.ProductRules

namespace Verif.Spec.ProductRules
open Verif.ProductRules

/-- Each reference of the one list is stored as the other list says. -/
inductive AllStored (env : Env) : List (NodeD × ARef) → List Resolution → Prop where
  | nil : AllStored env [] []
  | cons {x : NodeD × ARef} {y : Resolution} {xs : List (NodeD × ARef)} {ys : List Resolution} :
      Stored env x y → AllStored env xs ys → AllStored env (x :: xs) (y :: ys)

end Verif.Spec.ProductRules
