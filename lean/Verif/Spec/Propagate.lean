import Verif.Model.Propagate

/-!
# Specification of attribute propagation
-/

namespace Verif.Spec.Propagate
open Verif.Propagate

/-- The type has a reference. -/
def HasRef (t : AType) : Prop := t = .link ∨ t = .linkOrEnum ∨ t = .user

/-- `b` has the name, the type and the kind of `a`. -/
structure SameSignature (a b : Attr) : Prop where
  name : b.name = a.name
  type : b.type = a.type
  inh : b.inh = a.inh
  syn : b.syn = a.syn
  ref : HasRef a.type → b.ref = a.ref

/-- `b`, in a node, declares the attribute `a` of a nodeset once more, to add the constructor keyword. -/
structure Redeclares (b a : Attr) : Prop where
  inh : a.inh = false
  syn : a.syn = false
  ctor : b.ctor = true
  same : SameSignature a b

/-- The nodeset `i` hands its attributes on to the node or nodeset `t`. -/
def Above (env : Env) (i : Nat) : Target → Prop
  | .node m => Entry.node m ∈ env.members i
  | .set j => j ∈ env.table i

/-- The node or nodeset `t` receives `a` from the nodeset `i`. -/
def Receives (env : Env) (init : Target → List Attr) (t : Target) (i : Nat) (a : Attr) : Prop :=
  i < env.sets ∧ a ∈ init (.set i) ∧ Above env i t

/-- There is no conflict: an attribute with the name of a received one is a redeclaration in a node, two nodesets do not
hand on the same name and no child has the name of a received attribute, unless the node redeclares it. -/
structure Legal (env : Env) (init : Target → List Attr) : Prop where
  own : ∀ t i a b, Receives env init t i a → b ∈ init t → b.name = a.name → (∃ m, t = .node m) ∧ Redeclares b a
  two : ∀ t i i' a a', Receives env init t i a → Receives env init t i' a' → a'.name = a.name →
    i' = i ∨ ∃ b, b ∈ init t ∧ b.name = a.name
  kid : ∀ m i a, Receives env init (.node m) i a → a.name ∈ env.kids m → ∃ b, b ∈ init (.node m) ∧ b.name = a.name

/-- No two attributes have the same name. -/
def Distinct (l : List Attr) : Prop := (l.map (·.name)).Nodup

/-- What holds before the pass: declared attributes have distinct names and are not marked, the members are nodes, and
neither the members nor the entries of the child table are repeated. -/
structure Start (env : Env) (init : Target → List Attr) : Prop where
  distinct : ∀ t, Distinct (init t)
  unmarked : ∀ i a, a ∈ init (.set i) → a.propagated = false
  nodes : ∀ i x, i < env.sets → x ∈ env.members i → ∃ m, x = .node m
  members : ∀ i, i < env.sets → (env.members i).Nodup
  table : ∀ i, i < env.sets → (env.table i).Nodup

end Verif.Spec.Propagate
