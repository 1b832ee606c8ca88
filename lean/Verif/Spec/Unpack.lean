import Verif.Spec.Lifetimes
import Verif.Spec.Semantic

/-!
# Specification of lifetimes in terms of the description

What a description says about lifetimes: which actions the compiler has, in which order, what a target denotes, when a lifetime forbids
that something is there, and what is wrong with a node of the tree of the compiler at an action.

Action numbers are those of the running compiler: the first phase is number 1, the occurrence at position `i` in pre-order (counted from 0,
without the first phase) is number `i + 2`.
-/

namespace Verif.Spec.Unpack
open Verif.Str Verif.Ids Verif.Life
open Verif.Spec.Str (lowerB upperB SameName)
open Verif.Spec.Semantic (Member NodeAttr SetAttr)
open Verif.Spec.Life

/-- A name with its folded forms. -/
def ident (n : Parse.Name) : Id := ⟨n.orig, n.orig.map lowerB, n.orig.map upperB⟩

/-- The reference is to the thing with this name, or this unique id. -/
def Refers (n : Parse.Name) (name : Parse.Name) (uid : Option Parse.Name) : Prop :=
  SameName name.orig n.orig ∨ ∃ u, uid = some u ∧ SameName u.orig n.orig

/-- The compiler that a list of actions describes. -/
inductive Acts (A : Parse.Ast) : List Parse.Name → Tree → Prop where
  | nil : Acts A [] .nil
  | traversal {n : Parse.Name} {rest : List Parse.Name} {t : Parse.Traversal} {T : Tree} : t ∈ A.traversals →
      Refers n t.name (some t.uid) → Acts A rest T → Acts A (n :: rest) (.leaf (ident t.name) (some (ident t.uid)) T)
  | pass {n : Parse.Name} {rest : List Parse.Name} {p : Parse.Pass} {T : Tree} : p ∈ A.passes →
      Refers n p.name p.uid → Acts A rest T → Acts A (n :: rest) (.leaf (ident p.name) (p.uid.map ident) T)
  | phase {n : Parse.Name} {rest : List Parse.Name} {q : Nat} {p : Parse.Phase} {B T : Tree} : A.phases[q]? = some p →
      Refers n p.name p.uid → Acts A p.actions B → Acts A rest T →
      Acts A (n :: rest) (.phase q (ident p.name) (p.uid.map ident) B T)

/-- A phase has another one among its actions, directly or through others, or is it. -/
inductive Leads (A : Parse.Ast) : Nat → Nat → Prop where
  | refl {p : Nat} : Leads A p p
  | step {p q r : Nat} {x y : Parse.Phase} {n : Parse.Name} : A.phases[p]? = some x → n ∈ x.actions → A.phases[q]? = some y →
      Refers n y.name y.uid → Leads A q r → Leads A p r

/-- `T` is the compiler that the description describes; its first phase is at position `s`. -/
def Compiler (A : Parse.Ast) (s : Nat) (T : Tree) : Prop :=
  ∃ p, A.phases[s]? = some p ∧ p.start = true ∧ Acts A p.actions T

/-! ### Lifetimes -/

/-- Action number `n` is not before the beginning. -/
def From (T : Tree) (r : Parse.Range) (n : Nat) : Prop :=
  ∃ i x, Denotes T (r.target.map ident) i x ∧
    ((r.inclusive = true ∧ i + 2 ≤ n) ∨ (r.inclusive = false ∧ i + 2 + below x < n))

/-- Action number `n` is not behind the end. -/
def To (T : Tree) (r : Parse.Range) (n : Nat) : Prop :=
  ∃ i x, Denotes T (r.target.map ident) i x ∧
    ((r.inclusive = true ∧ n ≤ i + 2 + below x) ∨ (r.inclusive = false ∧ n < i + 2))

/-- Action number `n` is inside. -/
def Inside (T : Tree) (l : Parse.Lifetime) (n : Nat) : Prop :=
  (∀ r, l.begin? = some r → From T r n) ∧ ∀ r, l.end? = some r → To T r n

/-- The lifetime forbids, at action number `n`, that the thing is there, or is not there (`docs/source/dsl_syntax.rst:138-157`). -/
def Forbids (T : Tree) (l : Parse.Lifetime) (n : Nat) (present : Bool) : Prop :=
  match l.type with
  | .disallowed => Inside T l n ∧ present = true
  | .allowed => ¬ Inside T l n ∧ present = true
  | .mandatory => Inside T l n ∧ present = false
  | .optional => ¬ Inside T l n ∧ present = false

/-! ### What is wrong with a node -/

/-- The attributes that the node at position `k` has: its own ones, and those of nodesets it is a member of, unless it declares them once
more. -/
inductive Effective (A : Parse.Ast) (k : Nat) (a : Parse.Attr) : Prop where
  | own {n : Parse.Node} : A.nodes[k]? = some n → a ∈ n.attrs → Effective A k a
  | member {n : Parse.Node} {i : Nat} {s : Parse.NodeSet} : A.nodes[k]? = some n → A.nodesets[i]? = some s → a ∈ s.attrs →
      Member A i k → (∀ b ∈ n.attrs, ¬ SameName b.name.orig a.name.orig) → Effective A k a

/-- The node at position `k` can be a child of this type. -/
def Fits (A : Parse.Ast) (type : Parse.Name) (k : Nat) : Prop :=
  (∃ n, A.nodes[k]? = some n ∧ SameName n.name.orig type.orig) ∨
  ∃ (i : Nat) (s : Parse.NodeSet), A.nodesets[i]? = some s ∧ SameName s.name.orig type.orig ∧ Member A i k

/-- What is wrong, at action number `n`, with a node of the type at position `k`.  Attributes are numbered as in the structure that is
made for the node, whose fields `S` lists. -/
def Wrong (A : Parse.Ast) (S : Induce.Spec) (T : Tree) (n k : Nat) (kids : List (Option Node)) (attrs : List Bool) : Report → Prop
  | .node => ∃ x, A.nodes[k]? = some x ∧ ∃ l ∈ x.lifetimes, Forbids T l n true
  | .child j => ∃ x c y, A.nodes[k]? = some x ∧ x.children[j]? = some c ∧ kids[j]? = some y ∧ ∃ l ∈ c.lifetimes, Forbids T l n y.isSome
  | .type j => ∃ x c m, A.nodes[k]? = some x ∧ x.children[j]? = some c ∧ kids[j]? = some (some m) ∧ ¬ Fits A c.type m.ty
  | .attr j => ∃ x b a y, S.nodes[k]? = some x ∧ x.attrs[j]? = some b ∧ Effective A k a ∧ b.name = a.name.orig.map lowerB ∧
      attrs[j]? = some y ∧ ∃ l ∈ a.lifetimes, Forbids T l n y

/-! ### What is checked -/

/-- The type of an attribute is a string, or the name of a node or nodeset: the attribute is a pointer that can be NULL. -/
def Pointer (A : Parse.Ast) (a : Parse.Attr) : Prop :=
  a.type = .string ∨ a.type = .link_or_enum ∧ ∃ r, a.ref = some r ∧
    ((∃ n ∈ A.nodes, SameName n.name.orig r.orig) ∨ ∃ s ∈ A.nodesets, SameName s.name.orig r.orig)

/-- A range of the lifetime has a target that denotes nothing. -/
def Dangling (T : Tree) (l : Parse.Lifetime) : Prop :=
  ∃ r, (l.begin? = some r ∨ l.end? = some r) ∧ ∀ i x, ¬ Denotes T (r.target.map ident) i x

/-- Something has lifetimes that it cannot have, or a lifetime has a target that denotes nothing. -/
inductive Faulty (A : Parse.Ast) (T : Tree) : Prop where
  | nodeAttr {n : Parse.Node} {a : Parse.Attr} : n ∈ A.nodes → a ∈ n.attrs → a.lifetimes ≠ [] → ¬ Pointer A a → Faulty A T
  | setAttr {s : Parse.NodeSet} {a : Parse.Attr} : s ∈ A.nodesets → a ∈ s.attrs → a.lifetimes ≠ [] → ¬ Pointer A a → Faulty A T
  | kind {n : Parse.Node} {l : Parse.Lifetime} : n ∈ A.nodes → l ∈ n.lifetimes → l.type = .mandatory ∨ l.type = .optional → Faulty A T
  | node {n : Parse.Node} {l : Parse.Lifetime} : n ∈ A.nodes → l ∈ n.lifetimes → Dangling T l → Faulty A T
  | child {n : Parse.Node} {c : Parse.Child} {l : Parse.Lifetime} : n ∈ A.nodes → c ∈ n.children → l ∈ c.lifetimes → Dangling T l →
      Faulty A T
  | attr {k : Nat} {a : Parse.Attr} {l : Parse.Lifetime} : Effective A k a → l ∈ a.lifetimes → Dangling T l → Faulty A T

/-! ### Conditions -/

/-- The conditions under which the numbers of actions are right: no phase is used twice, and those that are listed behind the first one
have nothing to do with it and the ones it uses. -/
structure Plain (A : Parse.Ast) (s : Nat) (T : Tree) : Prop where
  once : (s :: used T).Nodup
  behind : ∀ j, s < j → j < A.phases.length → ∀ q ∈ s :: used T, ¬ Leads A j q

/-- No phase ends with a phase that has actions. -/
def Flat (T : Tree) : Prop := ∀ q n u body, Item.phase q n u body ∈ occ T → belowLast body = 0

/-- Nothing has two lifetimes. -/
structure Single (A : Parse.Ast) : Prop where
  node : ∀ n ∈ A.nodes, n.lifetimes.length ≤ 1
  child : ∀ n ∈ A.nodes, ∀ c ∈ n.children, c.lifetimes.length ≤ 1
  attr : ∀ n ∈ A.nodes, ∀ a ∈ n.attrs, a.lifetimes.length ≤ 1
  setAttr : ∀ s ∈ A.nodesets, ∀ a ∈ s.attrs, a.lifetimes.length ≤ 1

/-- Nodesets that hand an attribute of the same name to a node agree about its lifetimes. -/
def Agree (A : Parse.Ast) : Prop :=
  ∀ k a b, Effective A k a → Effective A k b → SameName a.name.orig b.name.orig → a.lifetimes = b.lifetimes

/-- Every phase is finite and has actions. -/
def Finite (A : Parse.Ast) : Prop := ∀ p ∈ A.phases, p.actions ≠ [] ∧ ∃ T, Acts A p.actions T

/-- The child has a lifetime `mandatory` without range. -/
def Always (c : Parse.Child) : Prop := ∃ l ∈ c.lifetimes, l.type = .mandatory ∧ l.begin? = none ∧ l.end? = none

end Verif.Spec.Unpack
