import Verif.Model.Lifetimes
import Verif.Spec.PhaseDriver

/-!
# Specification vocabulary for lifetimes

The compiler that a specification describes is a tree of actions.  Its occurrences are numbered in pre-order, the start
phase being number 1.  A target such as `Stage1.TBO` denotes the first occurrence with the first name, in it the first
occurrence with the second name, and so on (`docs/source/dsl_syntax.rst:174-180`).

Only the types of the model are used here, none of its functions.
-/

namespace Verif.Spec.Life
open Verif.Life Verif.Ids Verif.Str

/-- The actions of a phase, unfolded.  `q` is the position of a phase in the list of phases. -/
inductive Tree where
  | nil
  | leaf (name : Id) (uid : Option Id) (next : Tree)
  | phase (q : Nat) (name : Id) (uid : Option Id) (body next : Tree)

/-- One action occurrence. -/
inductive Item where
  | leaf (name : Id) (uid : Option Id)
  | phase (q : Nat) (name : Id) (uid : Option Id) (body : Tree)

/-- The name of an occurrence. -/
def Item.name : Item → Id
  | .leaf n _ => n
  | .phase _ n _ _ => n

/-- The occurrences in pre-order. -/
def occ : Tree → List Item
  | .nil => []
  | .leaf n u next => .leaf n u :: occ next
  | .phase q n u body next => .phase q n u body :: (occ body ++ occ next)

/-- The phases that are used, in pre-order. -/
def used : Tree → List Nat
  | .nil => []
  | .leaf _ _ next => used next
  | .phase q _ _ body next => q :: (used body ++ used next)

/-- The list of actions of a phase unfolds to the tree: every action is a pass, a traversal or an existing phase that
unfolds again. -/
inductive Unfolds (ph : List Phase) : List Ref → Tree → Prop where
  | nil : Unfolds ph [] .nil
  | leaf {n u rs t} : Unfolds ph rs t → Unfolds ph (.leaf n u :: rs) (.leaf n u t)
  | phase {q x rs b t} : ph[q]? = some x → Unfolds ph x.actions b → Unfolds ph rs t →
      Unfolds ph (.phase q :: rs) (.phase q x.name x.uid b t)

/-- The running compiler has these actions (its gates, cycles and action code are arbitrary); names are the ones
written in the specification. -/
inductive Runs {ι : Type} : Tree → Verif.PD.Acts ι → Prop where
  | nil : Runs .nil .nil
  | leaf {n u t lab a} : Runs t a → Runs (.leaf n u t) (.leaf n.orig lab a)
  | phase {q n u b t g c b' a} : Runs b b' → Runs t a → Runs (.phase q n u b t) (.phase n.orig g c b' a)

/-- The occurrence answers to the name or the unique id, whatever the letter case. -/
def Answers (t : Id) : Item → Prop
  | .leaf n u => n.lwr = t.lwr ∨ ∃ x, u = some x ∧ x.lwr = t.lwr
  | .phase _ n u _ => n.lwr = t.lwr ∨ ∃ x, u = some x ∧ x.lwr = t.lwr

/-- `x` is the first occurrence that answers to `t`; `i` is its position. -/
def First (T : Tree) (t : Id) (i : Nat) (x : Item) : Prop :=
  (occ T)[i]? = some x ∧ Answers t x ∧ ∀ (j : Nat) (y : Item), j < i → (occ T)[j]? = some y → ¬ Answers t y

/-- The target denotes the occurrence `x`, which is at position `i`. -/
inductive Denotes : Tree → List Id → Nat → Item → Prop where
  | here {T t i x} : First T t i x → Denotes T [t] i x
  | deep {T t u ts i j q n v body x} : First T t i (.phase q n v body) → Denotes body (u :: ts) j x →
      Denotes T (t :: u :: ts) (i + 1 + j) x

/-- The number of occurrences in a tree. -/
def size (T : Tree) : Nat := (occ T).length

/-- The number of occurrences below an item: none below a pass or traversal. -/
def below : Item → Nat
  | .leaf _ _ => 0
  | .phase _ _ _ body => size body

/-- The number of occurrences below the last action of the list. -/
def belowLast : Tree → Nat
  | .nil => 0
  | .leaf _ _ .nil => 0
  | .phase _ _ _ body .nil => size body
  | .leaf _ _ next => belowLast next
  | .phase _ _ _ _ next => belowLast next

/-- One phase refers to another, directly or through others. -/
inductive Reaches (ph : List Phase) : Nat → Nat → Prop where
  | refl {p} : Reaches ph p p
  | step {p q r x} : ph[p]? = some x → Ref.phase q ∈ x.actions → Reaches ph q r → Reaches ph p r

/-- Action number `i` lies in the range: not before the beginning (from the target on, or from behind the whole target)
and before the end (up to the whole target, or up to before the target). -/
def InRange (begin fin : Option Range) (i : Nat) : Prop :=
  (∀ r, begin = some r → (r.inclusive = true → r.nums.id ≤ i) ∧ (r.inclusive = false → r.nums.next ≤ i)) ∧
  (∀ r, fin = some r → (r.inclusive = true → i < r.nums.next) ∧ (r.inclusive = false → i < r.nums.id))

/-- The lifetime forbids, at action number `i`, that the thing is there or is not there
(`docs/source/dsl_syntax.rst:138-157`). -/
def Forbids (l : Lifetime) (i : Nat) (present : Bool) : Prop :=
  match l.kind with
  | .disallowed => InRange l.begin l.fin i ∧ present = true
  | .allowed => ¬ InRange l.begin l.fin i ∧ present = true
  | .mandatory => InRange l.begin l.fin i ∧ present = false
  | .optional => ¬ InRange l.begin l.fin i ∧ present = false

/-- A node is in a tree. -/
inductive Within : Node → Node → Prop where
  | refl {n} : Within n n
  | step {m ty kids attrs k n} : some k ∈ kids.list → Within m k → n = Node.mk ty kids attrs → Within m n

/-- What is wrong with a node at action number `i`. -/
def Wrong (d : NodeDecl) (i : Nat) (kids : List (Option Node)) (attrs : List Bool) : Report → Prop
  | .node => ∃ l ∈ d.lifetimes, Forbids l i true
  | .child k => ∃ c x, d.children[k]? = some c ∧ kids[k]? = some x ∧ ∃ l ∈ c.lifetimes, Forbids l i x.isSome
  | .type k => ∃ c n, d.children[k]? = some c ∧ kids[k]? = some (some n) ∧ n.ty ∉ c.types
  | .attr k => ∃ ls x, d.attrs[k]? = some ls ∧ attrs[k]? = some x ∧ ∃ l ∈ ls, Forbids l i x

/-- No field and no node has more than one lifetime. -/
def Single (d : NodeDecl) : Prop :=
  d.lifetimes.length ≤ 1 ∧ (∀ c ∈ d.children, c.lifetimes.length ≤ 1) ∧ ∀ ls ∈ d.attrs, ls.length ≤ 1

end Verif.Spec.Life
