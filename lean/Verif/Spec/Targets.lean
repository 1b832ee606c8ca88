import Verif.Model.Tables
import Verif.Model.Trav
import Verif.Spec.Semantic

/-!
# Specification of the traversals of a description

Which nodes a traversal is for, which trees the description allows, and a compiler that takes no shortcuts: below a node that a traversal
is not for, it goes through everything.
-/

namespace Verif.Spec.Targets
open Verif.Str Verif.Trav
open Verif.Spec.Str (lowerB upperB SameName)
open Verif.Spec.Semantic (Means)
open Verif.Spec.Graph (Path)

/-- The traversal is for nodes of this type: all, if no nodes are given, and else the members of the set. -/
def Target (t : Parse.Traversal) (A : Parse.Ast) (n : Parse.Node) : Prop :=
  match t.nodes with
  | none => True
  | some e => ∃ D, Means A e D ∧ D n.name.orig

/-- A node of type `n` can be the child `c`: its type is the name of the node, or of a nodeset that the node is in. -/
def Allows (A : Parse.Ast) (c : Parse.Child) (n : Parse.Node) : Prop :=
  SameName n.name.orig c.type.orig ∨
    ∃ s ∈ A.nodesets, SameName s.name.orig c.type.orig ∧ ∃ D, Means A s.expr D ∧ D n.name.orig

/-- The node `b` has the child `p` at index `i`. -/
def Kid (m : Mem) (b : NodeB) (i : Nat) (p : Addr) : Prop :=
  ∃ e d, b.children = some e ∧ m e = some (.data d) ∧ i < b.numChildren ∧ d.kids[i]? = some (some p)

/-- At address `a` there is a tree that the description allows, of the node type at position `k`: node types are numbered by position,
from 1 on, every child is missing or a tree that is allowed there, and so on to an end. -/
inductive Fits (A : Parse.Ast) (m : Mem) : Addr → Nat → Prop where
  | mk {a : Addr} {k : Nat} {b : NodeB} {n : Parse.Node} (kind : Nat → Nat) : m a = some (.node b) → A.nodes[k]? = some n →
      b.ty = k + 1 →
      (∀ i p, Kid m b i p → ∃ c n', n.children[i]? = some c ∧ A.nodes[kind i]? = some n' ∧ Allows A c n') →
      (∀ i p, Kid m b i p → Fits A m p (kind i)) → Fits A m a k

mutual

/-- At address `a` there is a tree that the description allows, of the node type at position `k`, all of it is in memory, and these are its
nodes with their types, from top to bottom and from left to right. -/
inductive Walk (A : Parse.Ast) (m : Mem) : Addr → Nat → List (Addr × Nat) → Prop where
  | mk {a : Addr} {k : Nat} {b : NodeB} {n : Parse.Node} {e : Addr} {d : DataB} {l : List (Addr × Nat)} : m a = some (.node b) →
      A.nodes[k]? = some n → b.ty = k + 1 → b.children = some e → m e = some (.data d) → b.numChildren = d.kids.length →
      d.kids.length ≤ INT_MAX → WalkKids A m n.children d.kids l → Walk A m a k ((a, k) :: l)
  | leaf {a : Addr} {k : Nat} {b : NodeB} {n : Parse.Node} : m a = some (.node b) → A.nodes[k]? = some n → b.ty = k + 1 →
      n.children = [] → b.numChildren = 0 → Walk A m a k [(a, k)]

/-- The same for the children of a node. -/
inductive WalkKids (A : Parse.Ast) (m : Mem) : List Parse.Child → List Ptr → List (Addr × Nat) → Prop where
  | nil : WalkKids A m [] [] []
  | none {c : Parse.Child} {cs : List Parse.Child} {ps : List Ptr} {l : List (Addr × Nat)} : WalkKids A m cs ps l →
      WalkKids A m (c :: cs) (none :: ps) l
  | some {c : Parse.Child} {cs : List Parse.Child} {p : Addr} {k : Nat} {n : Parse.Node} {ps : List Ptr} {l l' : List (Addr × Nat)} :
      A.nodes[k]? = some n → Allows A c n → Walk A m p k l → WalkKids A m cs ps l' → WalkKids A m (c :: cs) (some p :: ps) (l ++ l')

end

/-! ### The tables -/

/-- A node of the type at position `k` can have a child of the type at position `j`. -/
def Below (A : Parse.Ast) (k j : Nat) : Prop :=
  ∃ n m, A.nodes[k]? = some n ∧ A.nodes[j]? = some m ∧ ∃ c ∈ n.children, Allows A c m

/-- The function of the user for a node in a traversal (`docs/source/dsl_syntax.rst`): unique id and name. -/
def handler (t : Parse.Traversal) (n : Parse.Node) : CStr := t.uid.orig.map upperB ++ n.name.orig.map lowerB

/-- What the table of a traversal may have for the node type `n` at position `k`. -/
structure Entry (A : Parse.Ast) (t : Parse.Traversal) (k : Nat) (n : Parse.Node) (f : Tables.Fun) : Prop where
  /-- the function of the user for the nodes that the traversal is for -/
  user : Target t A n → f = .named (handler t n)
  /-- no function of the user for others -/
  other : ¬ Target t A n → f = .travChildren ∨ f = .travNop
  /-- what can have such a node below it is gone through -/
  through : ¬ Target t A n → (∃ j m, A.nodes[j]? = some m ∧ Target t A m ∧ Path (Below A) k j) → f = .travChildren

/-! ### A compiler without shortcuts -/

open Classical in
/-- Go through the children of a node of the type at position `k`, provided that the tree is as the description says. -/
noncomputable def through (A : Parse.Ast) (k : Nat) (a : Addr) : Prog :=
  .mem (fun m => if Fits A m a k then .ok (.undef, m) else .ub "not a tree of the description") fun _ =>
    .call (.travChildren (some a)) .ret

open Classical in
/-- What a traversal does for the node types. -/
noncomputable def row (A : Parse.Ast) (code : CStr → Addr → Prog) (t : Parse.Traversal) : List (Addr → Prog) :=
  TRAVerror :: A.nodes.mapIdx fun k n => if Target t A n then code (handler t n) else through A k

/-- What a traversal that is always there does: a function for each node type. -/
def own (A : Parse.Ast) (code : CStr → Addr → Prog) (pre : CStr) : List (Addr → Prog) :=
  TRAVerror :: A.nodes.map fun n => code (pre ++ n.name.orig.map lowerB)

/-- The table of the compiler without shortcuts: no traversal, those of the description, and those for freeing (`DEL`), checking (`CHK`)
and copying (`CPY`). -/
noncomputable def table (A : Parse.Ast) (code : CStr → Addr → Prog) : List (List (Addr → Prog)) :=
  (TRAVerror :: A.nodes.map fun _ => TRAVerror) :: A.traversals.map (row A code) ++
    [own A code [68, 69, 76], own A code [67, 72, 75], own A code [67, 80, 89]]

/-- Nothing but what has been observed is different. -/
def Same (s t : St) : Prop := t.mem = s.mem ∧ t.frames = s.frames ∧ t.dmem = s.dmem ∧ t.cur = s.cur

/-- `malloc` does not depend on what has been observed. -/
structure Blind (E : Env) : Prop where
  frame : ∀ s t, Same s t → E.newFrame t = E.newFrame s
  data : ∀ s t, Same s t → E.newData t = E.newData s

/-! ### Visits -/

/-- The traversal is for this node. -/
def Aim (A : Parse.Ast) (t : Parse.Traversal) (x : Addr × Nat) : Prop := ∃ n, A.nodes[x.2]? = some n ∧ Target t A n

open Classical in
/-- The visits of nodes: some of those of a tree, in their order, and among them those that the traversal is for. -/
def Visits (A : Parse.Ast) (t : Parse.Traversal) (vs l : List (Addr × Nat)) : Prop :=
  vs.Sublist l ∧ vs.filter (fun x => decide (Aim A t x)) = l.filter (fun x => decide (Aim A t x))

/-- The visits as they are observed in the traversal with this frame. -/
def events (f : Addr) (vs : List (Addr × Nat)) : List Event := vs.map fun x => .visit f x.1

/-! ### Conditions -/

/-- Every traversal with a set of nodes is for some node. -/
def Aimed (A : Parse.Ast) : Prop := ∀ t ∈ A.traversals, t.nodes ≠ none → ∃ n ∈ A.nodes, Target t A n

/-- Nodes and traversals are numbered; the parser sees to it (`cocogen/frontend/scanAndParse/dsl-parser.y:234-238`, `436-496`,
`1271-1272`). -/
structure Numbered (A : Parse.Ast) : Prop where
  nodes : ∀ i, (∃ n ∈ A.nodes, n.index = i) ↔ i < A.numNodes
  nodesOnce : (A.nodes.map (·.index)).Nodup
  travs : ∀ t ∈ A.traversals, t.index < A.numTraversals
  travsOnce : (A.traversals.map (·.index)).Nodup

end Verif.Spec.Targets
