import Verif.Model.Trav

/-!
# What the traversal core should do

States, programs and tables are those of the model; what is demanded of runs is said here.
-/

namespace Verif.Spec.Trav
open Verif.Trav

/-- The program pairs its calls of `TRAVpush` and `TRAVpop`, when `d` pushes are already open: it never pops what it
did not push, and has popped everything when it returns. -/
def Paired : Nat → Prog → Prop
  | d, .ret _ => d = 0
  | _, .abort _ => True
  | d, .call (.push _) k => ∀ r, Paired (d + 1) (k r)
  | 0, .call .pop _ => False
  | d + 1, .call .pop k => ∀ r, Paired d (k r)
  | d, .call (.travDo _) k => ∀ r, Paired d (k r)
  | d, .call (.travOpt _) k => ∀ r, Paired d (k r)
  | d, .call (.travChildren _) k => ∀ r, Paired d (k r)
  | d, .call (.travStart _ _) k => ∀ r, Paired d (k r)
  | d, .call (.passStart _ _) k => ∀ r, Paired d (k r)
  | d, .mem _ k => ∀ v, Paired d (k v)
  | d, .data _ k => ∀ v, Paired d (k v)

/-- What is asked of the tables and of `malloc`: traversals whose data is allocated also release it, and allocated
blocks are new. -/
structure Sane (E : Env) : Prop where
  match_ : ∀ (ty : Nat) vs f, E.initTable[ty]? = some (.data vs f) → E.freeTable[ty]? ≠ some .nop
  frame : ∀ s a, E.newFrame s = some a → s.frames a = none
  data : ∀ s a, E.newData s = some a → s.dmem a = none

/-- What is asked of the user's functions besides: pushes and pops are paired. -/
structure Proper (E : Env) : Prop extends Sane E where
  handlers : ∀ row, row ∈ E.vtable → ∀ h, h ∈ row → ∀ a, Paired 0 (h a)
  passes : ∀ f, f ∈ E.passes → ∀ p, Paired 0 (f p)
  inits : ∀ vs f, DataInit.data vs f ∈ E.initTable → Paired 0 f
  finis : ∀ f, DataFree.data f ∈ E.freeTable → Paired 0 f

/-- The traversal that is current: the last one that was started and not ended, or the outer one. -/
def top (c : Ptr) : List (Addr × Nat) → Ptr
  | [] => c
  | x :: _ => some x.1

/-- `Steps L c ps t qs`: the events `t` are an orderly sequence.  `ps` are the traversals (with their kind) that are
open at the beginning, innermost first, `qs` those open at the end; below them is the traversal `c`.  A traversal is
initialised when it is not in use (`L` are those in use outside); the one that ends is always the innermost one; and
handlers run only for the innermost traversal. -/
inductive Steps (L : Addr → Prop) (c : Ptr) : List (Addr × Nat) → List Event → List (Addr × Nat) → Prop
  | nil (ps) : Steps L c ps [] ps
  | init {a ty ps t qs} : ¬ L a → (∀ x, x ∈ ps → x.1 ≠ a) → Steps L c ((a, ty) :: ps) t qs →
      Steps L c ps (.init a ty :: t) qs
  | fini {a ty ps t qs} : Steps L c ps t qs → Steps L c ((a, ty) :: ps) (.fini a ty :: t) qs
  | visit {a n ps t qs} : top c ps = some a → Steps L c ps t qs → Steps L c ps (.visit a n :: t) qs

/-- The traversal is in use. -/
def InUse (s : St) (a : Addr) : Prop := s.frames a ≠ none

/-- The current traversal is applied to node `c`: the handler that the tables have for the kind of the current
traversal and the type of the node is run in state `s`, and returns `r` and state `s'`. -/
def Handles (E : Env) (R : Prog → St → Res (Ptr × St)) (c : Addr) (s : St) (r : Ptr) (s' : St) : Prop :=
  ∃ f fr row b h, s.cur = some f ∧ s.frames f = some fr ∧ E.vtable[fr.ty]? = some row ∧ s.mem c = some (.node b) ∧
    row[b.ty]? = some h ∧ R (h c) { s with trace := s.trace ++ [.visit f c] } = .ok (r, s')

/-- The number of children of a node. -/
def count (s : St) (n : Addr) : Option Nat :=
  match s.mem n with
  | some (.node b) => some b.numChildren
  | _ => none

/-- The child of a node at an index. -/
def slot (s : St) (n : Addr) (i : Nat) : Option Ptr :=
  match s.mem n with
  | some (.node b) =>
    match b.children with
    | some d =>
      match s.mem d with
      | some (.data db) => db.kids[i]?
      | _ => none
    | none => none
  | _ => none

/-- The child of a node at an index is replaced; nothing else changes. -/
def store (s : St) (n : Addr) (i : Nat) (r : Ptr) : St :=
  match s.mem n with
  | some (.node b) =>
    match b.children with
    | some d =>
      match s.mem d with
      | some (.data db) =>
        { s with mem := fun a => if a = d then some (.data { db with kids := db.kids.set i r }) else s.mem a }
      | _ => s
    | none => s
  | _ => s

/-- The children of `n` from index `i` on are traversed one after the other: nothing happens for a missing child; for
another child the current traversal is applied to it once, and the result replaces it. -/
inductive Rounds (E : Env) (R : Prog → St → Res (Ptr × St)) (n : Addr) : Nat → St → St → Prop
  | done {i k s} : count s n = some k → k ≤ i → Rounds E R n i s s
  | null {i k s s'} : count s n = some k → i < k → slot s n i = some none → Rounds E R n (i + 1) s s' →
      Rounds E R n i s s'
  | child {i k c r s s₁ s'} : count s n = some k → i < k → slot s n i = some (some c) → Handles E R c s r s₁ →
      Rounds E R n (i + 1) (store s₁ n i r) s' → Rounds E R n i s s'

/-- The same for handlers that leave the node alone: `cs` are the children from index `i` on before the call, `rs`
those afterwards. -/
inductive Sweep (E : Env) (R : Prog → St → Res (Ptr × St)) (n : Addr) :
    Nat → List Ptr → List Ptr → St → St → Prop
  | nil {i s} : Sweep E R n i [] [] s s
  | null {i cs rs s s'} : Sweep E R n (i + 1) cs rs s s' → Sweep E R n i (none :: cs) (none :: rs) s s'
  | child {i c cs r rs s s₁ s'} : Handles E R c s r s₁ → Sweep E R n (i + 1) cs rs (store s₁ n i r) s' →
      Sweep E R n i (some c :: cs) (r :: rs) s s'

end Verif.Spec.Trav
