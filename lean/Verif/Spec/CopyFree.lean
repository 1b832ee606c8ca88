import Verif.Model.CopyFree

/-!
# Trees in memory

What it means that memory holds a tree of nodes, for the statements about copying and releasing.
-/

namespace Verif.Spec.Trav
open Verif.Trav Verif.Str

/-- The value of an attribute.  Inherited and synthesized attributes are computed, not stored: their values do not
count. -/
inductive AVal where
  | plain (n : Nat)
  | str (s : Option CStr)
  | link (p : Ptr)
  | hidden
  deriving DecidableEq

mutual
/-- A tree: node type, location (begin and end of line and column), file name, children, attributes. -/
inductive Tree where
  | mk (ty : Nat) (pos : Nat × Nat × Nat × Nat) (file : Option CStr) (kids : Kids) (attrs : List AVal)
/-- Children. -/
inductive Kids where
  | nil
  | none (rest : Kids)
  | some (t : Tree) (rest : Kids)
end

/-- The declaration of a node type; 0 is no node type. -/
def declOf (Ds : List NodeD) : Nat → Option NodeD
  | 0 => .none
  | ty + 1 => Ds[ty]?

/-- A pointer to an own copy of a string; `fp` are the blocks used. -/
def StrAt (m : Mem) : Ptr → Option CStr → List Addr → Prop
  | none, none, fp => fp = []
  | some a, some s, fp => m a = some (.str s) ∧ fp = [a]
  | _, _, _ => False

/-- A member of the struct holds the value of an attribute. -/
def AttrAt (m : Mem) (A : AttrD) (f : Field) (v : AVal) (fp : List Addr) : Prop :=
  match A.inh || A.syn with
  | true => (∃ x y, f = .nested x y) ∧ v = .hidden ∧ fp = []
  | false =>
    match A.ty with
    | .string => ∃ p s, f = .plain (.ptr p) ∧ v = .str s ∧ StrAt m p s fp
    | .link => ∃ p, f = .plain (.ptr p) ∧ v = .link p ∧ fp = []
    | .plain => ∃ n, f = .plain (.word n) ∧ v = .plain n ∧ fp = []
    | .user => ∃ n, f = .plain (.word n) ∧ v = .plain n ∧ fp = []

/-- The struct holds the values of all attributes. -/
def AttrsAt (m : Mem) : List AttrD → List Field → List AVal → List Addr → Prop
  | [], [], [], fp => fp = []
  | A :: As, f :: fs, v :: vs, fp => ∃ f1 f2, AttrAt m A f v f1 ∧ AttrsAt m As fs vs f2 ∧ fp = f1 ++ f2
  | _, _, _, _ => False

/-- The node `b` of type `ty` has a struct with the children `ks` and the attributes `fs`.  There is none if the node
has neither. -/
def Struct (m : Mem) (b : NodeB) (ty : Nat) (D : NodeD) (ks : List Ptr) (fs : List Field) (fp : List Addr) : Prop :=
  (D.kids = [] ∧ D.attrs = [] ∧ b.data = none ∧ ks = [] ∧ fs = [] ∧ fp = []) ∨
  ((D.kids ≠ [] ∨ D.attrs ≠ []) ∧ ∃ d, b.data = some d ∧ m d = some (.data ⟨ty, ks, fs⟩) ∧
    ks.length = D.kids.length ∧ (D.kids ≠ [] → b.children = some d) ∧ fp = [d])

mutual
/-- Memory `m` holds the tree at address `a`; its nodes, structs and strings are in the blocks `fp`. -/
def TreeAt (Ds : List NodeD) (m : Mem) : Tree → Addr → List Addr → Prop
  | .mk ty pos file kids attrs, a, fp => ∃ b D ks fs df ff kf af, declOf Ds ty = some D ∧ m a = some (.node b) ∧
      b.ty = ty ∧ (b.bline, b.eline, b.bcol, b.ecol) = pos ∧ b.numChildren = D.kids.length ∧
      StrAt m b.filename file ff ∧ Struct m b ty D ks fs df ∧ KidsAt Ds m kids ks kf ∧
      AttrsAt m D.attrs fs attrs af ∧ fp = a :: (df ++ (ff ++ (kf ++ af)))
/-- The same for a list of children. -/
def KidsAt (Ds : List NodeD) (m : Mem) : Kids → List Ptr → List Addr → Prop
  | .nil, ks, fp => ks = [] ∧ fp = []
  | .none rest, ks, fp => ∃ ks', ks = Option.none :: ks' ∧ KidsAt Ds m rest ks' fp
  | .some t rest, ks, fp => ∃ c ks' f1 f2, ks = Option.some c :: ks' ∧ TreeAt Ds m t c f1 ∧ KidsAt Ds m rest ks' f2 ∧
      fp = f1 ++ f2
end

mutual
/-- Calls that have to be nested to go through a tree (an upper bound). -/
def need : Tree → Nat
  | .mk _ _ _ kids _ => needK kids + 1
/-- The same for a list of children. -/
def needK : Kids → Nat
  | .nil => 1
  | .none rest => needK rest + 1
  | .some t rest => need t + needK rest + 1
end

/-- `m'` is `m` with the blocks `fp` added, all of them new and different; everything in `m` is unchanged. -/
structure New (m m' : Mem) (fp : List Addr) : Prop where
  same : ∀ b, m b ≠ none → m' b = m b
  fresh : ∀ b, b ∈ fp → m b = none
  live : ∀ b, b ∈ fp → m' b ≠ none
  nodup : fp.Nodup
  only : ∀ b, m' b ≠ none → m b ≠ none ∨ b ∈ fp

/-- Memory without the blocks `fp`. -/
def del (fp : List Addr) (m : Mem) : Mem := fun a => if a ∈ fp then none else m a

/-- The tables contain the generated copy traversal under the number `cpy`, and `malloc` returns new blocks. -/
structure CopyEnv (E : Env) (new : Mem → Option Addr) (Ds : List NodeD) (cpy : Nat) : Prop where
  table : E.vtable[cpy]? = some (ccn_copy_vtable new Ds)
  init : E.initTable[cpy]? = some .nop
  fini : E.freeTable[cpy]? = some .nop
  frame : ∀ s a, E.newFrame s = some a → s.frames a = none
  new : ∀ m a, new m = some a → m a = none

/-- The tables contain the generated free traversal under the number `free`, and `malloc` returns new blocks. -/
structure FreeEnv (E : Env) (Ds : List NodeD) (free : Nat) : Prop where
  table : E.vtable[free]? = some (ccn_free_vtable Ds)
  init : E.initTable[free]? = some .nop
  fini : E.freeTable[free]? = some .nop
  frame : ∀ s a, E.newFrame s = some a → s.frames a = none

/-- The run returns with a result like that, or ends because there is no memory. -/
def OrOom {α : Type} (x : Res α) (P : α → Prop) : Prop :=
  x = .abort "out of memory" ∨ ∃ y, x = .ok y ∧ P y

end Verif.Spec.Trav
