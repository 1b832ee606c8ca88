import Verif.Model.HashTable

/-!
# Specification: finite maps up to a key equality

An abstract map is a function from query keys to the stored pair.  Nothing here mentions buckets, chains or
hash values.  Only the type of API calls (`HT.Op`) is shared with the model.
-/

namespace Verif.Spec.Map

/-- `m q = some (k, v)`: a key `k` equal to `q` is live and carries `v` (`none` = NULL). -/
abbrev M (K V : Type) := K → Option (K × Option V)

def empty {K V : Type} : M K V := fun _ => none

/-- Storing overwrites the value and keeps the first stored key object. -/
def insert {K V : Type} (eq : K → K → Bool) (m : M K V) (k : K) (v : Option V) : M K V :=
  fun q => if eq k q then some (((m k).map Prod.fst).getD k, v) else m q

def remove {K V : Type} (eq : K → K → Bool) (m : M K V) (k : K) : M K V :=
  fun q => if eq k q then none else m q

def mapVals {K V : Type} (m : M K V) (f : K → Option V → Option V) : M K V :=
  fun q => (m q).map (fun e => (e.1, f e.1 e.2))

/-- What a lookup must return: the stored value, NULL if no equal key is live. -/
def get {K V : Type} (m : M K V) (q : K) : Option V :=
  match m q with
  | some e => e.2
  | none => none

def live {K V : Type} (m : M K V) (q : K) : Bool := (m q).isSome

/-- Effect of one API call. -/
def step {K V : Type} (eq : K → K → Bool) (m : M K V) : HT.Op K V → M K V
  | .insert k v => insert eq m k v
  | .remove k => remove eq m k
  | .clear => empty
  | .map f => mapVals m (fun _ v => f v)
  | .mapWithKey f => mapVals m f
  | .iterUpdate f => mapVals m f

/-- Effect of a sequence of API calls. -/
def run {K V : Type} (eq : K → K → Bool) (m : M K V) : List (HT.Op K V) → M K V
  | [] => m
  | op :: ops => run eq (step eq m op) ops

/-- `n` keys are live: there is a list of `n` pairwise different live keys that represents all live keys. -/
def LiveCount {K V : Type} (eq : K → K → Bool) (m : M K V) (n : Nat) : Prop :=
  ∃ L : List K, L.length = n ∧ L.Pairwise (fun a b => eq a b = false) ∧
    ∀ q, live m q = true ↔ ∃ k ∈ L, eq k q = true

/-- The pairs in `L` are exactly the live pairs, each listed once. -/
def Enumerates {K V : Type} (eq : K → K → Bool) (m : M K V) (L : List (K × Option V)) : Prop :=
  L.Pairwise (fun a b => eq a.1 b.1 = false) ∧
    (∀ e ∈ L, m e.1 = some e) ∧ (∀ q e, m q = some e → e ∈ L)

/-- Requirements on the hash and equality functions a client passes to `HTnew`. -/
structure KeyFns {K : Type} (hash : K → Nat) (eq : K → K → Bool) : Prop where
  refl : ∀ a, eq a a = true
  symm : ∀ a b, eq a b = true → eq b a = true
  trans : ∀ a b c, eq a b = true → eq b c = true → eq a c = true
  hash_congr : ∀ a b, eq a b = true → hash a = hash b

/-- Every removal in the sequence is of a key that is live at that moment. -/
def RemovesLive {K V : Type} (eq : K → K → Bool) : M K V → List (HT.Op K V) → Prop
  | _, [] => True
  | m, op :: ops =>
    (match op with | .remove k => live m k = true | _ => True) ∧ RemovesLive eq (step eq m op) ops

/-- The sequence contains no `HTclear`. -/
def NoClear {K V : Type} : List (HT.Op K V) → Prop
  | [] => True
  | op :: ops => (match op with | .clear => False | _ => True) ∧ NoClear ops

/-- The sequence contains no loop over the table with an iterator. -/
def NoIter {K V : Type} : List (HT.Op K V) → Prop
  | [] => True
  | op :: ops => (match op with | .iterUpdate _ => False | _ => True) ∧ NoIter ops

/-- First insertions minus removals: what a counter shows that ignores `clear`. -/
def net {K V : Type} (eq : K → K → Bool) : M K V → List (HT.Op K V) → Int
  | _, [] => 0
  | m, op :: ops =>
    (match op with
      | .insert k _ => if live m k then 0 else 1
      | .remove k => if live m k then -1 else 0
      | _ => 0) + net eq (step eq m op) ops

end Verif.Spec.Map
