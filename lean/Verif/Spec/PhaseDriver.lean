import Verif.Model.PhaseDriver
import Verif.Spec.Str

/-!
# Specification vocabulary for the phase driver

Only the types of the model (action trees and events) are used here, none of its functions.
-/

namespace Verif.Spec.PD
open Verif.PD Verif.Str Verif.Spec.Str

variable {ι : Type}

/-- One numbered action occurrence. -/
inductive Node (ι : Type) where
  | leaf (name : CStr) (lab : ι)
  | phase (name : CStr) (gate : Option ι) (cycle : Bool)
  deriving DecidableEq

def Node.name : Node ι → CStr
  | .leaf n _ => n
  | .phase n _ _ => n

/-- Pre-order list of the action occurrences. -/
def pre : Acts ι → List (Node ι)
  | .nil => []
  | .leaf name lab next => .leaf name lab :: pre next
  | .phase name gate cycle body next => .phase name gate cycle :: (pre body ++ pre next)

/-- Pre-order list of a whole compiler: the start phase and everything below. -/
def preRoot (name : CStr) (gate : Option ι) (cycle : Bool) (body : Acts ι) : List (Node ι) :=
  .phase name gate cycle :: pre body

/-- The action id an event was observed with. -/
def eid : Event ι → Nat
  | .check id => id
  | .leaf id _ _ => id
  | .gate id _ _ => id
  | .round id => id
  | .done id => id

/-- The event belongs to that action occurrence. -/
def Belongs : Event ι → Node ι → Prop
  | .check _, _ => True
  | .leaf _ lab _, .leaf _ lab' => lab = lab'
  | .leaf _ _ _, .phase _ _ _ => False
  | .gate _ g _, .phase _ g' _ => g' = some g
  | .gate _ _ _, .leaf _ _ => False
  | .round _, .phase _ _ _ => True
  | .round _, .leaf _ _ => False
  | .done _, _ => True

/-- Counting from `n`, the event's id is the number of the occurrence it belongs to. -/
def Numbered (n : Nat) (occ : List (Node ι)) (e : Event ι) : Prop :=
  n < eid e ∧ ∃ x, occ[eid e - n - 1]? = some x ∧ Belongs e x

/-- A driver call made by one of the actions. -/
def Calls (e : Event ι) (c : Call) : Prop :=
  match e with
  | .leaf _ _ cs => c ∈ cs
  | _ => False

instance (e : Event ι) (c : Call) : Decidable (Calls e c) := by
  unfold Calls; cases e <;> infer_instance

/-- Somebody asked for another round. -/
def Notified (ev : List (Event ι)) : Prop := ∃ e ∈ ev, Calls e .notify

instance (ev : List (Event ι)) : Decidable (Notified ev) := by unfold Notified; infer_instance

/-- The configured maximum after some calls. -/
def maxAfterCalls (max : Nat) : List Call → Nat
  | [] => max
  | .setCycles n :: cs => maxAfterCalls n cs
  | _ :: cs => maxAfterCalls max cs

/-- The configured maximum after some events. -/
def maxAfter (max : Nat) : List (Event ι) → Nat
  | [] => max
  | .leaf _ _ cs :: es => maxAfter (maxAfterCalls max cs) es
  | _ :: es => maxAfter max es

/-- The rounds of a cycle, `k` of which were done before: another round follows exactly if the last one notified and
the maximum is not reached. -/
inductive RoundsOK : Nat → Nat → List (List (Event ι)) → Prop where
  | last {max k r} : ¬ (Notified r ∧ k + 1 < maxAfter max r) → RoundsOK max k [r]
  | more {max k r rs} : Notified r → k + 1 < maxAfter max r → RoundsOK (maxAfter max r) (k + 1) rs →
      RoundsOK max k (r :: rs)

/-- No phases among the actions. -/
def Flat : Acts ι → Prop
  | .nil => True
  | .leaf _ _ next => Flat next
  | .phase _ _ _ _ _ => False

/-- No phase (hence no cycle) is nested below a cycle. -/
def FlatCycles : Acts ι → Prop
  | .nil => True
  | .leaf _ _ next => FlatCycles next
  | .phase _ _ cycle body next => (if cycle then Flat body else FlatCycles body) ∧ FlatCycles next

/-- The gate event of a phase that runs. -/
def gateEvent (id : Nat) : Option ι → List (Event ι)
  | none => []
  | some g => [.gate id g true]

mutual
/-- `Complete strict acts n max ev`: `ev` is what one expects to observe when the actions `acts`, numbered from `n + 1`
on, run to completion with configured maximum `max`: leaves run in order, the actions of a phase with a closed gate
do not run, a phase runs its actions once, a cycle one or more times — the number of times being as documented
if `strict` is set. -/
inductive Complete (strict : Prop) : Acts ι → Nat → Nat → List (Event ι) → Prop where
  | nil {n max} : Complete strict .nil n max []
  | leaf {name lab next n max chk calls ev} : chk = [] ∨ chk = [.check (n + 1)] →
      Complete strict next (n + 1) (maxAfterCalls max calls) ev →
      Complete strict (.leaf name lab next) n max (chk ++ [.leaf (n + 1) lab calls, .done (n + 1)] ++ ev)
  | closed {name g cycle body next n max chk ev} : chk = [] ∨ chk = [.check (n + 1)] →
      Complete strict next (n + 1 + (pre body).length) max ev →
      Complete strict (.phase name (some g) cycle body next) n max
        (chk ++ [.gate (n + 1) g false, .done (n + 1)] ++ ev)
  | opened {name gate cycle body next n max chk rs ev} : chk = [] ∨ chk = [.check (n + 1)] →
      Rounds strict body (n + 1) max rs → (cycle = false → rs.length = 1) →
      (cycle = true → strict → RoundsOK max 0 rs) →
      Complete strict next (n + 1 + (pre body).length) (maxAfter max rs.flatten) ev →
      Complete strict (.phase name gate cycle body next) n max
        (chk ++ gateEvent (n + 1) gate ++ rs.flatten ++ [.done (n + 1)] ++ ev)
/-- One or more rounds of the phase numbered `id`. -/
inductive Rounds (strict : Prop) : Acts ι → Nat → Nat → List (List (Event ι)) → Prop where
  | one {body id max ev} : Complete strict body id max ev → Rounds strict body id max [.round id :: ev]
  | more {body id max ev rs} : Complete strict body id max ev → Rounds strict body id (maxAfter max ev) rs →
      Rounds strict body id max ((.round id :: ev) :: rs)
end

/-- The events are what user code does when it is run in this order, each piece on the world left by the previous one:
from world `w` to world `w'`. -/
inductive Replay {W : Type} (S : Sem ι W) : W → List (Event ι) → W → Prop where
  | nil {w} : Replay S w [] w
  | leaf {w id lab ev w'} : Replay S (S.leaf lab w id).world ev w' →
      Replay S w (.leaf id lab (S.leaf lab w id).calls :: ev) w'
  | gate {w id g ev w'} : Replay S (S.gate g w).1 ev w' → Replay S w (.gate id g (S.gate g w).2 :: ev) w'
  | check {w id ev w'} : Replay S w ev w' → Replay S w (.check id :: ev) w'
  | round {w id ev w'} : Replay S w ev w' → Replay S w (.round id :: ev) w'
  | done {w id ev w'} : Replay S w ev w' → Replay S w (.done id :: ev) w'

/-- The numbers `(lo, hi]` of the actions below the innermost phase that contains action `i`.  The list `acts` is
numbered from `n + 1` on and lies below a phase whose range is `(lo, hi]`. -/
def scope (lo hi : Nat) : Acts ι → Nat → Nat → Nat × Nat
  | .nil, _, _ => (lo, hi)
  | .leaf _ _ next, n, i => if i = n + 1 then (lo, hi) else scope lo hi next (n + 1) i
  | .phase _ _ _ body next, n, i =>
    if i = n + 1 then (lo, hi)
    else if i ≤ n + 1 + (pre body).length then scope (n + 1) (n + 1 + (pre body).length) body (n + 1) i
    else scope lo hi next (n + 1 + (pre body).length) i

/-- Names on the way to each action occurrence, in pre-order. -/
def paths (above : List CStr) : Acts ι → List (List CStr)
  | .nil => []
  | .leaf name _ next => (above ++ [name]) :: paths above next
  | .phase name _ _ body next => (above ++ [name]) :: (paths (above ++ [name]) body ++ paths above next)

/-- Paths of a whole compiler. -/
def pathsRoot (name : CStr) (body : Acts ι) : List (List CStr) := [name] :: paths [name] body

/-- Equality of paths up to letter case. -/
def SamePath (p q : List CStr) : Prop := p.map (List.map lowerB) = q.map (List.map lowerB)

/-- Greedy matching of a breakpoint path against the path of an action: a component is consumed by the first phase on
the way that has its name, other phases are passed over. -/
def hits : List CStr → List CStr → Prop
  | _, [] => False
  | [], _ :: _ => False
  | [c], [a] => SameName c a
  | _ :: _ :: _, [_] => False
  | [c], _ :: a :: as => hits [c] (a :: as)
  | c :: c2 :: cs, p :: a :: as => (SameName c p ∧ hits (c2 :: cs) (a :: as)) ∨
      (¬ SameName c p ∧ hits (c :: c2 :: cs) (a :: as))

/-- A path written with dots. -/
def dotted : List CStr → CStr
  | [] => []
  | [c] => c
  | c :: cs => c ++ 46 :: dotted cs

/-- A breakpoint (path `bp` and number `k`, 0 meaning none) asks to stop after action `i`, whose path is `p`. -/
def AsksStop (bp : Option (List CStr)) (k i : Nat) (p : List CStr) : Prop :=
  (0 < k ∧ i = k) ∨ ∃ cs, bp = some cs ∧ hits cs p

/-- A path component: not empty, no dot, 7-bit characters. -/
def Component (c : CStr) : Prop := c ≠ [] ∧ (46 : UInt8) ∉ c ∧ Ascii c

end Verif.Spec.PD
