import Verif.Model.Schedule

/-!
# More steps change nothing

The bounds on the numbers of steps in the model of the scheduler only matter while they are too small.
-/

namespace Verif

/-- `y` is the outcome of a run that may have had more steps than that of `x`. -/
def Res.Le {α : Type u} (x y : Res α) : Prop := x = .diverge ∨ x = y

namespace Res

theorem Le.refl {α : Type u} (x : Res α) : Le x x := Or.inr rfl

theorem Le.div {α : Type u} (x : Res α) : Le .diverge x := Or.inl rfl

theorem Le.bind {α β : Type u} {x y : Res α} {f g : α → Res β} (h : Le x y) (hf : ∀ a, Le (f a) (g a)) :
    Le (x >>= f) (y >>= g) := by
  rcases h with rfl | rfl
  · exact Or.inl rfl
  · cases x with
    | ok a => exact hf a
    | ub w => exact Or.inr rfl
    | abort w => exact Or.inr rfl
    | diverge => exact Or.inr rfl

theorem Le.ok {α : Type u} {x y : Res α} {a : α} (h : Le x y) (hx : x = .ok a) : y = .ok a := by
  rcases h with h | h
  · rw [hx] at h; cases h
  · rw [← h]; exact hx

end Res

open Res

namespace Schedule
open Verif.Graph Verif.Induce Verif.Partition Verif.Visits

theorem closeLoop_le : ∀ {a b : Nat}, a ≤ b → ∀ st, Le (closeLoop a st) (closeLoop b st)
  | 0, _, _, _ => Le.div _
  | a + 1, 0, h, _ => absurd h (by omega)
  | a + 1, b + 1, h, st => by
    unfold closeLoop
    refine Le.bind (Le.refl _) fun st => ?_
    split
    · exact Le.refl _
    · exact closeLoop_le (by omega) st
    · exact Le.refl _

variable {a b : Nat} (h : a ≤ b)
include h

theorem closeInto_le (g edges errors) : Le (closeInto a g edges errors) (closeInto b g edges errors) :=
  Le.bind (closeLoop_le h _) fun _ => Le.refl _

theorem nodeGraph_le (S n errors) : Le (generate_graph_node a S n errors) (generate_graph_node b S n errors) := by
  unfold generate_graph_node
  repeat' first
    | exact closeInto_le h _ _ _
    | refine Le.bind (Le.refl _) fun x => ?_

theorem memberGraph_le (s n edges errors) : Le (memberGraph a s n edges errors) (memberGraph b s n edges errors) := by
  unfold memberGraph
  repeat' first
    | exact closeInto_le h _ _ _
    | refine Le.bind (Le.refl _) fun x => ?_

theorem memberGraphs_le (s) : ∀ ms gs edges errors,
    Le (memberGraphs a s gs edges errors ms) (memberGraphs b s gs edges errors ms)
  | [], _, _, _ => Le.refl _
  | _ :: ms, _, _, _ => Le.bind (memberGraph_le h _ _ _ _) fun _ => memberGraphs_le s ms _ _ _

theorem nodeGraphs_le (S) : ∀ ns st, Le (nodeGraphs a S ns st) (nodeGraphs b S ns st)
  | [], _ => Le.refl _
  | _ :: ns, _ => Le.bind (nodeGraph_le h _ _ _) fun _ => nodeGraphs_le S ns _

theorem setGraphs_le (S) : ∀ ss st, Le (setGraphs a S ss st) (setGraphs b S ss st)
  | [], _ => Le.refl _
  | _ :: ss, _ => Le.bind (memberGraphs_le h _ _ _ _ _) fun _ => setGraphs_le S ss _

theorem roundGraphs_le (S current) : ∀ gs induced errors,
    Le (roundGraphs a S current induced errors gs) (roundGraphs b S current induced errors gs)
  | [], _, _ => Le.refl _
  | _ :: gs, _, _ => Le.bind (Le.bind (Le.refl _) fun _ => closeInto_le h _ _ _) fun _ =>
      Le.bind (roundGraphs_le S current gs _ _) fun _ => Le.refl _

theorem roundKeys_le (S current) : ∀ T induced errors,
    Le (roundKeys a S current induced errors T) (roundKeys b S current induced errors T)
  | [], _, _ => Le.refl _
  | _ :: T, _, _ => Le.bind (roundGraphs_le h S current _ _ _) fun _ =>
      Le.bind (roundKeys_le S current T _ _) fun _ => Le.refl _

theorem rounds_le (S) : ∀ {k l : Nat}, k ≤ l → ∀ st, Le (rounds a S k st) (rounds b S l st)
  | 0, _, _, _ => Le.div _
  | k + 1, 0, hk, _ => absurd hk (by omega)
  | k + 1, l + 1, hk, st => by
    unfold rounds
    split
    · exact Le.refl _
    · exact Le.bind (roundKeys_le h S _ _ _ _) fun _ => rounds_le S (by omega) _

theorem graphs_le (order S) : Le (SAVast_graphs a order S) (SAVast_graphs b order S) :=
  Le.bind (nodeGraphs_le h S _ _) fun _ => Le.bind (setGraphs_le h S _ _) fun _ => rounds_le h S h _

omit h in
theorem partLoop_le (A g) : ∀ {a b : Nat}, a ≤ b → ∀ q T, Le (partLoop A g a q T) (partLoop A g b q T)
  | 0, _, _, _, _ => Le.div _
  | a + 1, 0, h, _, _ => absurd h (by omega)
  | a + 1, b + 1, h, q, T => by
    unfold partLoop
    refine Le.bind (Le.refl _) fun x => ?_
    obtain ⟨node, q⟩ := x
    cases node with
    | none => exact Le.refl _
    | some _ => exact Le.bind (Le.refl _) fun _ => partLoop_le A g (by omega) _ _

theorem partition_le (A g k) : Le (partition_nodes A a g k) (partition_nodes A b g k) :=
  Le.bind (Le.refl _) fun _ => Le.bind (partLoop_le A g h _ _) fun _ => Le.refl _

theorem partitionNodes_le (S T) : ∀ ns Ps, Le (partitionNodes a S T ns Ps) (partitionNodes b S T ns Ps)
  | [], _ => Le.refl _
  | n :: ns, _ => by
    unfold partitionNodes
    split
    · exact Le.refl _
    · exact Le.bind (partition_le h _ _ _) fun _ => partitionNodes_le S T ns _

theorem partitionSets_le (S T) : ∀ ss Ps, Le (partitionSets a S T ss Ps) (partitionSets b S T ss Ps)
  | [], _ => Le.refl _
  | n :: ns, _ => by
    unfold partitionSets
    split
    · exact partitionSets_le S T ns _
    · exact Le.bind (partition_le h _ _ _) fun _ => partitionSets_le S T ns _

omit h in
theorem empty_le (s) : ∀ {a b : Nat}, a ≤ b → ∀ V,
    Le (EmptyVisits.generate_empty_visits s a V) (EmptyVisits.generate_empty_visits s b V)
  | 0, _, _, _ => Le.div _
  | a + 1, 0, h, _ => absurd h (by omega)
  | a + 1, b + 1, h, V => by
    unfold EmptyVisits.generate_empty_visits
    refine Le.bind (Le.refl _) fun x => Le.bind (Le.refl _) fun y => ?_
    obtain ⟨V, changes⟩ := y
    cases changes with
    | zero => exact Le.refl _
    | succ _ => exact empty_le s (by omega) _

theorem visits_le (max S T) : Le (SAVast_visits a max S T) (SAVast_visits b max S T) :=
  Le.bind (partitionNodes_le h S T _ _) fun _ => Le.bind (partitionSets_le h S T _ _) fun _ =>
    Le.bind (Le.refl _) fun _ => Le.bind (Le.refl _) fun _ => Le.bind (empty_le _ h _) fun _ =>
    Le.bind (Le.refl _) fun _ => Le.refl _

theorem SAVast_le (max order S) : Le (SAVast a max order S) (SAVast b max order S) := by
  unfold SAVast
  refine Le.bind (graphs_le h order S) fun st => ?_
  split
  · exact Le.bind (visits_le h _ _ _) fun _ => Le.refl _
  · exact Le.refl _

end Schedule

end Verif
