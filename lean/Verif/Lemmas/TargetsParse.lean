import Verif.Lemmas.SemanticText
import Verif.Spec.Targets

/-!
# Lemmas about the numbers that the parser gives
-/

namespace Verif.Targets
open Verif.Parse Verif.Spec.Targets

theorem traversal_index {k : Nat} {ts : List T} {t : Parse.Traversal} {r : List T} (h : TraversalP k ts t r) : t.index = k := by
  cases h <;> rfl

theorem traversal_numbered {s : Parse.St} {t : Parse.Traversal} (h : Numbered s.ast) (ht : t.index = s.travIndex) :
    Numbered (s.addTraversal t).ast := by
  refine ⟨h.nodes, h.nodesOnce, fun u hu => ?_, ?_⟩
  · show u.index < s.travIndex + 1
    rcases List.mem_cons.1 hu with rfl | hu
    · omega
    · have := h.travs u hu
      exact Nat.lt_succ_of_lt this
  · show ((t :: s.traversals).map (·.index)).Nodup
    rw [List.map_cons, List.nodup_cons]
    refine ⟨fun hm => ?_, h.travsOnce⟩
    obtain ⟨u, hu, e⟩ := List.mem_map.1 hm
    have : u.index < s.travIndex := h.travs u hu
    omega

theorem node_numbered {s : Parse.St} {n : Parse.Node} (h : Numbered s.ast) : Numbered (s.addNode n).ast := by
  refine ⟨fun i => ?_, ?_, h.travs, h.travsOnce⟩
  · show (∃ m ∈ { n with index := s.nodeIndex } :: s.nodes, m.index = i) ↔ i < s.nodeIndex + 1
    have hi : (∃ m ∈ s.nodes, m.index = i) ↔ i < s.nodeIndex := h.nodes i
    simp only [List.mem_cons, exists_eq_or_imp, hi]
    omega
  · show (({ n with index := s.nodeIndex } :: s.nodes).map (·.index)).Nodup
    rw [List.map_cons, List.nodup_cons]
    refine ⟨fun hm => ?_, h.nodesOnce⟩
    obtain ⟨u, hu, e⟩ := List.mem_map.1 hm
    have : u.index < s.nodeIndex := (h.nodes _).1 ⟨u, hu, rfl⟩
    simp only at e
    omega

/-- What holds of the state before holds behind. -/
abbrev Keeps (s s' : Parse.St) : Prop := Numbered s.ast → Numbered s'.ast

theorem phase_numbered {s s' : Parse.St} {ts r : List T} {p : Parse.Phase} (h : PhaseP s ts p s' r) : Keeps s s' := by
  refine PhaseP.rec (motive_1 := fun s _ _ s' _ _ => Keeps s s') (motive_2 := fun s _ _ s' _ _ => Keeps s s')
    (motive_3 := fun s _ _ s' _ _ => Keeps s s') (motive_4 := fun s _ _ s' _ _ => Keeps s s') ?_ ?_ ?_ ?_ ?_ ?_ ?_ ?_ ?_ ?_ ?_ ?_
    ?_ ?_ ?_ ?_ ?_ ?_ ?_ ?_ ?_ ?_ ?_ h
  case refine_18 => exact fun _ _ _ _ _ _ _ _ _ _ h1 h2 hs => h2 (h1 hs)
  case refine_20 => exact fun _ _ _ _ h hs => traversal_numbered hs (traversal_index h)
  case refine_21 => exact fun _ _ _ _ _ hs => ⟨hs.nodes, hs.nodesOnce, hs.travs, hs.travsOnce⟩
  case refine_22 => exact fun _ _ _ _ _ _ h hs => ⟨(h hs).nodes, (h hs).nodesOnce, (h hs).travs, (h hs).travsOnce⟩
  case refine_23 => exact fun _ _ _ hs => hs
  all_goals
    intros
    assumption

theorem entry_numbered {s s' : Parse.St} {ts r : List T} (h : Parse.Entry s ts s' r) (hs : Numbered s.ast) : Numbered s'.ast := by
  cases h with
  | phase _ _ p _ h =>
    have := phase_numbered h hs
    exact ⟨this.nodes, this.nodesOnce, this.travs, this.travsOnce⟩
  | pass => exact ⟨hs.nodes, hs.nodesOnce, hs.travs, hs.travsOnce⟩
  | traversal _ t _ h => exact traversal_numbered hs (traversal_index h)
  | node _ n _ h => exact node_numbered hs
  | nodeset _ n _ h => exact ⟨hs.nodes, hs.nodesOnce, hs.travs, hs.travsOnce⟩
  | enum => exact ⟨hs.nodes, hs.nodesOnce, hs.travs, hs.travsOnce⟩

theorem entries_numbered {s s' : Parse.St} {ts r : List T} (h : Entries s ts s' r) (hs : Numbered s.ast) : Numbered s'.ast := by
  induction h with
  | cons _ _ _ _ _ _ h1 _ ih => exact ih (entry_numbered h1 hs)
  | one _ _ _ _ h => exact entry_numbered h hs
  | empty => exact hs

theorem start_numbered : Numbered Parse.start.ast := by
  refine ⟨fun i => ⟨?_, (fun h => by cases h)⟩, List.nodup_nil, (fun t h => by cases h), List.nodup_nil⟩
  rintro ⟨n, h, _⟩
  cases h

end Verif.Targets
