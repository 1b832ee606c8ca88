import Verif.Lemmas.ChildTable

/-!
# Property C25: recursive nodesets and child tables
-/

namespace Verif.Props
open Verif.ChildTable Verif.Spec.ChildTable Verif.Spec.Graph

/-- C25: if all references are resolved the pass finishes; it reports an error exactly if a nodeset refers to itself,
directly or through others, and otherwise the table of each nodeset lists, without repetition, exactly the nodesets that
can be reached from it.  A nodeset is marked exactly if its own expression has an intersection or a difference. -/
theorem C25_tables (sets : List SExpr) (hres : ∀ e ∈ sets, Resolved sets.length e) (fuel : Nat)
    (hf : sets.length ≤ fuel) :
    ∃ s, NCTast sets fuel = .ok s ∧ (s.errors = 0 ↔ ¬ Cyclic (Refers sets)) ∧
      (¬ Cyclic (Refers sets) → ∀ i, i < sets.length →
        (s.table i).Nodup ∧ ∀ k, k ∈ s.table i ↔ Path (Refers sets) i k) ∧
      ∀ i e, sets[i]? = some e → (s.illegal i = true ↔ HasInterOrDiff e) := by
  obtain ⟨s, h1, v, h2⟩ := NCTast_spec hres hf
  have hlt : ∀ {i e}, sets[i]? = some e → i < sets.length := fun h => by
    rcases Nat.lt_or_ge _ sets.length with h' | h'
    · exact h'
    · rw [List.getElem?_eq_none h'] at h; cases h
  have he : s.errors = 0 ↔ ¬ Cyclic (Refers sets) := by
    constructor
    · rintro h ⟨i, hi⟩
      have : i < sets.length := by
        cases hi with
        | edge h => obtain ⟨e, he, _⟩ := h; exact hlt he
        | step h _ => obtain ⟨e, he, _⟩ := h; exact hlt he
      exact (v.table h i (h2 i this)).2.2 hi
    · intro h
      rcases Nat.eq_zero_or_pos s.errors with h' | h'
      · exact h'
      · exact absurd (v.cyclic (by omega)) h
  exact ⟨s, h1, he, fun hc i hi => ⟨(v.table (he.2 hc) i (h2 i hi)).1, (v.table (he.2 hc) i (h2 i hi)).2.1⟩,
    fun i e hi => v.ill i e (h2 i (hlt hi)) hi⟩

/-- `A = {…} | B & C`, `B = C`, `C = {…}`, `D = B - A`. -/
def setsA : List SExpr :=
  [.op false .lit (.op true (.ref (some 1)) (.ref (some 2))), .ref (some 2), .lit, .op true (.ref (some 1)) (.ref (some 0))]

/-- The hypotheses hold for the sample. -/
example : (∀ e ∈ setsA, Resolved setsA.length e) ∧ setsA.length ≤ 4 := by
  refine ⟨fun e he => ?_, by decide⟩
  simp only [setsA, List.mem_cons, List.not_mem_nil, or_false] at he
  rcases he with rfl | rfl | rfl | rfl
  · exact ⟨trivial, ⟨1, rfl, by decide⟩, ⟨2, rfl, by decide⟩⟩
  · exact ⟨2, rfl, by decide⟩
  · trivial
  · exact ⟨⟨1, rfl, by decide⟩, ⟨0, rfl, by decide⟩⟩

/-- What the run gives for the sample, and for a recursive variant. -/
example : (match NCTast setsA 4 with
    | .ok s => some (s.errors, (List.range 4).map s.table, (List.range 4).map s.illegal)
    | _ => none) = some (0, [[2, 1], [2], [], [2, 1, 0]], [true, false, false, true]) ∧
  (match NCTast (setsA.set 2 (.ref (some 3))) 4 with
    | .ok s => some s.errors
    | _ => none) = some 2 := by decide

/-- C25: a reference that is not resolved is a failed assertion. -/
theorem C25_unresolved : NCTast [.ref none] 1 = .abort "assert reference" := rfl

end Verif.Props
