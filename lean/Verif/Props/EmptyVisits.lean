import Verif.Lemmas.EmptyVisits

/-!
# Property C43: every visit can be reached from the root
-/

namespace Verif.Props
open Verif.EmptyVisits Verif.Spec.EmptyVisits

/-- C43, partial: if every child type and every member of a nodeset has an entry in the table of visits, adding empty
visits ends.  Then a type has a visit exactly when it had one or a type below it had one; the types that had visits
keep them, and the others get at most one.  Missing: children whose type is an empty nodeset (`C43_empty_nodeset_false`). -/
theorem C43_reachable_partial (s : Types) (V : Visits) (hk : ∀ a b, Below s a b → V a ≠ none → V b ≠ none) :
    ∃ (V' : Visits) (N : Nat), (∀ fuel, N ≤ fuel → generate_empty_visits s fuel V = .ok V') ∧
      (∀ t, V' t = none ↔ V t = none) ∧
      (∀ t n, V t = some (n + 1) → V' t = some (n + 1)) ∧
      (∀ t, V t = some 0 → V' t = some (0 : Nat) ∨ V' t = some 1) ∧
      (∀ t, V t ≠ none → ((∃ n, V' t = some (n + 1)) ↔ ∃ t' n, Reaches s t t' ∧ V t' = some (n + 1))) := by
  have v0 : EInv s V V := ⟨fun _ => Iff.rfl, fun _ _ h => h, fun _ _ h => Or.inl h⟩
  obtain ⟨V', N, e, v, hs⟩ := empty_spec hk (left s V) V v0 (Nat.le_refl _)
  refine ⟨V', N, e, v.some, v.keep, fun t h0 => ?_, fun t ht => ⟨fun h => ?_, ?_⟩⟩
  · cases h : V' t with
    | none => rw [(v.some t).1 h] at h0; cases h0
    | some n =>
      cases n with
      | zero => exact Or.inl rfl
      | succ n =>
        rcases v.new t n h with h1 | ⟨_, rfl, _⟩
        · rw [h1] at h0; cases h0
        · exact Or.inr rfl
  · obtain ⟨t', h1, n, h2⟩ := v.has h
    exact ⟨t', n, h1, h2⟩
  · rintro ⟨t', n, h1, h2⟩
    induction h1 with
    | refl => exact ⟨n, v.keep _ _ h2⟩
    | step hb _ ih => exact hs _ (by rw [ne_eq, v.some]; exact ht) _ hb (ih (hk _ _ hb ht) h2)

/-- Root, nodeset, leaf; only the leaf has visits. -/
def typesRL : Types := { nodes := [[.set 0], []], sets := [[.node 1]] }

/-- The visits before. -/
def visitsRL : Visits := fun t => match t with
  | .node 1 => some 2
  | _ => some 0

example : (∀ a b, Below typesRL a b → visitsRL a ≠ none → visitsRL b ≠ none) ∧
    (match generate_empty_visits typesRL 5 visitsRL with
      | .ok V => [V (.node 0), V (.node 1), V (.set 0)]
      | _ => []) = [some 1, some 2, some 1] :=
  ⟨fun a b _ _ => by unfold visitsRL; split <;> simp, by decide⟩

/-- C43 is false for specifications with an empty nodeset: `SAVast` makes no entry for it, and a node type without visits
that has a child of that type runs into the assertion. -/
theorem C43_empty_nodeset_false : ∃ (s : Types) (V : Visits), (∀ i, V (.set i) = none → s.sets[i]? = some [] ∨ s.sets[i]? = none) ∧
    (∀ i, V (.node i) = some 0) ∧ ∀ fuel, (generate_empty_visits s (fuel + 1) V).isAbort = true :=
  ⟨{ nodes := [[.set 0]], sets := [[]] }, fun t => match t with
    | .node _ => some 0
    | .set _ => none, fun i _ => by
      cases i with
      | zero => exact Or.inl rfl
      | succ i => exact Or.inr rfl, fun _ => rfl, fun _ => rfl⟩

end Verif.Props
