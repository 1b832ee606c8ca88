import Verif.Lemmas.Lifetimes
import Verif.Props.PhaseDriver
import Verif.Props.Ids

/-!
# Properties C29 – C31: lifetimes

The theorems hold for all lists of phases, all trees of actions, all targets and all lists of lifetimes.
-/

namespace Verif.Props
open Verif.Life Verif.Spec.Life Verif.Ids Verif.Str

/-! ## C29 -/

/-- C29 for specifications in which no phase is used twice and no phase that is listed behind the start phase has to do
with the phases the compiler uses: the number found for a target is the one the running compiler shows for the action
the target denotes, at every event of that action and at no event of another action.  The rest of the list holds the
phases written before the start phase, among them all phases written inside it; for these the statement is false
(`C29_inline_false`, `C29_behind_false`, `C29_twice_false`). -/
theorem C29_ids_partial {ι W : Type} {ph : List Phase} {fuel fuel' start : Nat} {x : Phase} {T : Tree} {ids : Addr → Nat}
    {t : Id} {ts : List Id} {nums : Nums} {body : PD.Acts ι}
    (hx : ph[start]? = some x) (hU : Unfolds ph x.actions T) (hN : (start :: used T).Nodup)
    (hL : ∀ j, start < j → j < ph.length → ∀ q ∈ start :: used T, ¬ Reaches ph j q)
    (hA : AITAast ph fuel (some start) = .ok ids)
    (hR : MITLlifetime_range ph ids fuel' start (t :: ts) = .ok (some nums))
    (hT : Runs T body) (S : PD.Sem ι W) (rounds : Nat) (name : CStr) (gate : Option ι) (cycle : Bool) (d : PD.Drv W) :
    ∃ i y z, Denotes T (t :: ts) i y ∧ (Spec.PD.preRoot name gate cycle body)[i + 1]? = some z ∧
      z.name = y.name.orig ∧ nums.id = i + 2 ∧
      ∀ e ∈ (PD.CCNrun S rounds name gate cycle body d).ev,
        (Spec.PD.eid e = nums.id → Spec.PD.Belongs e z) ∧
        ∀ lab n, z = .leaf n lab →
          (∀ (j : Nat) n', (Spec.PD.preRoot name gate cycle body)[j]? = some (.leaf n' lab) → j = i + 1) →
          (∃ id calls, e = .leaf id lab calls) → Spec.PD.eid e = nums.id := by
  have hI := AITAast_spec hx hU hN hL hA
  rcases range_spec hx hU hI hR with ⟨i, y, nums', d1, e, h1, _, _⟩ | ⟨e, _⟩
  · cases e
    obtain ⟨z, hz, hn⟩ := (runs_occ hT).2 i y (denotes_get d1)
    have hz' : (Spec.PD.preRoot name gate cycle body)[i + 1]? = some z := by simpa [Spec.PD.preRoot] using hz
    refine ⟨i, y, z, d1, hz', hn, h1, ?_⟩
    intro e he
    obtain ⟨hpos, w, hw, hb⟩ := C17_ids S rounds name gate cycle body d e he
    refine ⟨fun hid => ?_, fun lab n hzl hu hl => ?_⟩
    · rw [hid, h1, show i + 2 - 0 - 1 = i + 1 by omega, hz'] at hw
      cases hw; exact hb
    · obtain ⟨id, calls, rfl⟩ := hl
      cases w with
      | phase _ _ _ => exact absurd hb (by simp [Spec.PD.Belongs])
      | leaf n' lab' =>
        simp only [Spec.PD.Belongs] at hb
        subst hb
        have := hu _ _ hw
        omega
  · cases e

/-- C29, which targets are found: under the same conditions, if resolving ends then it reports an error exactly if the
target denotes no action.  Missing: as above. -/
theorem C29_found_partial {ph : List Phase} {fuel fuel' start : Nat} {x : Phase} {T : Tree} {ids : Addr → Nat} {t : Id}
    {ts : List Id} {r : Option Nums}
    (hx : ph[start]? = some x) (hU : Unfolds ph x.actions T) (hN : (start :: used T).Nodup)
    (hL : ∀ j, start < j → j < ph.length → ∀ q ∈ start :: used T, ¬ Reaches ph j q)
    (hA : AITAast ph fuel (some start) = .ok ids) (hR : MITLlifetime_range ph ids fuel' start (t :: ts) = .ok r) :
    r = none ↔ ∀ i y, ¬ Denotes T (t :: ts) i y := by
  rcases range_spec hx hU (AITAast_spec hx hU hN hL hA) hR with ⟨i, y, nums, d, e, _⟩ | ⟨e, h⟩
  · subst e
    exact ⟨(fun h => by cases h), fun h => absurd d (h i y)⟩
  · exact ⟨fun _ => h, fun _ => e⟩

/-- C29, numbering and resolving end: if every phase of the specification unfolds to a finite tree and has an action, as
the grammar demands, then with enough fuel numbers are assigned and every target is resolved or reported.  Missing: as
above, and recursive phases, on which the generator recurses without end. -/
theorem C29_ends_partial {ph : List Phase} {start : Nat} {x : Phase} (hx : ph[start]? = some x)
    (hU : ∀ x ∈ ph, x.actions ≠ [] ∧ ∃ T, Unfolds ph x.actions T) :
    ∃ N, ∀ fuel ≥ N, ∃ ids, AITAast ph fuel (some start) = .ok ids ∧
      ∀ ts, ∃ r, MITLlifetime_range ph ids fuel start ts = .ok r := by
  obtain ⟨N, hN⟩ := size_bound (fun y hy => (hU y hy).2)
  refine ⟨N, fun fuel hf => ?_⟩
  have h : ∀ x ∈ ph, ∃ T, Unfolds ph x.actions T ∧ size T < fuel := by
    intro y hy
    obtain ⟨T, h1, h2⟩ := hN y hy
    exact ⟨T, h1, by omega⟩
  have hlt : start < ph.length := by
    rcases Nat.lt_or_ge start ph.length with h | h
    · exact h
    · rw [List.getElem?_eq_none h] at hx; cases hx
  obtain ⟨s, e⟩ := AITAiphase_total h (n := ph.length - start) (p := start) { ids := fun _ => 0, curr := 2 } (by omega)
  exact ⟨s.ids, by rw [AITAast, e, Res.bind_ok], fun ts => range_total hx h (fun y hy => (hU y hy).1) _ ts⟩

/-- C29, at most one action is denoted, so that the position in `C29_ids_partial` is the only one.  Missing: as above. -/
theorem C29_unique_partial {T : Tree} {ts : List Id} {i j : Nat} {y z : Item} (h1 : Denotes T ts i y)
    (h2 : Denotes T ts j z) : i = j ∧ y = z := denotes_unique h1 h2

/-- The specification `start phase s { p; c; }  phase p { q; }  phase q { a; }`, in this order. -/
def deepPhases : List Phase :=
  [⟨mkId [113], none, [.leaf (mkId [97]) none]⟩, ⟨mkId [112], none, [.phase 0]⟩,
    ⟨mkId [115], none, [.phase 1, .leaf (mkId [99]) (some (mkId [67, 67]))]⟩]

/-- Its tree. -/
def deepTree : Tree :=
  .phase 1 (mkId [112]) none (.phase 0 (mkId [113]) none (.leaf (mkId [97]) none .nil) .nil)
    (.leaf (mkId [99]) (some (mkId [67, 67])) .nil)

theorem deep_unfolds : Unfolds deepPhases [.phase 1, .leaf (mkId [99]) (some (mkId [67, 67]))] deepTree :=
  .phase (x := ⟨mkId [112], none, [.phase 0]⟩) rfl
    (.phase (x := ⟨mkId [113], none, [.leaf (mkId [97]) none]⟩) rfl (.leaf .nil) .nil) (.leaf .nil)

/-- The hypotheses of `C29_ends_partial` hold. -/
example : ∀ x ∈ deepPhases, x.actions ≠ [] ∧ ∃ T, Unfolds deepPhases x.actions T := by
  have hq : Unfolds deepPhases [.leaf (mkId [97]) none] (.leaf (mkId [97]) none .nil) := .leaf .nil
  have hp := Unfolds.phase (ph := deepPhases) (q := 0) (x := ⟨mkId [113], none, [.leaf (mkId [97]) none]⟩) rfl hq .nil
  intro x hx
  simp only [deepPhases, List.mem_cons, List.not_mem_nil, or_false] at hx
  rcases hx with rfl | rfl | rfl
  · exact ⟨by decide, _, hq⟩
  · exact ⟨by decide, _, hp⟩
  · exact ⟨by decide, _, deep_unfolds⟩

/-- The hypotheses of `C29_ids_partial` hold for `P.q.A` and for the unique id `cc`, written in other letter case. -/
example : ∃ ids, deepPhases[2]? = some ⟨mkId [115], none, [.phase 1, .leaf (mkId [99]) (some (mkId [67, 67]))]⟩ ∧
    (2 :: used deepTree).Nodup ∧ (∀ j, 2 < j → j < deepPhases.length → ∀ q ∈ 2 :: used deepTree, ¬ Reaches deepPhases j q) ∧
    AITAast deepPhases 9 (some 2) = .ok ids ∧
    MITLlifetime_range deepPhases ids 9 2 [mkId [80], mkId [113], mkId [65]] = .ok (some ⟨4, 5⟩) ∧
    MITLlifetime_range deepPhases ids 9 2 [mkId [99, 99]] = .ok (some ⟨5, 6⟩) ∧
    MITLlifetime_range deepPhases ids 9 2 [mkId [97], mkId [99]] = .ok none ∧
    Runs deepTree (.phase [112] none true (.phase [113] (some 0) false (.leaf [97] 1 .nil) .nil) (.leaf [99] 2 .nil)) ∧
    .leaf 4 1 [.notify] ∈ (PD.CCNrun { demoSem with gate := fun _ w => (w, true) } 3 [115] none false
      (.phase [112] none true (.phase [113] (some 0) false (.leaf [97] 1 .nil) .nil) (.leaf [99] 2 .nil))
      (PD.initial ())).ev := by
  refine ⟨_, rfl, by decide, ?_, rfl, by decide, by decide, by decide, .phase (.phase (.leaf .nil) .nil) (.leaf .nil), by decide⟩
  intro j h1 h2
  exact absurd h2 (by simp [deepPhases]; omega)

/-- The specification `start phase s { phase p { a; }; c; }`: the phase written inside is listed behind. -/
def inlinePhases : List Phase :=
  [⟨mkId [115], none, [.phase 1, .leaf (mkId [99]) none]⟩, ⟨mkId [112], none, [.leaf (mkId [97]) none]⟩]

/-- Its tree. -/
def inlineTree : Tree :=
  .phase 1 (mkId [112]) none (.leaf (mkId [97]) none .nil) (.leaf (mkId [99]) none .nil)

/-- C29 is false for a phase written inside the start phase: the action `a` of the inner phase is found with number 5,
but it runs with number 3, and no action of this compiler has number 5. -/
theorem C29_inline_false :
    Unfolds inlinePhases [.phase 1, .leaf (mkId [99]) none] inlineTree ∧ (0 :: used inlineTree).Nodup ∧
    (∃ ids, AITAast inlinePhases 9 (some 0) = .ok ids ∧
      MITLlifetime_range inlinePhases ids 9 0 [mkId [97]] = .ok (some ⟨5, 6⟩)) ∧
    Denotes inlineTree [mkId [97]] 1 (.leaf (mkId [97]) none) ∧
    Runs inlineTree (.phase [112] none false (.leaf [97] 8 .nil) (.leaf [99] 9 .nil)) ∧
    (PD.CCNrun demoSem 3 [115] none false (.phase [112] none false (.leaf [97] 8 .nil) (.leaf [99] 9 .nil))
      { PD.initial () with treeCheck := false }).ev =
      [.round 1, .round 2, .leaf 3 8 [], .done 3, .done 2, .leaf 4 9 [], .done 4, .done 1] := by
  refine ⟨.phase (x := ⟨mkId [112], none, [.leaf (mkId [97]) none]⟩) rfl (.leaf .nil) (.leaf .nil), by decide,
    ⟨_, rfl, by decide⟩, .here ⟨rfl, .inl rfl, ?_⟩,
    .phase (.leaf .nil) (.leaf .nil), by decide⟩
  intro j y hj hy
  have : j = 0 := by omega
  subst this
  simp only [inlineTree, occ, List.getElem?_cons_zero, Option.some.injEq] at hy
  subst hy
  simp only [Answers]
  rintro (h | ⟨_, h, _⟩)
  · exact absurd h (by decide)
  · cases h

/-- C29 is false for every specification with a phase that is used and listed behind the start phase: the first action
of that phase has a number that is larger than the number of any action of the running compiler. -/
theorem C29_behind_false {ι W : Type} {ph : List Phase} {fuel start q : Nat} {x : Phase} {T : Tree} {ids : Addr → Nat}
    {body : PD.Acts ι} (hx : ph[start]? = some x) (hU : Unfolds ph x.actions T)
    (hA : AITAast ph fuel (some start) = .ok ids) (h1 : start < q) (h2 : actionAt ph q 0 ≠ none) (hT : Runs T body)
    (S : PD.Sem ι W) (rounds : Nat) (name : CStr) (gate : Option ι) (cycle : Bool) (d : PD.Drv W) :
    ∀ e ∈ (PD.CCNrun S rounds name gate cycle body d).ev, Spec.PD.eid e < ids (q, 0) := by
  intro e he
  have hb := AITAast_behind hx hU hA h1 h2
  obtain ⟨hpos, w, hw, _⟩ := C17_ids S rounds name gate cycle body d e he
  have hl : Spec.PD.eid e - 0 - 1 < (Spec.PD.preRoot name gate cycle body).length := by
    rcases Nat.lt_or_ge (Spec.PD.eid e - 0 - 1) (Spec.PD.preRoot name gate cycle body).length with h | h
    · exact h
    · rw [List.getElem?_eq_none h] at hw; cases hw
  simp only [Spec.PD.preRoot, List.length_cons, (runs_occ hT).1] at hl
  omega

example : inlinePhases[0]? = some ⟨mkId [115], none, [.phase 1, .leaf (mkId [99]) none]⟩ ∧
    actionAt inlinePhases 1 0 ≠ none ∧ 1 ∈ used inlineTree ∧ ∃ ids, AITAast inlinePhases 9 (some 0) = .ok ids :=
  ⟨rfl, by decide, by decide, _, rfl⟩

/-- The specification `start phase s { p; c; p; }  phase p { a; }`. -/
def twicePhases : List Phase :=
  [⟨mkId [112], none, [.leaf (mkId [97]) none]⟩,
    ⟨mkId [115], none, [.phase 0, .leaf (mkId [99]) none, .phase 0]⟩]

/-- C29 is false for a phase that is used twice: the target `a` means the first occurrence, which runs with number 3, but
it is found with number 6, the number of the second occurrence. -/
theorem C29_twice_false :
    (∃ ids, AITAast twicePhases 9 (some 1) = .ok ids ∧
      MITLlifetime_range twicePhases ids 9 1 [mkId [97]] = .ok (some ⟨6, 7⟩)) ∧
    ∃ T body, Unfolds twicePhases [.phase 0, .leaf (mkId [99]) none, .phase 0] T ∧
      Denotes T [mkId [97]] 1 (.leaf (mkId [97]) none) ∧ Runs T body ∧
      (PD.CCNrun demoSem 3 [115] none false body { PD.initial () with treeCheck := false }).ev.filter
        (fun e => match e with | .leaf _ _ _ => true | _ => false) = [.leaf 3 8 [], .leaf 4 9 [], .leaf 6 8 []] := by
  refine ⟨⟨_, rfl, by decide⟩, _, .phase [112] none false (.leaf [97] 8 .nil)
    (.leaf [99] 9 (.phase [112] none false (.leaf [97] 8 .nil) .nil)),
    .phase rfl (.leaf .nil) (.leaf (.phase rfl (.leaf .nil) .nil)), .here ⟨rfl, .inl rfl, ?_⟩,
    .phase (.leaf .nil) (.leaf (.phase (.leaf .nil) .nil)), by decide⟩
  intro j y hj hy
  have : j = 0 := by omega
  subst this
  simp only [occ, List.getElem?_cons_zero, Option.some.injEq] at hy
  subst hy
  simp only [Answers]
  rintro (h | ⟨_, h, _⟩)
  · exact absurd h (by decide)
  · cases h

/-! ## C30 -/

/-- C30, the numbers of a phase: under the conditions of `C29_ids_partial` the number behind a target that denotes a
phase is the number behind the whole phase, less the number of actions nested below the last action of the phase.  So
it is right exactly if the last action has none below it.  Missing: the conditions of C29. -/
theorem C30_exact_partial {ph : List Phase} {fuel fuel' start : Nat} {x : Phase} {T : Tree} {ids : Addr → Nat} {t : Id}
    {ts : List Id} {nums : Nums} {i q : Nat} {n : Id} {u : Option Id} {body : Tree}
    (hx : ph[start]? = some x) (hU : Unfolds ph x.actions T) (hN : (start :: used T).Nodup)
    (hL : ∀ j, start < j → j < ph.length → ∀ q ∈ start :: used T, ¬ Reaches ph j q)
    (hA : AITAast ph fuel (some start) = .ok ids)
    (hR : MITLlifetime_range ph ids fuel' start (t :: ts) = .ok (some nums))
    (hD : Denotes T (t :: ts) i (.phase q n u body)) :
    nums.id = i + 2 ∧ nums.next + belowLast body = i + 3 + size body := by
  rcases range_spec hx hU (AITAast_spec hx hU hN hL hA) hR with ⟨j, y, nums', d, e, h1, _, h3⟩ | ⟨e, _⟩
  · cases e
    obtain ⟨rfl, rfl⟩ := denotes_unique hD d
    exact ⟨h1, h3 _ _ _ _ rfl⟩
  · cases e

/-- C30 for phases whose last action is no phase with actions: an inclusive end covers the phase and every action nested
in it (these are the next `size body` occurrences) and nothing behind; an exclusive beginning starts with the first
action behind the whole phase; an exclusive end stops before the phase and an inclusive beginning starts with it.
Missing: phases whose last action is a phase with actions, where it is false (`C30_nested_end_false`), and the
conditions of C29. -/
theorem C30_phase_partial {ph : List Phase} {fuel fuel' start : Nat} {x : Phase} {T : Tree} {ids : Addr → Nat} {t : Id}
    {ts : List Id} {nums : Nums} {i q : Nat} {n : Id} {u : Option Id} {body : Tree}
    (hx : ph[start]? = some x) (hU : Unfolds ph x.actions T) (hN : (start :: used T).Nodup)
    (hL : ∀ j, start < j → j < ph.length → ∀ q ∈ start :: used T, ¬ Reaches ph j q)
    (hA : AITAast ph fuel (some start) = .ok ids)
    (hR : MITLlifetime_range ph ids fuel' start (t :: ts) = .ok (some nums))
    (hD : Denotes T (t :: ts) i (.phase q n u body)) (hE : belowLast body = 0) :
    (∀ j < size body, (occ T)[i + 1 + j]? = (occ body)[j]?) ∧
    ∀ m, (InRange none (some ⟨true, nums⟩) (m + 2) ↔ m ≤ i + size body) ∧
      (InRange (some ⟨false, nums⟩) none (m + 2) ↔ i + size body < m) ∧
      (InRange none (some ⟨false, nums⟩) (m + 2) ↔ m < i) ∧ (InRange (some ⟨true, nums⟩) none (m + 2) ↔ i ≤ m) := by
  obtain ⟨h1, h2⟩ := C30_exact_partial hx hU hN hL hA hR hD
  refine ⟨occ_body (denotes_get hD), fun m => ?_⟩
  simp only [InRange, reduceCtorEq, false_implies, implies_true, true_and, and_true, Option.some.injEq, forall_eq',
    Bool.true_eq_false, Bool.false_eq_true]
  exact ⟨by simp; omega, by simp; omega, by simp; omega, by simp; omega⟩

/-- The target `q` in the specification above meets the hypotheses: one action, which is a pass. -/
example : ∃ ids, AITAast deepPhases 9 (some 2) = .ok ids ∧
    MITLlifetime_range deepPhases ids 9 2 [mkId [113]] = .ok (some ⟨3, 5⟩) ∧
    Denotes deepTree [mkId [113]] 1 (.phase 0 (mkId [113]) none (.leaf (mkId [97]) none .nil)) ∧
    belowLast (.leaf (mkId [97]) none .nil) = 0 := by
  refine ⟨_, rfl, by decide, .here ⟨rfl, .inl rfl, ?_⟩, rfl⟩
  intro j y hj hy
  have : j = 0 := by omega
  subst this
  simp only [deepTree, occ, List.getElem?_cons_zero, Option.some.injEq] at hy
  subst hy
  simp only [Answers]
  rintro (h | ⟨_, h, _⟩)
  · exact absurd h (by decide)
  · cases h

/-- C30 for passes and traversals: the number behind is the next one.  Missing: the conditions of C29. -/
theorem C30_leaf_partial {ph : List Phase} {fuel fuel' start : Nat} {x : Phase} {T : Tree} {ids : Addr → Nat} {t : Id}
    {ts : List Id} {nums : Nums} {i : Nat} {n : Id} {u : Option Id}
    (hx : ph[start]? = some x) (hU : Unfolds ph x.actions T) (hN : (start :: used T).Nodup)
    (hL : ∀ j, start < j → j < ph.length → ∀ q ∈ start :: used T, ¬ Reaches ph j q)
    (hA : AITAast ph fuel (some start) = .ok ids)
    (hR : MITLlifetime_range ph ids fuel' start (t :: ts) = .ok (some nums))
    (hD : Denotes T (t :: ts) i (.leaf n u)) : nums.id = i + 2 ∧ nums.next = i + 3 := by
  rcases range_spec hx hU (AITAast_spec hx hU hN hL hA) hR with ⟨j, y, nums', d, e, h1, h2, _⟩ | ⟨e, _⟩
  · cases e
    obtain ⟨rfl, rfl⟩ := denotes_unique hD d
    exact ⟨h1, h2 _ _ rfl⟩
  · cases e

example : Denotes deepTree [mkId [67, 67]] 3 (.leaf (mkId [99]) (some (mkId [67, 67]))) := by
  refine .here ⟨rfl, .inr ⟨_, rfl, rfl⟩, ?_⟩
  intro j y hj hy
  simp only [deepTree, occ, List.cons_append, List.nil_append] at hy
  match j, hj with
  | 0, _ =>
    cases hy; rintro (h | ⟨_, h, _⟩)
    · exact absurd h (by decide)
    · cases h
  | 1, _ =>
    cases hy; rintro (h | ⟨_, h, _⟩)
    · exact absurd h (by decide)
    · cases h
  | 2, _ =>
    cases hy; rintro (h | ⟨_, h, _⟩)
    · exact absurd h (by decide)
    · cases h

/-- C30 is false for a phase that ends with another phase: in `s { p { q { a } } c }` all conditions of C29 hold, and the
target `p` covers the numbers up to 3 only.  The action `a`, number 4, is nested in `p`; it is outside of a range with
inclusive end `p`, and inside of one with exclusive beginning `p`. -/
theorem C30_nested_end_false :
    Unfolds deepPhases [.phase 1, .leaf (mkId [99]) (some (mkId [67, 67]))] deepTree ∧ (2 :: used deepTree).Nodup ∧
    (∃ ids, AITAast deepPhases 9 (some 2) = .ok ids ∧
      MITLlifetime_range deepPhases ids 9 2 [mkId [112]] = .ok (some ⟨2, 4⟩)) ∧
    Denotes deepTree [mkId [112]] 0 (.phase 1 (mkId [112]) none (.phase 0 (mkId [113]) none (.leaf (mkId [97]) none .nil) .nil)) ∧
    (occ deepTree)[2]? = some (.leaf (mkId [97]) none) ∧
    ¬ InRange none (some ⟨true, ⟨2, 4⟩⟩) 4 ∧ InRange (some ⟨false, ⟨2, 4⟩⟩) none 4 := by
  refine ⟨deep_unfolds, by decide, ⟨_, rfl, by decide⟩, .here ⟨rfl, .inl rfl, fun j _ hj => absurd hj (by omega)⟩, rfl,
    ?_, ?_⟩
  · intro h; exact absurd ((h.2 _ rfl).1 rfl) (by decide)
  · refine ⟨fun r h => ?_, fun r h => by cases h⟩
    cases h
    exact ⟨(fun h => by cases h), fun _ => by decide⟩

/-! ## C31 -/

/-- C31 for nodes, children and attributes with at most one lifetime each: the generated check of a tree reports an error
about a node, child or attribute exactly if some node of the tree has that child or attribute (or itself) in a state
which its lifetime forbids at the current action, or has a child of a wrong type.  Missing: further lifetimes, which
are ignored (`C31_second_false`), and `allowed` with a range for children and attributes, for which the generated
code cannot be built (`C31_builds_false`). -/
theorem C31_check_partial {ds : List NodeDecl} {cs : List Chk} (hS : ∀ d ∈ ds, Single d) (hg : genAll ds = .ok cs)
    (i : Nat) {n : Node} {rs : List Report} (h : chk i cs n = .ok rs) (r : Report) :
    r ∈ rs ↔ ∃ m ty kids attrs d, Within m n ∧ m = Node.mk ty kids attrs ∧ ds[ty]? = some d ∧
      Wrong d i kids.list attrs r := by
  obtain ⟨hl, hgen⟩ := genAll_get hg
  rw [mem_chk n h r]
  constructor
  · rintro ⟨m, ty, kids, attrs, c, hw, e, hc, hr⟩
    have hlt : ty < ds.length := by
      rcases Nat.lt_or_ge ty cs.length with h | h
      · omega
      · rw [List.getElem?_eq_none h] at hc; cases hc
    obtain ⟨c', hc', hg'⟩ := hgen ty _ (List.getElem?_eq_getElem hlt)
    rw [hc] at hc'
    cases hc'
    exact ⟨m, ty, kids, attrs, _, hw, e, List.getElem?_eq_getElem hlt,
      (chkNode_iff (hS _ (List.getElem_mem hlt)) hg' i _ _ r).mp hr⟩
  · rintro ⟨m, ty, kids, attrs, d, hw, e, hd, hr⟩
    obtain ⟨c, hc, hg'⟩ := hgen ty d hd
    exact ⟨m, ty, kids, attrs, c, hw, e, hc, (chkNode_iff (hS _ (List.mem_of_getElem? hd)) hg' i _ _ r).mpr hr⟩

/-- Two node types: a node with a child that is mandatory in `[2, 4)` and an attribute that is optional in `[3, ∞)`; a
node that is disallowed from 3 on. -/
def lifeDecls : List NodeDecl :=
  [⟨[⟨[1], [⟨.mandatory, some ⟨true, ⟨2, 3⟩⟩, some ⟨false, ⟨4, 5⟩⟩⟩]⟩], [[⟨.optional, some ⟨false, ⟨2, 3⟩⟩, none⟩]], []⟩,
    ⟨[], [], [⟨.disallowed, some ⟨true, ⟨3, 4⟩⟩, none⟩]⟩]

/-- The code generated for them. -/
def lifeChks : List Chk :=
  [⟨[([1], [⟨true, [.ge 2, .lt 4], some false, .CTI⟩])], [[⟨false, [.lt 3], some false, .CTI⟩]], []⟩,
    ⟨[], [], [⟨true, [.ge 3], none, .CTI⟩]⟩]

example : (∀ d ∈ lifeDecls, Single d) ∧ genAll lifeDecls = .ok lifeChks ∧ builds lifeChks = true ∧
    chk 2 lifeChks (.mk 0 (.none .nil) [false]) = .ok [.child 0, .attr 0] ∧
    chk 3 lifeChks (.mk 0 (.none .nil) [false]) = .ok [.child 0] ∧
    chk 4 lifeChks (.mk 0 (.none .nil) [false]) = .ok [] ∧
    chk 2 lifeChks (.mk 0 (.some (.mk 1 .nil []) .nil) [true]) = .ok [] ∧
    chk 3 lifeChks (.mk 0 (.some (.mk 1 .nil []) .nil) [true]) = .ok [.node] ∧
    chk 5 lifeChks (.mk 0 (.some (.mk 0 (.none .nil) [true]) .nil) [true]) = .ok [.type 0] := by
  refine ⟨?_, by rfl, by decide, by rfl, by rfl, by rfl, by rfl, by rfl, by rfl⟩
  simp [lifeDecls, Single]

/-- C31, the generated code can be built exactly if no child and no attribute has, as its first lifetime, `allowed` with
a range.  Missing: the rest of C31. -/
theorem C31_builds_partial {ds : List NodeDecl} {cs : List Chk} (hg : genAll ds = .ok cs) :
    builds cs = true ↔ ∀ d ∈ ds, ∀ ls, (ls ∈ d.children.map Child.lifetimes ∨ ls ∈ d.attrs) → ∀ l, ls.head? = some l →
      ¬ (l.kind = .allowed ∧ (l.begin ≠ none ∨ l.fin ≠ none)) := by
  have hf : ∀ ls : List Lifetime, (fieldLifetimes ls).all Stmt.builds = true ↔ ∀ l, ls.head? = some l →
      ¬ (l.kind = .allowed ∧ (l.begin ≠ none ∨ l.fin ≠ none)) := by
    intro ls
    cases ls with
    | nil => simp [fieldLifetimes]
    | cons l ls =>
      obtain ⟨k, b, f⟩ := l
      cases k <;> cases b <;> cases f <;> simp [fieldLifetimes, fieldGen, Stmt.builds]
  have hn : ∀ {ls : List Lifetime} {ss}, nodeLifetimes ls = .ok ss → ss.all Stmt.builds = true := by
    intro ls ss h
    cases ls with
    | nil => cases h; rfl
    | cons l ls =>
      obtain ⟨k, b, f⟩ := l
      cases k <;> simp only [nodeLifetimes, nodeGen, Res.ok.injEq, reduceCtorEq] at h
      · subst h; rfl
      · subst h; split <;> rfl
  have h1 : ∀ {d : NodeDecl} {c : Chk}, genNode d = .ok c →
      ((c.children.all (fun x => x.2.all Stmt.builds) && c.attrs.all (fun x => x.all Stmt.builds) &&
        c.node.all Stmt.builds) = true ↔ ∀ ls, (ls ∈ d.children.map Child.lifetimes ∨ ls ∈ d.attrs) → ∀ l,
          ls.head? = some l → ¬ (l.kind = .allowed ∧ (l.begin ≠ none ∨ l.fin ≠ none))) := by
    intro d c h
    simp only [genNode, Res.bind_eq_ok, Res.ok.injEq] at h
    obtain ⟨ss, e, rfl⟩ := h
    have e1 : ((d.children.map (fun c => (c.types, fieldLifetimes c.lifetimes))).all
        (fun x => x.2.all Stmt.builds)) = true ↔ ∀ ls ∈ d.children.map Child.lifetimes,
          (fieldLifetimes ls).all Stmt.builds = true := by
      rw [List.all_map, List.all_eq_true]
      simp only [List.mem_map, forall_exists_index, and_imp, forall_apply_eq_imp_iff₂, Function.comp]
    have e2 : ((d.attrs.map fieldLifetimes).all (fun x => x.all Stmt.builds)) = true ↔ ∀ ls ∈ d.attrs,
          (fieldLifetimes ls).all Stmt.builds = true := by
      rw [List.all_map, List.all_eq_true]; rfl
    rw [Bool.and_eq_true, Bool.and_eq_true, e1, e2]
    constructor
    · rintro ⟨⟨a, b⟩, _⟩ ls (h | h)
      · exact (hf ls).mp (a ls h)
      · exact (hf ls).mp (b ls h)
    · intro h
      exact ⟨⟨fun ls hl => (hf ls).mpr (h ls (.inl hl)), fun ls hl => (hf ls).mpr (h ls (.inr hl))⟩, hn e⟩
  induction ds generalizing cs with
  | nil => cases hg; simp [builds]
  | cons d ds ih =>
    simp only [genAll, Res.bind_eq_ok, Res.ok.injEq] at hg
    obtain ⟨c, g1, cs', g2, rfl⟩ := hg
    have := ih g2
    rw [builds, List.all_cons, Bool.and_eq_true, h1 g1]
    rw [builds] at this
    rw [List.forall_mem_cons]
    exact and_congr Iff.rfl this

example : ∃ cs, genAll lifeDecls = .ok cs := ⟨lifeChks, rfl⟩

/-- C31 is false: of two lifetimes of a node only the first is enforced.  The node is disallowed up to action 2 and
disallowed from action 9 on; at action 9 nothing is reported. -/
theorem C31_second_false :
    ∃ (d : NodeDecl) (cs : List Chk) (l : Lifetime), genAll [d] = .ok cs ∧ builds cs = true ∧ l ∈ d.lifetimes ∧
      Forbids l 9 true ∧ chk 9 cs (.mk 0 .nil []) = .ok [] := by
  refine ⟨⟨[], [], [⟨.disallowed, none, some ⟨true, ⟨2, 3⟩⟩⟩, ⟨.disallowed, some ⟨true, ⟨9, 10⟩⟩, none⟩]⟩, _, _, rfl,
    by decide, .tail _ (.head _), ?_, rfl⟩
  refine ⟨⟨fun r h => ?_, fun r h => by cases h⟩, rfl⟩
  cases h
  exact ⟨fun _ => by decide, fun h => by cases h⟩

/-- C31 is false: a child that is allowed in a range makes the generated code call a function that does not exist. -/
theorem C31_builds_false :
    ∃ cs, genAll [⟨[⟨[0], [⟨.allowed, some ⟨true, ⟨2, 3⟩⟩, none⟩]⟩], [], []⟩] = .ok cs ∧ builds cs = false :=
  ⟨_, rfl, by decide⟩

end Verif.Props
