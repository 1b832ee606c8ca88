import Verif.Lemmas.Propagate

/-!
# Property C26: attributes of nodesets
-/

namespace Verif.Props
open Verif.Propagate Verif.Spec.Propagate

/-- C26: the pass finishes; if it reports no error, every member of a nodeset has each attribute declared in the nodeset
with the same type and kind, no node or nodeset has two attributes of the same name, and no attribute that a node received
has the name of a child.  Nothing is lost, and nothing is added but copies of attributes of the nodesets above. -/
theorem C26_members (env : Env) (init : Target → List Attr) (st : Start env init) :
    ∃ s, PRAast env init = .ok s ∧
      (∀ t b, b ∈ init t → b ∈ s.attrs t) ∧
      (∀ t b, b ∈ s.attrs t → b ∈ init t ∨ ∃ i a, Receives env init t i a ∧ b = { a with propagated := true }) ∧
      (s.errors = 0 →
        (∀ t i a, Receives env init t i a → ∃ b, b ∈ s.attrs t ∧ SameSignature a b) ∧
        (∀ t, Distinct (s.attrs t)) ∧
        (∀ m b, b ∈ s.attrs (.node m) → b ∈ init (.node m) ∨ b.name ∉ env.kids m)) := by
  obtain ⟨s, h, v, _, _⟩ := PRAast_spec st
  refine ⟨s, h, v.sub, fun t b hb => ?_, fun he => ⟨fun t i a hr => v.got he t i a (mem_evs.2 hr), v.nodup he, v.kids he⟩⟩
  exact (v.src t b hb).imp id fun ⟨i, a, hm, hb⟩ => ⟨i, a, mem_evs.1 hm, hb⟩

/-- C26: what is handed on is put before what is declared; and if no error is reported, then an attribute that is declared with the name
of one that is handed on is declared in a node, with the constructor keyword, and is otherwise the same. -/
theorem C26_redeclares (env : Env) (init : Target → List Attr) (st : Start env init) :
    ∃ s, PRAast env init = .ok s ∧
      (∀ t, ∃ new, s.attrs t = new ++ init t ∧ ∀ b ∈ new, ∃ i a, Receives env init t i a ∧ b = { a with propagated := true }) ∧
      (s.errors = 0 → ∀ t i a b, Receives env init t i a → b ∈ init t → b.name = a.name → (∃ m, t = .node m) ∧ Redeclares b a) := by
  obtain ⟨s, h, v⟩ := PRAast_added st
  refine ⟨s, h, fun t => ?_, fun he t i a b hr => v.again he t i a b (mem_evs.2 hr)⟩
  obtain ⟨new, h1, h2⟩ := v.front t
  refine ⟨new, h1, fun b hb => ?_⟩
  obtain ⟨i, a, h3, h4⟩ := h2 b hb
  exact ⟨i, a, mem_evs.1 h3, h4⟩

/-- C26: an error is reported exactly if there is a conflict, provided that the attributes of nodesets do not use the
constructor keyword. -/
theorem C26_conflicts (env : Env) (init : Target → List Attr) (st : Start env init)
    (hc : ∀ i, i < env.sets → ∀ a, a ∈ init (.set i) → a.ctor = false) :
    ∃ s, PRAast env init = .ok s ∧ (s.errors = 0 ↔ Legal env init) := by
  obtain ⟨s, h, _, h1, h2⟩ := PRAast_spec st
  exact ⟨s, h, h2 hc, h1⟩

/-- C26: a nodeset without conflicts is never rejected. -/
theorem C26_accepts (env : Env) (init : Target → List Attr) (st : Start env init) (hl : Legal env init) :
    ∃ s, PRAast env init = .ok s ∧ s.errors = 0 := by
  obtain ⟨s, h, _, h1, _⟩ := PRAast_spec st
  exact ⟨s, h, h1 hl⟩

/-- An attribute of type `int`. -/
def intA (name : Nat) : Attr :=
  { name := name, type := .basic 0, ref := 0, ctor := false, inh := false, syn := false, propagated := false, lifetimes := [] }

/-- Two nodesets: 0 refers to 1 and has the nodes 0 and 1, 1 has the node 1.  Nodeset 0 declares 7 (inherited) and 8,
nodeset 1 declares 9.  Node 1 redeclares 8. -/
def envP : Env :=
  { sets := 2
    table := fun i => if i = 0 then [1] else []
    members := fun i => if i = 0 then [.node 0, .node 1] else if i = 1 then [.node 1] else []
    kids := fun _ => [3] }

/-- The attributes of the sample. -/
def initP : Target → List Attr
  | .set 0 => [{ intA 7 with inh := true }, intA 8]
  | .set 1 => [intA 9]
  | .node 1 => [{ intA 8 with ctor := true }, intA 10]
  | _ => []

/-- The hypotheses hold for the sample. -/
theorem startP : Start envP initP := by
  refine ⟨fun t => ?_, fun i a h => ?_, fun i x hi h => ?_, fun i hi => ?_, fun i hi => ?_⟩
  · match t with
    | .set 0 | .set 1 | .node 1 => unfold Distinct; decide
    | .set (n + 2) | .node 0 | .node (n + 2) => exact List.Pairwise.nil
  · match i, h with
    | 0, h => simp only [initP, List.mem_cons, List.not_mem_nil, or_false] at h; rcases h with rfl | rfl <;> rfl
    | 1, h => simp only [initP, List.mem_cons, List.not_mem_nil, or_false] at h; subst h; rfl
    | n + 2, h => cases h
  · match i, hi, h with
    | 0, _, h => simp only [envP, ite_true, List.mem_cons, List.not_mem_nil, or_false] at h; rcases h with rfl | rfl <;> exact ⟨_, rfl⟩
    | 1, _, h => simp [envP] at h; exact ⟨_, h⟩
    | n + 2, hi, _ => exact absurd hi (by simp [envP])
  · match i, hi with
    | 0, _ => decide
    | 1, _ => decide
    | n + 2, hi => exact absurd hi (by simp [envP])
  · match i, hi with
    | 0, _ => decide
    | 1, _ => decide
    | n + 2, hi => exact absurd hi (by simp [envP])

/-- The result for the sample: no error, and the attributes of both nodes. -/
example : Start envP initP ∧ (match PRAast envP initP with
    | .ok s => some (s.errors, (s.attrs (.node 0)).map (·.name), (s.attrs (.node 1)).map (·.name), (s.attrs (.set 1)).map (·.name))
    | _ => none) = some (0, [8, 7], [9, 7, 8, 10], [8, 7, 9]) := ⟨startP, by decide⟩

/-- `C26_conflicts`: nodesets do not use the constructor keyword in the sample; so there is no conflict
(`C26_accepts`). -/
theorem legalP : (∀ i, i < envP.sets → ∀ a, a ∈ initP (.set i) → a.ctor = false) ∧ Legal envP initP := by
  have hc : ∀ i, i < envP.sets → ∀ a, a ∈ initP (.set i) → a.ctor = false := by
    intro i hi a h
    match i, hi, h with
    | 0, _, h => simp only [initP, List.mem_cons, List.not_mem_nil, or_false] at h; rcases h with rfl | rfl <;> rfl
    | 1, _, h => simp only [initP, List.mem_cons, List.not_mem_nil, or_false] at h; subst h; rfl
    | n + 2, _, h => cases h
  refine ⟨hc, ?_⟩
  obtain ⟨s, h1, h2⟩ := C26_conflicts envP initP startP hc
  refine h2.1 ?_
  have : (match PRAast envP initP with
    | .ok s => s.errors
    | _ => 1) = 0 := by decide
  rw [h1] at this
  exact this

/-- A conflict is reported: node 1 declares 7, which it receives. -/
example : (match PRAast envP (fun t => if t = .node 1 then [intA 7] else initP t) with
    | .ok s => some s.errors
    | _ => none) = some 1 := by decide

/-- C26: a member that does not exist is undefined behaviour, one that is not a node a failed assertion. -/
theorem C26_unresolved : (PRAast { envP with members := fun _ => [.null] } initP).isUB = true ∧
    (PRAast { envP with members := fun _ => [.other] } initP).isAbort = true := by decide

end Verif.Props
