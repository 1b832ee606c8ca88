import Verif.Lemmas.ProductRules

/-!
# Property C27: equations
-/

namespace Verif.Props
open Verif.ProductRules Verif.Spec.ProductRules
open Verif.Propagate (Attr)

/-- C27: the check finishes and reports no error exactly if all nodes have the equations they need, for targets that need
one, with arguments that exist.  Every reference for which there is an attribute is given that attribute and its child. -/
theorem C27_equations (env : Env) (hn : Named env) (ht : Typed env) :
    ∃ s, CPRast env = .ok s ∧ (s.errors = 0 ↔ ∀ nd, nd ∈ env.nodes → NodeOk env nd) ∧
      AllStored env (allRefs env) s.log := by
  obtain ⟨s, h, _, _, d, ys, e, f⟩ := nodes_spec hn ht env.nodes 0 (fun k => by rw [Nat.zero_add])
    (s := { children := fun _ _ => none, attrs := fun _ _ => none, log := [], errors := 0 })
    ⟨(fun _ _ _ h => by cases h), fun _ _ _ h => by cases h⟩
  refine ⟨s, h, d, ?_⟩
  rw [e]
  exact f

/-- C27: if no error is reported, each reference has its attribute. -/
theorem C27_resolved (env : Env) (hn : Named env) (ht : Typed env) (s : CState) (hs : CPRast env = .ok s) (he : s.errors = 0) :
    ∀ y, y ∈ s.log → ∃ a, y.attr = some a := by
  obtain ⟨s', h1, h2, h3⟩ := C27_equations env hn ht
  rw [hs] at h1
  cases h1
  have ok := h2.1 he
  have key : ∀ xs ys, AllStored env xs ys → (∀ x, x ∈ xs → ∃ c a, RefersTo env x.1 x.2 c a) → ∀ y, y ∈ ys → ∃ a, y.attr = some a := by
    intro xs ys h
    induction h with
    | nil => intro _ y hy; cases hy
    | @cons x y xs ys hx _ ih =>
      intro hr z hz
      rcases List.mem_cons.1 hz with rfl | hz
      · cases ha : z.attr with
        | some a => exact ⟨a, rfl⟩
        | none => exact absurd (hr x List.mem_cons_self) (hx.2 ha)
      · exact ih (fun x hx => hr x (List.mem_cons_of_mem _ hx)) z hz
  refine key _ _ h3 fun x hx => ?_
  rw [allRefs, List.mem_flatMap] at hx
  obtain ⟨nd, hnd, hx⟩ := hx
  obtain ⟨r, hr, rfl⟩ := List.mem_map.1 hx
  rw [refs, List.mem_flatMap] at hr
  obtain ⟨e, hee, hr⟩ := hr
  have ok := ok nd hnd
  rcases List.mem_cons.1 hr with rfl | hr
  · by_cases hn : e.rule.inode = none
    · obtain ⟨a, h, _⟩ := ok.this e hee hn
      exact ⟨none, a, h⟩
    · obtain ⟨c, a, h, _⟩ := ok.child e hee hn
      exact ⟨some c, a, h⟩
  · exact ok.args e hee r hr

/-- An attribute of the sample. -/
def attrE (name : Nat) (inh syn : Bool) : Attr :=
  { name := name, type := .basic 0, ref := 0, ctor := false, inh := inh, syn := syn, propagated := false, lifetimes := [] }

/-- Node 0 has the children 10 (a nodeset) and 11 (node 1) and the synthesized attribute 1; node 1 and the nodeset have the
inherited attribute 2 and the synthesized attribute 3. -/
def envE : Env :=
  { nodes := [{ children := [⟨10, 100⟩, ⟨11, 101⟩]
                attrs := [attrE 1 false true, attrE 4 false false]
                eqns := [⟨⟨none, 1⟩, [⟨some 10, 3⟩, ⟨some 11, 3⟩]⟩, ⟨⟨some 10, 2⟩, []⟩, ⟨⟨some 11, 2⟩, [⟨none, 4⟩, ⟨some 10, 3⟩]⟩] },
              { children := [], attrs := [attrE 2 true false, attrE 3 false true], eqns := [⟨⟨none, 3⟩, [⟨none, 2⟩]⟩] }]
    sets := [[attrE 2 true false, attrE 3 false true]]
    lookup := fun n => if n = 100 then some (.set 0) else if n = 101 then some (.node 1) else none }

/-- The hypotheses hold for the sample, which is accepted. -/
example : Named envE ∧ Typed envE ∧ (match CPRast envE with
    | .ok s => some (s.errors, s.log.length)
    | _ => none) = some (0, 9) := by
  refine ⟨⟨?_, ?_, ?_⟩, ?_, by decide⟩
  · simp only [envE, List.mem_cons, List.not_mem_nil, or_false]
    rintro nd (rfl | rfl) <;> decide
  · simp only [envE, List.mem_cons, List.not_mem_nil, or_false]
    rintro nd (rfl | rfl) <;> decide
  · simp only [envE, List.mem_cons, List.not_mem_nil, or_false]
    rintro nd rfl
    decide
  · intro nd hnd c hc
    simp only [envE, List.mem_cons, List.not_mem_nil, or_false] at hnd
    rcases hnd with rfl | rfl
    · simp only [List.mem_cons, List.not_mem_nil, or_false] at hc
      rcases hc with rfl | rfl
      · exact ⟨_, .set (i := 0) rfl rfl⟩
      · exact ⟨_, .node (i := 1) rfl rfl rfl⟩
    · cases hc

/-- The sample with other equations in node 1. -/
def envE' (eqns : List Eqn) : Env :=
  { envE with nodes := envE.nodes.set 1 { children := [], attrs := [attrE 2 true false, attrE 3 false true], eqns := eqns } }

/-- A missing equation, an equation for the wrong attribute, an unknown argument. -/
example : (match CPRast (envE' [⟨⟨none, 2⟩, [⟨none, 7⟩]⟩]) with
    | .ok s => some s.errors
    | _ => none) = some 3 := by decide

/-- C27: a child whose type is not declared is a failed assertion. -/
theorem C27_unresolved : CPRast { nodes := [{ children := [⟨1, 1⟩], attrs := [], eqns := [] }], sets := [], lookup := fun _ => none } =
    .abort "assert ref_node != NULL" := rfl

/-- Two equations for the same attribute are accepted; nothing in C27 forbids them, but see C32. -/
example : (match CPRast (envE' [⟨⟨none, 3⟩, [⟨none, 2⟩]⟩, ⟨⟨none, 3⟩, []⟩]) with
    | .ok s => some s.errors
    | _ => none) = some 0 := by decide

end Verif.Props
