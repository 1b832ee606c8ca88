import Verif.Lemmas.Reach
import Verif.Model.Unwrap
import Verif.Props.Ids

/-!
# Property C28: traversals reach every node they target
-/

namespace Verif.Props
open Verif.Reach Verif.Spec.Reach Verif.Spec.Graph
open Verif.Propagate (Entry)

/-- An edge of the grammar is an edge of the search. -/
theorem HasChild.may {env : Env} {i k : Nat} (h : HasChild env i k) : MayHaveChild env i k := by
  rcases h with h | ⟨j, l, h1, h2, h3⟩
  · exact .inl h
  · exact .inr ⟨j, j, l, h1, Nat.le_refl _, h2, h3⟩

theorem path_may {env : Env} {i k : Nat} (h : Path (HasChild env) i k) : Path (MayHaveChild env) i k := by
  induction h with
  | edge h => exact .edge (HasChild.may h)
  | step h _ ih => exact .step (HasChild.may h) ih

/-- What the table of a traversal of the nodes `l` must have for node `i`. -/
structure TableEntry (env : Env) (l : List Entry) (i : Nat) (h : Handler) : Prop where
  /-- targeted nodes, and only these, go to the handler of the user -/
  user : ∀ k, h = .user k ↔ k = i ∧ .node i ∈ l
  /-- no subtree with a targeted node is cut off -/
  through : .node i ∉ l → (∃ t, .node t ∈ l ∧ Path (HasChild env) i t) → h = .children
  /-- what is skipped cannot have a targeted node below it -/
  skip : h = .nop → ¬ ∃ t, .node t ∈ l ∧ Path (HasChild env) i t
  /-- what is passed through seems to have one, where nodesets stand for all later ones too -/
  seems : h = .children → ∃ t, .node t ∈ l ∧ Path (MayHaveChild env) i t
  notError : h ≠ .error

theorem row_entry {env : Env} {l : List Entry} {m : Nat → Cell} (v : Row env (fun i => .node i ∈ l) m fun i => i < env.num)
    {i : Nat} (hi : i < env.num) : TableEntry env l i (match m i with
      | .user => Handler.user i
      | .trav => .children
      | .zero => .nop
      | .notHandled => .nop) := by
  have hu := v.user i
  have hz := v.done i hi
  have hn := v.none i
  cases hm : m i with
  | notHandled => exact absurd hm hn
  | user =>
    have hu := hu.1 hm
    exact ⟨fun k => ⟨(fun h => by cases h; exact ⟨rfl, hu⟩), fun h => by rw [h.1]⟩, fun h => absurd hu h, (fun h => by cases h),
      (fun h => by cases h), fun h => by cases h⟩
  | trav =>
    have hl : .node i ∉ l := fun h => by rw [hu.2 h] at hm; cases hm
    exact ⟨fun k => ⟨(fun h => by cases h), fun h => absurd h.2 hl⟩, fun _ _ => rfl, (fun h => by cases h), fun _ => v.trav i hm,
      fun h => by cases h⟩
  | zero =>
    have hl : .node i ∉ l := fun h => by rw [hu.2 h] at hm; cases hm
    have hp : ¬ ∃ t, .node t ∈ l ∧ Path (HasChild env) i t := fun ⟨t, h1, h2⟩ => hz hm ⟨t, h1, path_may h2⟩
    exact ⟨fun k => ⟨(fun h => by cases h), fun h => absurd h.2 hl⟩, fun _ h => absurd h hp, fun _ => hp, (fun h => by cases h),
      fun h => by cases h⟩

/-- C28: the tables of all traversals are generated, with an entry for every node.  Where a traversal has a set of nodes with
members, targeted nodes go to the handler of the user, nodes with a targeted node below them are passed through, and no other
node goes to a user handler.  Without such a set every node goes to the handler of the user.

Missing: an expression that denotes the empty set is `NULL` for the code and is taken for a missing one
(`C28_empty_false`). -/
theorem C28_tables_partial (env : Env) (r : Resolved env) (fuel : Nat) (hf : env.num < fuel) (n : Nat) (ts : List (Nat × List Entry))
    (hd : (ts.map (·.1)).Nodup) (hn : ∀ i l, (i, l) ∈ ts → i < n)
    (hl : ∀ i l, (i, l) ∈ ts → ∀ e, e ∈ l → ∃ k, e = .node k ∧ k < env.num) (s : RS) :
    ∃ rows tables, RCBast env fuel n ts (fun _ => none) s = .ok rows ∧ DGTVitraversal env rows (ts.map (·.1)) = .ok tables ∧
      tables.length = ts.length ∧
      ∀ (k : Nat) i l, ts[k]? = some (i, l) → ∃ table, tables[k]? = some (.error :: table) ∧ table.length = env.nodes.length ∧
        ∀ (p : Nat) v, env.nodes[p]? = some v → ∃ h, table[p]? = some h ∧ (l ≠ [] → TableEntry env l v h) ∧ (l = [] → h = .user v) := by
  obtain ⟨rows, h1, _, h2⟩ := ast_spec r hf n ts hd hn hl (fun _ => none) s
  obtain ⟨tables, h3, h4, h5⟩ := tables_spec (env := env) (rows := rows) (ts.map (·.1)) fun i hi => by
    obtain ⟨⟨i', l⟩, hx, rfl⟩ := List.mem_map.1 hi
    obtain ⟨m, hm, _⟩ := h2 i' l hx
    exact ⟨m, hm⟩
  refine ⟨rows, tables, h1, h3, by simpa using h4, fun k i l hk => ?_⟩
  obtain ⟨m, hm, ht⟩ := h5 k i (by rw [List.getElem?_map, hk]; rfl)
  obtain ⟨m', hm', hr⟩ := h2 i l (List.mem_of_getElem? hk)
  rw [hm] at hm'
  cases hm'
  refine ⟨DGNFTTinode m env.nodes, ht, ?_, fun p v hp => ?_⟩
  · clear ht
    induction env.nodes with
    | nil => rfl
    | cons x rest ih => rw [DGNFTTinode, List.length_cons, List.length_cons, ih]
  · have hv : v < env.num := (r.nodes v).1 (List.mem_of_getElem? hp)
    refine ⟨_, by rw [table_spec, hp]; rfl, fun hne => row_entry (hr.1 hne) hv, fun he => ?_⟩
    simp only [hr.2 he v hv]

/-- Node 0 has the children 1 and a member of nodeset 0, node 1 has itself as child, node 2 and 3 have none; nodeset 0 is
`{2}`. -/
def envR : Env :=
  { num := 4
    nodes := [3, 2, 1, 0]
    kids := fun
      | 0 => [.node 1, .set 0]
      | 1 => [.node 1]
      | _ => []
    sets := [[.node 2]] }

theorem resolvedR : Resolved envR := by
  refine ⟨fun i => ?_, fun i hi c hc => ?_, fun l hl e he => ?_⟩
  · simp only [envR, List.mem_cons, List.not_mem_nil, or_false]; omega
  · match i with
    | 0 =>
      simp only [envR, List.mem_cons, List.not_mem_nil, or_false] at hc
      rcases hc with rfl | rfl
      · exact .inl ⟨1, rfl, by decide⟩
      · exact .inr ⟨0, _, rfl, rfl⟩
    | 1 =>
      simp only [envR, List.mem_cons, List.not_mem_nil, or_false] at hc
      exact .inl ⟨1, hc, by decide⟩
    | _ + 2 => simp [envR] at hc
  · simp only [envR, List.mem_cons, List.not_mem_nil, or_false] at hl
    subst hl
    simp only [List.mem_cons, List.not_mem_nil, or_false] at he
    exact ⟨2, he, by decide⟩

example : Resolved envR ∧ ([(1, [Entry.node 2]), (0, [])].map (·.1)).Nodup ∧
    (∀ i l, (i, l) ∈ [(1, [Entry.node 2]), (0, [])] → i < 2) ∧
    (∀ i l, (i, l) ∈ [(1, [Entry.node 2]), (0, [])] → ∀ e, e ∈ l → ∃ k, e = .node k ∧ k < envR.num) := by
  refine ⟨resolvedR, by decide, fun i l h => ?_, fun i l h e he => ?_⟩
  · simp only [List.mem_cons, Prod.mk.injEq, List.not_mem_nil, or_false] at h
    omega
  · simp only [List.mem_cons, Prod.mk.injEq, List.not_mem_nil, or_false] at h
    rcases h with ⟨_, rfl⟩ | ⟨_, rfl⟩
    · simp only [List.mem_cons, List.not_mem_nil, or_false] at he
      exact ⟨2, he, by decide⟩
    · cases he

/-- The tables of the sample. -/
example : (do
    let rows ← RCBast envR 5 2 [(1, [.node 2]), (0, [])] (fun _ => none) { visited := fun _ => false, reach := false }
    DGTVitraversal envR rows [1, 0]) =
    .ok [[.error, .nop, .user 2, .nop, .children], [.error, .user 3, .user 2, .user 1, .user 0]] := by
  rfl

/-- C28 is false for a traversal whose set of nodes is empty: `{x} - {x}` is resolved to `NULL`, which the code takes for a
traversal without set, so that nodes that are not in the set go to handlers of the user. -/
theorem C28_empty_false :
    (∃ st, Verif.Unwrap.USEast [⟨mkId [120], ⟨.node, 0⟩⟩] 10 []
      [.op .diff (.lit [mkId [120]]) (.lit [mkId [120]])] = .ok ([none], st)) ∧
    ∃ rows s, RCBitraversal envR 5 [] s = .ok rows ∧ ∀ v, v < envR.num → rows.1 v = .user := by
  refine ⟨⟨_, rfl⟩, _, { visited := fun _ => false, reach := false }, rfl, fun v hv => ?_⟩
  simp only [hv, ite_true]

end Verif.Props
