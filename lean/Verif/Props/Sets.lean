import Verif.Lemmas.Sets
import Verif.Props.Ids

/-!
# Property C22: identifier sets
-/

namespace Verif.Props
open Verif.Ids Verif.Str Verif.Sets Verif.Spec.Str Verif.Spec.Ids Verif.Spec.Sets

/-- Blocks of two sets do not overlap. -/
def Apart (a b : Tree) : Prop := ∀ x ∈ blocks a, x ∉ blocks b

/-- C22: no set that the operations build holds a name twice, in whatever spelling, and its nodes are distinct. -/
theorem C22_no_duplicates (h : Nat) (t : Tree) (hb : Built h t) : NoDup t ∧ (blocks t).Nodup := by
  have v := built_valid hb
  refine ⟨?_, v.nodup⟩
  refine List.Pairwise.imp_of_mem ?_ v.sorted
  intro a b ha hb hl hs
  exact hl.ne ((sameName_iff (v.wf a ha) (v.wf b hb)).1 hs)

/-- Test set `{b, a}`. -/
def setBA : Tree := .node 1 0 (mkId [98]) (.node 3 2 (mkId [97]) .null .null) .null

theorem setBA_built : Built 4 setBA :=
  .insert (.insert (h := 0) .empty (i := mkId [98]) ⟨rfl, rfl⟩ rfl) (i := mkId [97]) ⟨rfl, rfl⟩ rfl

example : Built 4 setBA ∧ Has setBA [65] ∧ ¬ Has setBA [99] := by
  refine ⟨setBA_built, ?_, ?_⟩
  · exact ⟨mkId [97], by decide, by unfold SameName; decide⟩
  · rintro ⟨i, hi, hs⟩
    simp only [setBA, elems, List.nil_append, List.mem_cons, List.cons_append, List.not_mem_nil, or_false] at hi
    unfold SameName at hs
    rcases hi with rfl | rfl <;> revert hs <;> decide

/-- C22: insertion returns a set with the old names and the new one; it reuses the nodes of the set it was given and
only adds fresh ones. -/
theorem C22_insert (h : Nat) (t : Tree) (i : Id) (hb : Built h t) (hi : WfId i) :
    ∃ t' h', SETIDinsert h t i = .ok (t', h') ∧ (∀ n, Has t' n ↔ Has t n ∨ SameName i.orig n) ∧
      (∀ x ∈ elems t', x ∈ elems t ∨ x = i) ∧ (∀ x ∈ elems t, x ∈ elems t') ∧ h ≤ h' ∧
      ∀ b ∈ blocks t', b ∈ blocks t ∨ h ≤ b := by
  obtain ⟨t', h', e, g⟩ := insert_spec h t i (built_valid hb) hi
  refine ⟨t', h', e, fun n => ?_, fun x hx => ?_, g.old, g.le, g.fresh⟩
  · rw [g.has (by simpa using hi)]
    simp
  · simpa using g.mem x hx

example : (SETIDinsert 4 setBA (mkId [65])).isOk = true := by decide

/-- C22: `SETIDcontains` decides membership and leaves the set as it was. -/
theorem C22_contains (h : Nat) (t : Tree) (i : Id) (hb : Built h t) (hi : WfId i) :
    (SETIDcontains t i).1 = t ∧ ((SETIDcontains t i).2 = true ↔ Has t i.orig) := by
  have v := built_valid hb
  obtain ⟨h1, h2⟩ := contains_spec t i v.sorted
  refine ⟨h1, h2.trans ?_⟩
  rw [has_iff_lwr t v.wf, hi.1]

example : (SETIDcontains setBA (mkId [65])).2 = true ∧ (SETIDcontains setBA (mkId [99])).2 = false := by decide

/-- C22: union returns a set of fresh nodes with exactly the names of both operands and leaves both as they were. -/
theorem C22_union (h : Nat) (a b : Tree) (ha : Built h a) (hb : Built h b) :
    ∃ r, SETIDunion h a b = .ok r ∧ r.left = a ∧ r.right = b ∧ (∀ n, Has r.new n ↔ Has a n ∨ Has b n) ∧
      Apart r.new a ∧ Apart r.new b := by
  obtain ⟨r, e, o⟩ := union_spec h a b (built_valid ha) (built_valid hb)
  exact ⟨r, e, o.left, o.right, o.mem,
    fun x hx hx' => absurd (o.fresh x hx) (Nat.not_le.2 ((built_valid ha).below x hx')),
    fun x hx hx' => absurd (o.fresh x hx) (Nat.not_le.2 ((built_valid hb).below x hx'))⟩

/-- C22: the same for intersection. -/
theorem C22_intersect (h : Nat) (a b : Tree) (ha : Built h a) (hb : Built h b) :
    ∃ r, SETIDintersect h a b = .ok r ∧ r.left = a ∧ r.right = b ∧ (∀ n, Has r.new n ↔ Has a n ∧ Has b n) ∧
      Apart r.new a ∧ Apart r.new b := by
  obtain ⟨r, e, o⟩ := intersect_spec h a b (built_valid ha) (built_valid hb)
  exact ⟨r, e, o.left, o.right, o.mem,
    fun x hx hx' => absurd (o.fresh x hx) (Nat.not_le.2 ((built_valid ha).below x hx')),
    fun x hx hx' => absurd (o.fresh x hx) (Nat.not_le.2 ((built_valid hb).below x hx'))⟩

/-- C22: the same for difference. -/
theorem C22_difference (h : Nat) (a b : Tree) (ha : Built h a) (hb : Built h b) :
    ∃ r, SETIDdifference h a b = .ok r ∧ r.left = a ∧ r.right = b ∧ (∀ n, Has r.new n ↔ Has a n ∧ ¬ Has b n) ∧
      Apart r.new a ∧ Apart r.new b := by
  obtain ⟨r, e, o⟩ := difference_spec h a b (built_valid ha) (built_valid hb)
  exact ⟨r, e, o.left, o.right, o.mem,
    fun x hx hx' => absurd (o.fresh x hx) (Nat.not_le.2 ((built_valid ha).below x hx')),
    fun x hx hx' => absurd (o.fresh x hx) (Nat.not_le.2 ((built_valid hb).below x hx'))⟩

/-- Test set `{A, c}`. -/
def setAC : Tree := .node 5 4 (mkId [65]) .null (.node 7 6 (mkId [99]) .null .null)

theorem setAC_built : Built 8 setAC :=
  .insert (.insert (h := 4) .empty (i := mkId [65]) ⟨rfl, rfl⟩ rfl) (i := mkId [99]) ⟨rfl, rfl⟩ rfl

example : Built 8 setBA ∧ Built 8 setAC ∧
    (SETIDunion 8 setBA setAC >>= fun r => .ok (elems r.new)) = .ok [mkId [97], mkId [98], mkId [99]] ∧
    (SETIDintersect 8 setBA setAC >>= fun r => .ok (elems r.new)) = .ok [mkId [97]] ∧
    (SETIDdifference 8 setBA setAC >>= fun r => .ok (elems r.new)) = .ok [mkId [98]] :=
  ⟨.later setBA_built (by decide), setAC_built, by decide, by decide, by decide⟩

/-- C22: a copy lists the same names, in the same order, in nodes of its own. -/
theorem C22_copy (h : Nat) (t : Tree) (hb : Built h t) :
    elems (copySet h t).1 = elems t ∧ Apart (copySet h t).1 t ∧ (blocks (copySet h t).1).Nodup := by
  obtain ⟨h1, _, h3, h4⟩ := copySet_spec t h
  exact ⟨h1, fun x hx hx' => absurd (h3 x hx).1 (Nat.not_le.2 ((built_valid hb).below x hx')), h4⟩

example : Built 4 setBA ∧ elems (copySet 4 setBA).1 = [mkId [97], mkId [98]] := ⟨setBA_built, by decide⟩

/-- C22: a literal `{n1, n2, …}` in the specification is the set of the names it lists. -/
theorem C22_literal (h : Nat) (i : Id) (l : List Id) (hi : WfId i) (hl : ∀ j ∈ l, WfId j) :
    ∃ t h', (SETIDinsert h .null i >>= fun p => insertAll p.2 p.1 l) = .ok (t, h') ∧
      ∀ n, Has t n ↔ ∃ j ∈ i :: l, SameName j.orig n := by
  obtain ⟨t, h', e, g⟩ := insertAll_spec (i :: l) h .null (Valid.null h)
    (by simp only [List.mem_cons, forall_eq_or_imp]; exact ⟨hi, hl⟩)
  refine ⟨t, h', e, fun n => ?_⟩
  rw [g.has (by simp only [List.mem_cons, forall_eq_or_imp]; exact ⟨hi, hl⟩)]
  simp only [has_null, false_or]

example : WfId (mkId [97]) ∧ ∀ j ∈ [mkId [98], mkId [65]], WfId j := by
  refine ⟨⟨rfl, rfl⟩, ?_⟩
  intro j hj
  simp only [List.mem_cons, List.not_mem_nil, or_false] at hj
  rcases hj with rfl | rfl <;> exact ⟨rfl, rfl⟩

end Verif.Props
