import Verif.Spec.Sets
import Verif.Lemmas.Ids

/-!
# Lemmas about identifier sets
-/

namespace Verif.Sets
open Verif.Str Verif.Ids Verif.Spec.Ids Verif.Spec.Str Verif.Spec.Sets

theorem strcmp_eq (a b : CStr) : strcmp a b = .eq ↔ a = b := by
  induction a generalizing b with
  | nil => cases b <;> simp [strcmp]
  | cons x a ih =>
    cases b with
    | nil => simp [strcmp]
    | cons y b =>
      simp only [strcmp]
      split
      · rename_i h
        simp only [reduceCtorEq, List.cons.injEq, false_iff, not_and]
        intro e; subst e; exact absurd h (UInt8.lt_irrefl _)
      · split
        · rename_i h
          simp only [reduceCtorEq, List.cons.injEq, false_iff, not_and]
          intro e; subst e; exact absurd h (UInt8.lt_irrefl _)
        · rename_i h1 h2
          have : x = y := UInt8.le_antisymm (UInt8.not_lt.1 h2) (UInt8.not_lt.1 h1)
          subst this
          simp [ih]

theorem strcmp_gt (a b : CStr) : strcmp a b = .gt ↔ strcmp b a = .lt := by
  induction a generalizing b with
  | nil => cases b <;> simp [strcmp]
  | cons x a ih =>
    cases b with
    | nil => simp [strcmp]
    | cons y b =>
      simp only [strcmp]
      by_cases h1 : x < y
      · have h2 : ¬ y < x := fun h => UInt8.lt_irrefl _ (UInt8.lt_trans h1 h)
        simp [h1, h2]
      · by_cases h2 : y < x
        · simp [h1, h2]
        · simp [h1, h2, ih]

theorem strcmp_lt_trans (a b c : CStr) (h1 : strcmp a b = .lt) (h2 : strcmp b c = .lt) : strcmp a c = .lt := by
  induction a generalizing b c with
  | nil =>
    cases b with
    | nil => simp [strcmp] at h1
    | cons y b => cases c <;> simp [strcmp] at h2 ⊢
  | cons x a ih =>
    cases b with
    | nil => simp [strcmp] at h1
    | cons y b =>
      cases c with
      | nil => simp [strcmp] at h2
      | cons z c =>
        simp only [strcmp] at h1 h2 ⊢
        by_cases hxy : x < y
        · by_cases hyz : y < z
          · simp [UInt8.lt_trans hxy hyz]
          · by_cases hzy : z < y
            · simp [hyz, hzy] at h2
            · have : y = z := UInt8.le_antisymm (UInt8.not_lt.1 hzy) (UInt8.not_lt.1 hyz)
              subst this; simp [hxy]
        · by_cases hyx : y < x
          · simp [hxy, hyx] at h1
          · have : x = y := UInt8.le_antisymm (UInt8.not_lt.1 hyx) (UInt8.not_lt.1 hxy)
            subst this
            simp only [UInt8.lt_irrefl, if_false] at h1
            by_cases hxz : x < z
            · simp [hxz]
            · by_cases hzx : z < x
              · simp [hxz, hzx] at h2
              · simp only [hxz, hzx, if_false] at h2 ⊢
                exact ih b c h1 h2

/-- Order of identifiers in a tree. -/
def Lt (a b : Id) : Prop := strcmp a.lwr b.lwr = .lt

theorem Lt.ne {a b : Id} (h : Lt a b) : a.lwr ≠ b.lwr := by
  intro e
  rw [Lt, e, (strcmp_eq _ _).2 rfl] at h
  cases h

theorem Lt.asymm {a b : Id} (h : Lt a b) (h' : Lt b a) : False := by
  have := strcmp_lt_trans _ _ _ h h'
  rw [(strcmp_eq _ _).2 rfl] at this
  cases this

/-- Strictly ascending from left to right. -/
def Sorted (t : Tree) : Prop := (elems t).Pairwise Lt

theorem sorted_node {a ia i l r} : Sorted (.node a ia i l r) ↔
    Sorted l ∧ Sorted r ∧ (∀ x ∈ elems l, Lt x i) ∧ (∀ x ∈ elems r, Lt i x) ∧ ∀ x ∈ elems l, ∀ y ∈ elems r, Lt x y := by
  simp only [Sorted, elems, List.pairwise_append, List.pairwise_cons, List.mem_cons]
  constructor
  · rintro ⟨h1, ⟨h2, h3⟩, h4⟩
    exact ⟨h1, h3, fun x hx => h4 x hx i (Or.inl rfl), h2, fun x hx y hy => h4 x hx y (Or.inr hy)⟩
  · rintro ⟨h1, h2, h3, h4, h5⟩
    refine ⟨h1, ⟨h4, h2⟩, ?_⟩
    rintro x hx y (rfl | hy)
    · exact h3 x hx
    · exact h5 x hx y hy

/-- What insertion into a non-empty sorted tree does. -/
structure Inserted (va : Nat) (v : Id) (h : Nat) (t : Tree) (t' : Tree) (ins : Bool) (h' : Nat) : Prop where
  no : ins = false → t' = t ∧ h' = h ∧ ∃ x ∈ elems t, x.lwr = v.lwr
  yes : ins = true → h' = h + 1 ∧ (blocks t').Perm (h :: va :: blocks t) ∧
    ∃ A B, elems t = A ++ B ∧ elems t' = A ++ v :: B ∧ (∀ a ∈ A, Lt a v) ∧ ∀ b ∈ B, Lt v b

theorem SLI_spec (va : Nat) (v : Id) (h : Nat) (t : Tree) (hs : Sorted t) (hne : t ≠ .null) :
    ∃ t' ins h', SLIsetliteral va v h t = .ok (t', ins, h') ∧ Inserted va v h t t' ins h' := by
  induction t with
  | null => exact absurd rfl hne
  | node a ia i l r ihl ihr =>
    obtain ⟨hsl, hsr, hli, hir, hlr⟩ := sorted_node.1 hs
    cases hc : strcmp v.lwr i.lwr with
    | eq =>
      have he := (strcmp_eq _ _).1 hc
      exact ⟨.node a ia i l r, false, h, by simp [SLIsetliteral, hc],
        ⟨fun _ => ⟨rfl, rfl, i, by simp [elems], he.symm⟩, by simp⟩⟩
    | lt =>
      have hvr : ∀ x ∈ elems r, Lt v x := fun x hx => strcmp_lt_trans _ _ _ hc (hir x hx)
      cases l with
      | null =>
        refine ⟨.node a ia i (.node h va v .null .null) r, true, h + 1, by simp [SLIsetliteral, hc, ASTsetliteral, Tree.isNull],
          ⟨by simp, fun _ => ⟨rfl, ?_, [], i :: elems r, ?_⟩⟩⟩
        · simp only [blocks, List.nil_append, List.cons_append]
          refine List.Perm.trans ?_ (List.Perm.cons h (List.Perm.swap _ _ _))
          refine List.Perm.trans ?_ (List.Perm.swap _ _ _)
          refine List.Perm.cons a ?_
          refine List.Perm.trans ?_ (List.Perm.cons h (List.Perm.swap _ _ _))
          exact List.Perm.swap _ _ _
        · refine ⟨by simp [elems], by simp [elems], by simp, ?_⟩
          intro b hb
          rcases List.mem_cons.1 hb with rfl | hb
          · exact hc
          · exact hvr b hb
      | node a' ia' i' l' r' =>
        obtain ⟨t', ins, h', heq, hin⟩ := ihl hsl (by simp)
        refine ⟨.node a ia i t' r, ins, h', by rw [SLIsetliteral, hc]; simp [heq, Tree.isNull], ⟨fun hi => ?_, fun hi => ?_⟩⟩
        · obtain ⟨h1, h2, x, hx, hx2⟩ := hin.no hi
          refine ⟨by rw [h1], h2, x, ?_, hx2⟩
          rw [elems, List.mem_append]; exact Or.inl hx
        · obtain ⟨h1, h2, A, B, h3, h4, h5, h6⟩ := hin.yes hi
          refine ⟨h1, ?_, A, B ++ i :: elems r, ?_, ?_, h5, ?_⟩
          · rw [blocks, blocks]
            have p1 := List.Perm.append_right (blocks r) h2
            refine List.Perm.trans (List.Perm.cons a (List.Perm.cons ia p1)) ?_
            simp only [List.cons_append]
            generalize blocks (Tree.node a' ia' i' l' r') ++ blocks r = X
            refine List.Perm.trans (List.Perm.cons a (List.Perm.swap h ia _)) ?_
            refine List.Perm.trans (List.Perm.swap h a _) (List.Perm.cons h ?_)
            refine List.Perm.trans (List.Perm.cons a (List.Perm.swap va ia _)) ?_
            exact List.Perm.swap va a _
          · rw [elems, h3, List.append_assoc]
          · rw [elems, h4, List.append_assoc, List.cons_append]
          · intro b hb
            rcases List.mem_append.1 hb with hb | hb
            · exact h6 b hb
            · rcases List.mem_cons.1 hb with rfl | hb
              · exact hc
              · exact hvr b hb
    | gt =>
      have hc' := (strcmp_gt _ _).1 hc
      have hvl : ∀ x ∈ elems l, Lt x v := fun x hx => strcmp_lt_trans _ _ _ (hli x hx) hc'
      cases r with
      | null =>
        refine ⟨.node a ia i l (.node h va v .null .null), true, h + 1, by simp [SLIsetliteral, hc, ASTsetliteral, Tree.isNull],
          ⟨by simp, fun _ => ⟨rfl, ?_, elems l ++ [i], [], ?_⟩⟩⟩
        · simp only [blocks, List.append_nil, List.append_nil]
          have p1 : (blocks l ++ [h, va]).Perm (h :: va :: blocks l) :=
            List.perm_append_comm (l₁ := blocks l) (l₂ := [h, va])
          refine List.Perm.trans (List.Perm.cons a (List.Perm.cons ia p1)) ?_
          refine List.Perm.trans (List.Perm.cons a (List.Perm.swap h ia _)) ?_
          refine List.Perm.trans (List.Perm.swap h a _) (List.Perm.cons h ?_)
          refine List.Perm.trans (List.Perm.cons a (List.Perm.swap va ia _)) ?_
          exact List.Perm.swap va a _
        · refine ⟨by simp [elems], by simp [elems], ?_, by simp⟩
          intro b hb
          rcases List.mem_append.1 hb with hb | hb
          · exact hvl b hb
          · simp only [List.mem_singleton] at hb
            subst hb; exact hc'
      | node a' ia' i' l' r' =>
        obtain ⟨t', ins, h', heq, hin⟩ := ihr hsr (by simp)
        refine ⟨.node a ia i l t', ins, h', by rw [SLIsetliteral, hc]; simp [heq, Tree.isNull], ⟨fun hi => ?_, fun hi => ?_⟩⟩
        · obtain ⟨h1, h2, x, hx, hx2⟩ := hin.no hi
          refine ⟨by rw [h1], h2, x, ?_, hx2⟩
          rw [elems, List.mem_append]; exact Or.inr (List.mem_cons_of_mem _ hx)
        · obtain ⟨h1, h2, A, B, h3, h4, h5, h6⟩ := hin.yes hi
          refine ⟨h1, ?_, elems l ++ i :: A, B, ?_, ?_, ?_, h6⟩
          · rw [blocks, blocks]
            have p1 := List.Perm.append_left (blocks l) h2
            refine List.Perm.trans (List.Perm.cons a (List.Perm.cons ia p1)) ?_
            have p2 : (blocks l ++ h :: va :: blocks (.node a' ia' i' l' r')).Perm
                (h :: va :: (blocks l ++ blocks (.node a' ia' i' l' r'))) := by
              refine List.Perm.trans List.perm_middle (List.Perm.cons h List.perm_middle)
            refine List.Perm.trans (List.Perm.cons a (List.Perm.cons ia p2)) ?_
            generalize blocks l ++ blocks (Tree.node a' ia' i' l' r') = X
            refine List.Perm.trans (List.Perm.cons a (List.Perm.swap h ia _)) ?_
            refine List.Perm.trans (List.Perm.swap h a _) (List.Perm.cons h ?_)
            refine List.Perm.trans (List.Perm.cons a (List.Perm.swap va ia _)) ?_
            exact List.Perm.swap va a _
          · rw [elems, h3, List.append_assoc, List.cons_append]
          · rw [elems, h4, List.append_assoc, List.cons_append]
          · intro b hb
            rcases List.mem_append.1 hb with hb | hb
            · exact hvl b hb
            · rcases List.mem_cons.1 hb with rfl | hb
              · exact hc'
              · exact h5 b hb

/-- Invariant of the sets that the operations build. -/
structure Valid (h : Nat) (t : Tree) : Prop where
  wf : ∀ i ∈ elems t, WfId i
  sorted : Sorted t
  nodup : (blocks t).Nodup
  below : ∀ b ∈ blocks t, b < h

theorem Valid.null (h : Nat) : Valid h .null := ⟨by simp [elems], by simp [Sorted, elems], by simp [blocks], by simp [blocks]⟩

theorem Valid.mono {h h' t} (v : Valid h t) (hh : h ≤ h') : Valid h' t :=
  ⟨v.wf, v.sorted, v.nodup, fun b hb => Nat.lt_of_lt_of_le (v.below b hb) hh⟩

/-- Result of an insertion: membership, validity, and which blocks are used. -/
structure Grown (h : Nat) (t : Tree) (is : List Id) (t' : Tree) (h' : Nat) : Prop where
  valid : Valid h' t'
  le : h ≤ h'
  mem : ∀ x, x ∈ elems t' → x ∈ elems t ∨ x ∈ is
  old : ∀ x ∈ elems t, x ∈ elems t'
  new : ∀ i ∈ is, ∃ x ∈ elems t', x.lwr = i.lwr
  fresh : ∀ b ∈ blocks t', b ∈ blocks t ∨ h ≤ b

theorem insert_spec (h : Nat) (t : Tree) (i : Id) (v : Valid h t) (hi : WfId i) :
    ∃ t' h', SETIDinsert h t i = .ok (t', h') ∧ Grown h t [i] t' h' := by
  cases t with
  | null =>
    refine ⟨.node (h + 1) h i .null .null, h + 2, rfl, ?_⟩
    refine ⟨⟨?_, ?_, ?_, ?_⟩, by omega, ?_, by simp [elems], ?_, ?_⟩
    · simp [elems, hi]
    · simp [Sorted, elems]
    · simp [blocks]
    · simp [blocks]
    · simp [elems]
    · simp [elems]
    · simp [blocks]
  | node a ia j l r =>
    obtain ⟨t', ins, h', heq, hin⟩ := SLI_spec h i (h + 1) (.node a ia j l r) v.sorted (by simp)
    refine ⟨t', h', by simp [SETIDinsert, copyId, heq], ?_⟩
    cases ins with
    | false =>
      obtain ⟨h1, h2, x, hx, hx2⟩ := hin.no rfl
      subst h1 h2
      exact ⟨v.mono (by omega), by omega, fun x hx => Or.inl hx, fun x hx => hx,
        by simp only [List.mem_singleton, forall_eq]; exact ⟨x, hx, hx2⟩, fun b hb => Or.inl hb⟩
    | true =>
      obtain ⟨h1, h2, A, B, h3, h4, h5, h6⟩ := hin.yes rfl
      subst h1
      have hs := v.sorted
      rw [Sorted, h3, List.pairwise_append] at hs
      have hb := v.below
      refine ⟨⟨?_, ?_, ?_, ?_⟩, by omega, ?_, ?_, ?_, ?_⟩
      · intro x hx
        rw [h4] at hx
        have hw := v.wf
        rw [h3] at hw
        rcases List.mem_append.1 hx with hx | hx
        · exact hw x (List.mem_append.2 (Or.inl hx))
        · rcases List.mem_cons.1 hx with rfl | hx
          · exact hi
          · exact hw x (List.mem_append.2 (Or.inr hx))
      · rw [Sorted, h4, List.pairwise_append, List.pairwise_cons]
        refine ⟨hs.1, ⟨h6, hs.2.1⟩, ?_⟩
        intro x hx y hy
        rcases List.mem_cons.1 hy with rfl | hy
        · exact h5 x hx
        · exact hs.2.2 x hx y hy
      · rw [h2.nodup_iff, List.nodup_cons, List.nodup_cons]
        refine ⟨?_, ?_, v.nodup⟩
        · intro hm
          rcases List.mem_cons.1 hm with hm | hm
          · omega
          · have := hb _ hm; omega
        · intro hm
          have := hb _ hm; omega
      · intro b hm
        rcases List.mem_cons.1 (h2.mem_iff.1 hm) with hm | hm
        · omega
        · rcases List.mem_cons.1 hm with hm | hm
          · omega
          · have := hb _ hm; omega
      · intro x hx
        rw [h4] at hx
        rw [h3]
        simp only [List.mem_append, List.mem_cons] at hx ⊢
        rcases hx with hx | hx | hx <;> simp [hx]
      · intro x hx
        rw [h3] at hx
        rw [h4]
        simp only [List.mem_append, List.mem_cons] at hx ⊢
        rcases hx with hx | hx <;> simp [hx]
      · simp only [List.mem_singleton, forall_eq]
        exact ⟨i, by rw [h4]; simp, rfl⟩
      · intro b hm
        rcases List.mem_cons.1 (h2.mem_iff.1 hm) with hm | hm
        · right; omega
        · rcases List.mem_cons.1 hm with hm | hm
          · right; omega
          · left; exact hm

theorem insertAll_spec (l : List Id) (h : Nat) (t : Tree) (v : Valid h t) (hl : ∀ i ∈ l, WfId i) :
    ∃ t' h', insertAll h t l = .ok (t', h') ∧ Grown h t l t' h' := by
  induction l generalizing h t with
  | nil => exact ⟨t, h, rfl, ⟨v, Nat.le_refl _, fun x hx => Or.inl hx, fun x hx => hx, by simp, fun b hb => Or.inl hb⟩⟩
  | cons i l ih =>
    obtain ⟨t1, h1, e1, g1⟩ := insert_spec h t i v (hl i (by simp))
    obtain ⟨t2, h2, e2, g2⟩ := ih h1 t1 g1.valid (fun j hj => hl j (by simp [hj]))
    refine ⟨t2, h2, by simp [insertAll, e1, e2], ⟨g2.valid, Nat.le_trans g1.le g2.le, ?_, ?_, ?_, ?_⟩⟩
    · intro x hx
      rcases g2.mem x hx with hx | hx
      · rcases g1.mem x hx with hx | hx
        · exact Or.inl hx
        · exact Or.inr (by simp only [List.mem_singleton] at hx; simp [hx])
      · exact Or.inr (by simp [hx])
    · exact fun x hx => g2.old x (g1.old x hx)
    · intro j hj
      rcases List.mem_cons.1 hj with rfl | hj
      · obtain ⟨x, hx, hx2⟩ := g1.new j (by simp)
        exact ⟨x, g2.old x hx, hx2⟩
      · exact g2.new j hj
    · intro b hb
      rcases g2.fresh b hb with hb | hb
      · rcases g1.fresh b hb with hb | hb
        · exact Or.inl hb
        · exact Or.inr hb
      · exact Or.inr (Nat.le_trans g1.le hb)

theorem contains_spec (t : Tree) (i : Id) (hs : Sorted t) :
    (SETIDcontains t i).1 = t ∧ ((SETIDcontains t i).2 = true ↔ ∃ x ∈ elems t, x.lwr = i.lwr) := by
  have key : ∀ t, Sorted t → (SLCsetliteral i t).1 = t ∧
      ((SLCsetliteral i t).2 = true ↔ ∃ x ∈ elems t, x.lwr = i.lwr) := by
    intro t
    induction t with
    | null => simp [SLCsetliteral, elems]
    | node a ia j l r ihl ihr =>
      intro hs
      obtain ⟨hsl, hsr, hli, hir, hlr⟩ := sorted_node.1 hs
      cases hc : strcmp i.lwr j.lwr with
      | eq =>
        have he := (strcmp_eq _ _).1 hc
        simp only [SLCsetliteral, hc, true_and, true_iff]
        exact ⟨j, by simp [elems], he.symm⟩
      | lt =>
        simp only [SLCsetliteral, hc, (ihl hsl).1, true_and, (ihl hsl).2]
        constructor
        · rintro ⟨x, hx, hx2⟩
          exact ⟨x, by simp [elems, hx], hx2⟩
        · rintro ⟨x, hx, hx2⟩
          simp only [elems, List.mem_append, List.mem_cons] at hx
          rcases hx with hx | rfl | hx
          · exact ⟨x, hx, hx2⟩
          · rw [← hx2, (strcmp_eq _ _).2 rfl] at hc; cases hc
          · have := hir x hx
            rw [Lt, hx2] at this
            have := strcmp_lt_trans _ _ _ hc this
            rw [(strcmp_eq _ _).2 rfl] at this; cases this
      | gt =>
        have hc' := (strcmp_gt _ _).1 hc
        simp only [SLCsetliteral, hc, (ihr hsr).1, true_and, (ihr hsr).2]
        constructor
        · rintro ⟨x, hx, hx2⟩
          exact ⟨x, by simp [elems, hx], hx2⟩
        · rintro ⟨x, hx, hx2⟩
          simp only [elems, List.mem_append, List.mem_cons] at hx
          rcases hx with hx | rfl | hx
          · have := hli x hx
            rw [Lt, hx2] at this
            have := strcmp_lt_trans _ _ _ this hc'
            rw [(strcmp_eq _ _).2 rfl] at this; cases this
          · rw [hx2, (strcmp_eq _ _).2 rfl] at hc; cases hc
          · exact ⟨x, hx, hx2⟩
  cases t with
  | null => simp [SETIDcontains, elems]
  | node a ia j l r => exact key _ hs

/-- The identifiers in the order in which `TRAVchildren`-style handlers meet them. -/
def preorder : Tree → List Id
  | .null => []
  | .node _ _ i l r => i :: (preorder l ++ preorder r)

theorem mem_preorder (t : Tree) (x : Id) : x ∈ preorder t ↔ x ∈ elems t := by
  induction t with
  | null => simp [preorder, elems]
  | node a ia i l r ihl ihr =>
    simp only [preorder, elems, List.mem_cons, List.mem_append, ihl, ihr]
    constructor
    · rintro (h | h | h) <;> simp [h]
    · rintro (h | h | h) <;> simp [h]

theorem insertAll_append (a b : List Id) (h : Nat) (t : Tree) :
    insertAll h t (a ++ b) = (insertAll h t a >>= fun p => insertAll p.2 p.1 b) := by
  induction a generalizing h t with
  | nil => rfl
  | cons i a ih =>
    simp only [List.cons_append, insertAll]
    cases SETIDinsert h t i with
    | ok p => simp [ih]
    | ub w => rfl
    | abort w => rfl
    | diverge => rfl

theorem SLU_eq (t dst : Tree) (h : Nat) :
    SLUsetliteral dst h t = (insertAll h dst (preorder t) >>= fun p => .ok (t, p.1, p.2)) := by
  induction t generalizing dst h with
  | null => rfl
  | node a ia i l r ihl ihr =>
    simp only [SLUsetliteral, preorder, insertAll]
    cases SETIDinsert h dst i with
    | ub w => rfl
    | abort w => rfl
    | diverge => rfl
    | ok p =>
      simp only [Res.bind_ok, ihl, insertAll_append]
      cases insertAll p.2 p.1 (preorder l) with
      | ub w => rfl
      | abort w => rfl
      | diverge => rfl
      | ok q =>
        simp only [Res.bind_ok, ihr]
        cases insertAll q.2 q.1 (preorder r) <;> rfl

theorem insertIf_eq (want : Bool) (other new : Tree) (h : Nat) (i : Id) (hs : Sorted other) :
    insertIf want other new h i =
      (insertAll h new (if (SETIDcontains other i).2 = want then [i] else []) >>= fun p => .ok (other, p.1, p.2)) := by
  have h1 := (contains_spec other i hs).1
  simp only [insertIf]
  rw [h1]
  by_cases hc : (SETIDcontains other i).2 = want
  · simp only [hc, if_true, insertAll]
    cases SETIDinsert h new i <;> rfl
  · simp only [hc, if_false, insertAll, Res.bind_ok]

theorem SLF_eq (want : Bool) (t other new : Tree) (h : Nat) (hs : Sorted other) :
    SLFsetliteral want other new h t =
      (insertAll h new ((preorder t).filter fun i => (SETIDcontains other i).2 = want) >>=
        fun p => .ok (t, other, p.1, p.2)) := by
  induction t generalizing new h with
  | null => rfl
  | node a ia i l r ihl ihr =>
    have hf : (preorder (.node a ia i l r)).filter (fun i => (SETIDcontains other i).2 = want) =
        (if (SETIDcontains other i).2 = want then [i] else []) ++
          ((preorder l).filter (fun i => (SETIDcontains other i).2 = want) ++
            (preorder r).filter (fun i => (SETIDcontains other i).2 = want)) := by
      simp only [preorder, List.filter_cons, List.filter_append]
      by_cases hc : (SETIDcontains other i).2 = want
      · simp [hc]
      · simp [hc]
    rw [hf]
    simp only [SLFsetliteral, insertIf_eq _ _ _ _ _ hs, insertAll_append]
    cases insertAll h new (if (SETIDcontains other i).2 = want then [i] else []) with
    | ub w => rfl
    | abort w => rfl
    | diverge => rfl
    | ok p =>
      simp only [Res.bind_ok, ihl]
      cases insertAll p.2 p.1 ((preorder l).filter fun i => (SETIDcontains other i).2 = want) with
      | ub w => rfl
      | abort w => rfl
      | diverge => rfl
      | ok q =>
        simp only [Res.bind_ok, ihr]
        cases insertAll q.2 q.1 ((preorder r).filter fun i => (SETIDcontains other i).2 = want) <;> rfl

/-- Outcome of a binary operation whose result should contain the names satisfying `P`. -/
structure OpOk (h : Nat) (a b : Tree) (P : CStr → Prop) (r : SetResult) : Prop where
  left : r.left = a
  right : r.right = b
  valid : Valid r.heap r.new
  le : h ≤ r.heap
  mem : ∀ n, Has r.new n ↔ P n
  fresh : ∀ x ∈ blocks r.new, h ≤ x

theorem has_iff_lwr (t : Tree) (hw : ∀ i ∈ elems t, WfId i) (n : CStr) :
    Has t n ↔ ∃ i ∈ elems t, i.lwr = n.map lowerB := by
  constructor
  · rintro ⟨i, hi, hs⟩
    exact ⟨i, hi, by rw [(hw i hi).1]; exact hs⟩
  · rintro ⟨i, hi, hs⟩
    exact ⟨i, hi, by rw [(hw i hi).1] at hs; exact hs⟩

theorem Grown.has {h t is t' h'} (g : Grown h t is t' h') (hw : ∀ i ∈ is, WfId i) (n : CStr) :
    Has t' n ↔ Has t n ∨ ∃ i ∈ is, SameName i.orig n := by
  constructor
  · rintro ⟨x, hx, hs⟩
    rcases g.mem x hx with hx | hx
    · exact Or.inl ⟨x, hx, hs⟩
    · exact Or.inr ⟨x, hx, hs⟩
  · rintro (⟨x, hx, hs⟩ | ⟨x, hx, hs⟩)
    · exact ⟨x, g.old x hx, hs⟩
    · obtain ⟨y, hy, hyx⟩ := g.new x hx
      exact ⟨y, hy, by
        have h1 := (sameName_iff (g.valid.wf y hy) (hw x hx)).2 hyx
        exact Eq.trans h1 hs⟩

theorem has_null (n : CStr) : ¬ Has .null n := by rintro ⟨x, hx, _⟩; simp [elems] at hx

theorem union_spec (h : Nat) (a b : Tree) (va : Valid h a) (vb : Valid h b) :
    ∃ r, SETIDunion h a b = .ok r ∧ OpOk h a b (fun n => Has a n ∨ Has b n) r := by
  have wa : ∀ i ∈ preorder a, WfId i := fun i hi => va.wf i ((mem_preorder _ _).1 hi)
  have wb : ∀ i ∈ preorder b, WfId i := fun i hi => vb.wf i ((mem_preorder _ _).1 hi)
  obtain ⟨t1, h1, e1, g1⟩ := insertAll_spec (preorder a) h .null (Valid.null h) wa
  obtain ⟨t2, h2, e2, g2⟩ := insertAll_spec (preorder b) h1 t1 g1.valid wb
  refine ⟨⟨a, b, t2, h2⟩, by simp [SETIDunion, SLU_eq, e1, e2],
    ⟨rfl, rfl, g2.valid, Nat.le_trans g1.le g2.le, ?_, ?_⟩⟩
  · intro n
    rw [g2.has wb, g1.has wa]
    simp [mem_preorder, Has, elems]
  · intro x hx
    rcases g2.fresh x hx with hx | hx
    · rcases g1.fresh x hx with hx | hx
      · simp [blocks] at hx
      · exact hx
    · exact Nat.le_trans g1.le hx

theorem filter_spec (want : Bool) (h : Nat) (a b : Tree) (va : Valid h a) (vb : Valid h b) :
    ∃ new h', SLFsetliteral want b .null h a = .ok (a, b, new, h') ∧
      OpOk h a b (fun n => Has a n ∧ (want = true ↔ Has b n)) ⟨a, b, new, h'⟩ := by
  have wf : ∀ i ∈ (preorder a).filter (fun i => (SETIDcontains b i).2 = want), WfId i :=
    fun i hi => va.wf i ((mem_preorder _ _).1 (List.mem_filter.1 hi).1)
  obtain ⟨t1, h1, e1, g1⟩ := insertAll_spec _ h .null (Valid.null h) wf
  refine ⟨t1, h1, by simp [SLF_eq want a b .null h vb.sorted, e1], ⟨rfl, rfl, g1.valid, g1.le, ?_, ?_⟩⟩
  · intro n
    rw [g1.has wf]
    simp only [has_null, false_or, List.mem_filter, mem_preorder, decide_eq_true_eq]
    have hb : ∀ i, WfId i → SameName i.orig n → ((SETIDcontains b i).2 = true ↔ Has b n) := by
      intro i hi hs
      rw [(contains_spec b i vb.sorted).2, has_iff_lwr b vb.wf]
      have : i.lwr = n.map lowerB := by rw [hi.1]; exact hs
      rw [this]
    constructor
    · rintro ⟨i, ⟨hi, hc⟩, hs⟩
      refine ⟨⟨i, hi, hs⟩, ?_⟩
      rw [← hb i (va.wf i hi) hs, hc]
    · rintro ⟨⟨i, hi, hs⟩, hc⟩
      refine ⟨i, ⟨hi, ?_⟩, hs⟩
      rw [← hb i (va.wf i hi) hs] at hc
      cases hw : want <;> cases hx : (SETIDcontains b i).2 <;> simp_all
  · intro x hx
    rcases g1.fresh x hx with hx | hx
    · simp [blocks] at hx
    · exact hx

theorem intersect_spec (h : Nat) (a b : Tree) (va : Valid h a) (vb : Valid h b) :
    ∃ r, SETIDintersect h a b = .ok r ∧ OpOk h a b (fun n => Has a n ∧ Has b n) r := by
  cases a with
  | null =>
    exact ⟨⟨.null, b, .null, h⟩, rfl, ⟨rfl, rfl, Valid.null h, Nat.le_refl _, fun n => by simp [has_null],
      by simp [blocks]⟩⟩
  | node x ix i l r =>
    obtain ⟨new, h', e, o⟩ := filter_spec true h _ b va vb
    refine ⟨⟨_, b, new, h'⟩, by simp [SETIDintersect, e], ⟨o.left, o.right, o.valid, o.le, ?_, o.fresh⟩⟩
    intro n
    have := o.mem n
    simpa using this

theorem difference_spec (h : Nat) (a b : Tree) (va : Valid h a) (vb : Valid h b) :
    ∃ r, SETIDdifference h a b = .ok r ∧ OpOk h a b (fun n => Has a n ∧ ¬ Has b n) r := by
  cases a with
  | null =>
    exact ⟨⟨.null, b, .null, h⟩, rfl, ⟨rfl, rfl, Valid.null h, Nat.le_refl _, fun n => by simp [has_null],
      by simp [blocks]⟩⟩
  | node x ix i l r =>
    obtain ⟨new, h', e, o⟩ := filter_spec false h _ b va vb
    refine ⟨⟨_, b, new, h'⟩, by simp [SETIDdifference, e], ⟨o.left, o.right, o.valid, o.le, ?_, o.fresh⟩⟩
    intro n
    have := o.mem n
    simpa using this

theorem copySet_spec (t : Tree) (h : Nat) : elems (copySet h t).1 = elems t ∧ h ≤ (copySet h t).2 ∧
    (∀ b ∈ blocks (copySet h t).1, h ≤ b ∧ b < (copySet h t).2) ∧ (blocks (copySet h t).1).Nodup := by
  induction t generalizing h with
  | null => simp [copySet, blocks]
  | node a ia i l r ihl ihr =>
    obtain ⟨l1, l2, l3, l4⟩ := ihl (h + 1 + 1)
    obtain ⟨r1, r2, r3, r4⟩ := ihr (copySet (h + 1 + 1) l).2
    simp only [copySet, copyId]
    refine ⟨by simp only [elems, l1, r1], by omega, ?_, ?_⟩
    · intro b hb
      simp only [blocks, List.mem_cons, List.mem_append] at hb
      rcases hb with hb | hb | hb | hb
      · omega
      · omega
      · have := l3 b hb; omega
      · have := r3 b hb; omega
    · simp only [blocks, List.nodup_cons, List.mem_cons, List.mem_append, List.nodup_append]
      refine ⟨?_, ?_, l4, r4, ?_⟩
      · rintro (hb | hb | hb)
        · omega
        · have := l3 _ hb; omega
        · have := r3 _ hb; omega
      · rintro (hb | hb)
        · have := l3 _ hb; omega
        · have := r3 _ hb; omega
      · intro x hx y hy
        have := l3 _ hx; have := r3 _ hy; omega

theorem copySet_valid (t : Tree) (h : Nat) (v : Valid h t) : Valid (copySet h t).2 (copySet h t).1 := by
  obtain ⟨h1, h2, h3, h4⟩ := copySet_spec t h
  exact ⟨by rw [h1]; exact v.wf, by rw [Sorted, h1]; exact v.sorted, h4, fun b hb => (h3 b hb).2⟩

theorem built_valid {h t} (hb : Built h t) : Valid h t := by
  induction hb with
  | empty => exact Valid.null _
  | later _ hh ih => exact ih.mono hh
  | insert _ hw he ih =>
    obtain ⟨t', h', e, g⟩ := insert_spec _ _ _ ih hw
    rw [e] at he
    cases he
    exact g.valid
  | union _ _ he iha ihb =>
    obtain ⟨r, e, o⟩ := union_spec _ _ _ iha ihb
    rw [e] at he; cases he; exact o.valid
  | intersect _ _ he iha ihb =>
    obtain ⟨r, e, o⟩ := intersect_spec _ _ _ iha ihb
    rw [e] at he; cases he; exact o.valid
  | difference _ _ he iha ihb =>
    obtain ⟨r, e, o⟩ := difference_spec _ _ _ iha ihb
    rw [e] at he; cases he; exact o.valid
  | copy _ ih => exact copySet_valid _ _ ih

end Verif.Sets
