import Verif.Spec.CheckExist
import Verif.Lemmas.Ids

/-!
# Lemmas about the check of references
-/

namespace Verif.Spec.CheckExist
open Verif.Str Verif.Ids Verif.Grammar Verif.CheckExist Verif.Spec.Str Verif.Spec.Ids

/-- The kind of what the table has under a name. -/
def kindOf (tab : List (Ste Decl)) (i : Id) : Option Kind := (stFind i.lwr tab).map (·.kind)

/-- The table is right about the name. -/
def Right (p : Prog) (tab : List (Ste Decl)) (i : Id) : Prop := ∀ k, kindOf tab i = some k ↔ Denotes p i k

/-- The number of errors grows, and stays the same exactly if the condition holds. -/
def Counts (e e' : Nat) (c : Prop) : Prop := e ≤ e' ∧ (e' = e ↔ c)

theorem Counts.same (e : Nat) {c : Prop} (h : c) : Counts e e c := ⟨Nat.le_refl _, by simp [h]⟩

theorem Counts.more (e : Nat) {c : Prop} (h : ¬ c) : Counts e (e + 1) c := ⟨by omega, by simp [h]⟩

theorem Counts.trans {a b c : Nat} {x y : Prop} (h1 : Counts a b x) (h2 : Counts b c y) : Counts a c (x ∧ y) := by
  obtain ⟨l1, i1⟩ := h1
  obtain ⟨l2, i2⟩ := h2
  refine ⟨Nat.le_trans l1 l2, ⟨fun h => ?_, fun h => ?_⟩⟩
  · have hb : b = a := by omega
    exact ⟨i1.1 hb, i2.1 (by omega)⟩
  · have := i1.2 h.1
    have := i2.2 h.2
    omega

/-- As `trans`, where the second condition is known only if the first part went well. -/
theorem Counts.trans' {a b c : Nat} {x y z : Prop} (h1 : Counts a b x) (h2 : Counts b c y) (h : x → (y ↔ z)) :
    Counts a c (x ∧ z) := by
  have h3 := h1.trans h2
  refine ⟨h3.1, h3.2.trans ?_⟩
  constructor
  · rintro ⟨hx, hy⟩; exact ⟨hx, (h hx).1 hy⟩
  · rintro ⟨hx, hz⟩; exact ⟨hx, (h hx).2 hz⟩

theorem Counts.congr {a b : Nat} {x y : Prop} (h : Counts a b x) (hxy : x ↔ y) : Counts a b y :=
  ⟨h.1, h.2.trans hxy⟩

/-! ## Reserved words -/

theorem checkWords_spec (u : CStr) (ws : List CStr) (st : St) :
    ∃ e, checkWords u ws st = { st with errors := e } ∧ Counts st.errors e (∀ w ∈ ws, u ≠ w) := by
  induction ws generalizing st with
  | nil => exact ⟨st.errors, rfl, Counts.same _ (by simp)⟩
  | cons w ws ih =>
    simp only [checkWords, STReq, strcmpEq]
    by_cases h : u = w
    · obtain ⟨e, h1, h2⟩ := ih (err st)
      refine ⟨e, ?_, ?_⟩
      · simp only [h, beq_self_eq_true]; rw [← h, h1]; rfl
      · refine ((Counts.more st.errors (c := False) (by simp)).trans h2).congr ?_
        simp [h]
    · obtain ⟨e, h1, h2⟩ := ih st
      refine ⟨e, ?_, h2.congr (by simp [h])⟩
      have hb : (u == w) = false := by simpa using h
      simp only [hb, h1]

theorem reserved_iff (ws : List CStr) (i : Id) (hi : WfId i) : (∀ w ∈ ws, i.upr ≠ w) ↔ ¬ Reserved ws i := by
  rw [Reserved, ← hi.2]
  constructor
  · rintro h ⟨w, hw, e⟩; exact h w hw e
  · intro h w hw e; exact h ⟨w, hw, e⟩

theorem uidReserved_eq : uidReserved = uidWords := by decide +kernel
theorem enumReserved_eq : enumReserved = prefixWords := by decide +kernel

theorem checkUID_spec (u : Option Id) (st : St) (hw : ∀ i ∈ u, WfId i) :
    ∃ e, checkUID u st = { st with errors := e } ∧ Counts st.errors e (∀ i ∈ u, ¬ Reserved uidWords i) := by
  cases u with
  | none => exact ⟨st.errors, rfl, Counts.same _ (by simp)⟩
  | some i =>
    obtain ⟨e, h1, h2⟩ := checkWords_spec i.upr uidReserved st
    refine ⟨e, h1, h2.congr ?_⟩
    rw [reserved_iff _ _ (hw i rfl), uidReserved_eq]
    simp

/-! ## Phases -/

theorem actions_spec (p : Prog) (tab : List (Ste Decl)) (l : List Id) (st : St) (hr : ∀ a ∈ l, Right p tab a) :
    ∃ e, CEXiactions tab l st = .ok { st with errors := e } ∧ Counts st.errors e (∀ a ∈ l, ∃ k, Denotes p a k) := by
  induction l with
  | nil => exact ⟨st.errors, rfl, Counts.same _ (by simp)⟩
  | cons a l ih =>
    obtain ⟨e, h1, h2⟩ := ih (fun x hx => hr x (List.mem_cons_of_mem _ hx))
    have ha := hr a List.mem_cons_self
    simp only [CEXiactions, h1, Res.bind_ok, STlookup]
    cases hf : stFind a.lwr tab with
    | none =>
      refine ⟨e + 1, rfl, (h2.trans (Counts.more e (c := False) (by simp))).congr ?_⟩
      have : ¬ ∃ k, Denotes p a k := by
        rintro ⟨k, hk⟩
        have := (ha k).2 hk
        simp [kindOf, hf] at this
      simp [this]
    | some d =>
      refine ⟨e, rfl, h2.congr ?_⟩
      have : ∃ k, Denotes p a k := ⟨d.kind, (ha d.kind).1 (by simp [kindOf, hf])⟩
      simp [this]

/-- The position of the first element with a flag. -/
def firstOf {α : Type} (f : α → Bool) : Nat → List α → Option Nat
  | _, [] => none
  | i, x :: l => if f x then some i else firstOf f (i + 1) l

/-- Number of flagged elements. -/
def flagged {α : Type} (f : α → Bool) (l : List α) : Nat := (l.filter f).length

theorem phases_spec (p : Prog) (tab : List (Ste Decl)) (l : List Phase) (i : Nat) (st : St)
    (hr : ∀ x ∈ l, ∀ a ∈ x.actions, Right p tab a) (hw : ∀ x ∈ l, ∀ u ∈ x.uid, WfId u) :
    ∃ e ss s, CEXiphase tab i l st = .ok { st with errors := e, seenStart := ss, start := s } ∧
      Counts st.errors e ((∀ x ∈ l, ∀ a ∈ x.actions, ∃ k, Denotes p a k) ∧
        (∀ x ∈ l, ∀ u ∈ x.uid, ¬ Reserved uidWords u) ∧
        flagged (·.isStart) l + st.seenStart.toNat ≤ 1) ∧
      s = (if st.seenStart then st.start else (firstOf (·.isStart) i l).or st.start) := by
  induction l generalizing i st with
  | nil =>
    refine ⟨st.errors, st.seenStart, st.start, rfl, Counts.same _ ⟨by simp, by simp, ?_⟩, ?_⟩
    · cases st.seenStart <;> simp [flagged]
    · cases st.seenStart <;> simp [firstOf]
  | cons x l ih =>
    obtain ⟨e1, h1, c1⟩ := checkUID_spec x.uid st (hw x List.mem_cons_self)
    rw [CEXiphase, h1]
    -- the flag
    obtain ⟨e2, ss2, s2, h2, c2, hss2, hs2⟩ : ∃ e2 ss2 s2, startPhase i x.isStart { st with errors := e1 } =
        { st with errors := e2, seenStart := ss2, start := s2 } ∧
        Counts e1 e2 (x.isStart.toNat + st.seenStart.toNat ≤ 1) ∧ ss2 = (st.seenStart || x.isStart) ∧
        s2 = (if st.seenStart then st.start else if x.isStart then some i else st.start) := by
      cases hx : x.isStart with
      | false =>
        refine ⟨e1, st.seenStart, st.start, rfl, Counts.same _ ?_, by simp, by simp⟩
        cases st.seenStart <;> decide
      | true =>
        cases hs : st.seenStart with
        | true =>
          refine ⟨e1 + 1, true, st.start, ?_, Counts.more _ (by decide), rfl, by simp⟩
          simp only [startPhase, err]
        | false =>
          refine ⟨e1, true, some i, ?_, Counts.same _ (by decide), rfl, by simp⟩
          simp only [startPhase]
    rw [h2]
    obtain ⟨e3, h3, c3⟩ := actions_spec p tab x.actions { st with errors := e2, seenStart := ss2, start := s2 }
      (hr x List.mem_cons_self)
    simp only [h3, Res.bind_ok]
    obtain ⟨e4, ss4, s4, h4, c4, hs4⟩ := ih (i + 1) { st with errors := e3, seenStart := ss2, start := s2 }
      (fun y hy => hr y (List.mem_cons_of_mem _ hy)) (fun y hy => hw y (List.mem_cons_of_mem _ hy))
    refine ⟨e4, ss4, s4, h4, ?_, ?_⟩
    · refine (((c1.trans c2).trans c3).trans c4).congr ?_
      have hfl : flagged (·.isStart) (x :: l) = x.isStart.toNat + flagged (·.isStart) l := by
        simp only [flagged, List.filter_cons]
        cases x.isStart <;> simp; omega
      rw [hfl, hss2]
      simp only [List.forall_mem_cons]
      constructor
      · rintro ⟨⟨⟨a, b⟩, c⟩, d, f, g⟩
        refine ⟨⟨c, d⟩, ⟨a, f⟩, ?_⟩
        revert b g
        cases st.seenStart <;> cases x.isStart <;> simp <;> omega
      · rintro ⟨⟨c, d⟩, ⟨a, f⟩, g⟩
        refine ⟨⟨⟨a, ?_⟩, c⟩, d, f, ?_⟩ <;> revert g <;> cases st.seenStart <;> cases x.isStart <;> simp <;> omega
    · rw [hs4, hss2, hs2, firstOf]
      cases st.seenStart <;> cases x.isStart <;> simp

/-! ## Set expressions -/

theorem kind_some {tab : List (Ste Decl)} {i : Id} {d : Decl} (h : stFind i.lwr tab = some d) :
    kindOf tab i = some d.kind := by simp [kindOf, h]

theorem kind_none {tab : List (Ste Decl)} {i : Id} (h : stFind i.lwr tab = none) : kindOf tab i = none := by
  simp [kindOf, h]

theorem Right.not_none {p : Prog} {tab : List (Ste Decl)} {i : Id} (h : Right p tab i)
    (hf : stFind i.lwr tab = none) (k : Kind) : ¬ Denotes p i k := by
  intro hk
  have := (h k).2 hk
  rw [kind_none hf] at this
  exact absurd this (by simp)

theorem Right.iff {p : Prog} {tab : List (Ste Decl)} {i : Id} (h : Right p tab i) {d : Decl}
    (hf : stFind i.lwr tab = some d) (k : Kind) : Denotes p i k ↔ d.kind = k := by
  rw [← h k, kind_some hf]
  simp

theorem literal_spec (p : Prog) (tab : List (Ste Decl)) (l : List Id) (st : St) (hr : ∀ a ∈ l, Right p tab a) :
    ∃ e, CEXsetliteral tab l st = .ok { st with errors := e } ∧ Counts st.errors e (∀ a ∈ l, Denotes p a .node) := by
  induction l generalizing st with
  | nil => exact ⟨st.errors, rfl, Counts.same _ (by simp)⟩
  | cons a l ih =>
    have ha := hr a List.mem_cons_self
    have hr' : ∀ x ∈ l, Right p tab x := fun x hx => hr x (List.mem_cons_of_mem _ hx)
    have bad : ¬ Denotes p a .node → ∃ e, CEXsetliteral tab l (err st) = .ok { st with errors := e } ∧
        Counts st.errors e (∀ x ∈ a :: l, Denotes p x .node) := by
      intro hn
      obtain ⟨e, h1, h2⟩ := ih (err st) hr'
      refine ⟨e, h1, ((Counts.more st.errors (c := False) (by simp)).trans h2).congr ?_⟩
      simp [hn]
    simp only [CEXsetliteral, STlookup, Res.bind_ok]
    cases hf : stFind a.lwr tab with
    | none => exact bad (ha.not_none hf _)
    | some d =>
      have hi := ha.iff hf .node
      dsimp only
      cases hk : d.kind with
      | node =>
        obtain ⟨e, h1, h2⟩ := ih st hr'
        refine ⟨e, h1, h2.congr ?_⟩
        simp [hi.2 hk]
      | phase => exact bad (fun h => by rw [hi.1 h] at hk; cases hk)
      | traversal => exact bad (fun h => by rw [hi.1 h] at hk; cases hk)
      | pass => exact bad (fun h => by rw [hi.1 h] at hk; cases hk)
      | nodeset => exact bad (fun h => by rw [hi.1 h] at hk; cases hk)
      | enum => exact bad (fun h => by rw [hi.1 h] at hk; cases hk)

theorem setexpr_spec (p : Prog) (tab : List (Ste Decl)) (x : Expr) (st : St) (hr : ∀ a ∈ exprIds x, Right p tab a) :
    ∃ e, CEXsetexpr tab x st = .ok { st with errors := e } ∧ Counts st.errors e (ExprOk p x) := by
  induction x generalizing st with
  | lit names => exact literal_spec p tab names st hr
  | ref n =>
    have ha := hr n (by simp [exprIds])
    simp only [CEXsetexpr, STlookup, Res.bind_ok, ExprOk]
    cases hf : stFind n.lwr tab with
    | none => exact ⟨st.errors + 1, rfl, Counts.more _ (ha.not_none hf _)⟩
    | some d =>
      have hi := ha.iff hf .nodeset
      dsimp only
      cases hk : d.kind with
      | nodeset => exact ⟨st.errors, rfl, Counts.same _ (hi.2 hk)⟩
      | phase => exact ⟨st.errors + 1, rfl, Counts.more _ (fun h => by rw [hi.1 h] at hk; cases hk)⟩
      | traversal => exact ⟨st.errors + 1, rfl, Counts.more _ (fun h => by rw [hi.1 h] at hk; cases hk)⟩
      | pass => exact ⟨st.errors + 1, rfl, Counts.more _ (fun h => by rw [hi.1 h] at hk; cases hk)⟩
      | node => exact ⟨st.errors + 1, rfl, Counts.more _ (fun h => by rw [hi.1 h] at hk; cases hk)⟩
      | enum => exact ⟨st.errors + 1, rfl, Counts.more _ (fun h => by rw [hi.1 h] at hk; cases hk)⟩
  | op o l r ihl ihr =>
    obtain ⟨e1, h1, c1⟩ := ihl st (fun a ha => hr a (by simp [exprIds, ha]))
    obtain ⟨e2, h2, c2⟩ := ihr { st with errors := e1 } (fun a ha => hr a (by simp [exprIds, ha]))
    exact ⟨e2, by simp only [CEXsetexpr, h1, Res.bind_ok, h2], c1.trans c2⟩

theorem setexprOpt_spec (p : Prog) (tab : List (Ste Decl)) (x : Option Expr) (st : St)
    (hr : ∀ e ∈ x, ∀ a ∈ exprIds e, Right p tab a) :
    ∃ e, setexprOpt tab x st = .ok { st with errors := e } ∧ Counts st.errors e (∀ e ∈ x, ExprOk p e) := by
  cases x with
  | none => exact ⟨st.errors, rfl, Counts.same _ (by simp)⟩
  | some x =>
    obtain ⟨e, h1, c1⟩ := setexpr_spec p tab x st (hr x rfl)
    exact ⟨e, h1, c1.congr (by simp)⟩

/-! ## Names -/

/-- The keys of a table. -/
def keys (t : List (Ste Unit)) : List CStr := t.map (·.key.lwr)

/-- The names are new, one after the other. -/
def Fresh : List CStr → List CStr → Prop
  | _, [] => True
  | ks, x :: l => x ∉ ks ∧ Fresh (x :: ks) l

theorem fresh_append (ks a b : List CStr) : Fresh ks (a ++ b) ↔ Fresh ks a ∧ Fresh (a.reverse ++ ks) b := by
  induction a generalizing ks with
  | nil => simp [Fresh]
  | cons x a ih => simp only [List.cons_append, Fresh, ih, List.reverse_cons, List.append_assoc, List.nil_append,
      and_assoc]

theorem fresh_iff (ks l : List CStr) : Fresh ks l ↔ (∀ x ∈ l, x ∉ ks) ∧ l.Pairwise (· ≠ ·) := by
  induction l generalizing ks with
  | nil => simp [Fresh]
  | cons x l ih =>
    simp only [Fresh, ih, List.mem_cons, List.pairwise_cons, forall_eq_or_imp]
    constructor
    · rintro ⟨h1, h2, h3⟩
      exact ⟨⟨h1, fun y hy hk => h2 y hy (.inr hk)⟩, fun y hy e => h2 y hy (.inl e.symm), h3⟩
    · rintro ⟨⟨h1, h2⟩, h3, h4⟩
      exact ⟨h1, fun y hy hk => hk.elim (fun e => h3 y hy e.symm) (h2 y hy), h4⟩

theorem distinct_iff (l : List Id) (hw : ∀ i ∈ l, WfId i) : Fresh [] (l.map (·.lwr)) ↔ Distinct l := by
  rw [fresh_iff, Distinct, List.pairwise_map]
  constructor
  · rintro ⟨_, h⟩
    refine List.Pairwise.imp_of_mem ?_ h
    intro a b ha hb hab he
    exact hab ((sameName_iff (hw a ha) (hw b hb)).1 he)
  · intro h
    refine ⟨by simp, List.Pairwise.imp_of_mem ?_ h⟩
    intro a b ha hb hab he
    exact hab ((sameName_iff (hw a ha) (hw b hb)).2 he)

theorem find_unit (k : CStr) (t : List (Ste Unit)) : stFind k t = none ↔ k ∉ keys t := by
  rw [stFind_none]
  simp [keys]

theorem fieldName_spec (n : Id) (st : St) :
    ∃ e ns, fieldName n st = .ok { st with errors := e, names := ns } ∧ Counts st.errors e (n.lwr ∉ keys st.names) ∧
      (e = st.errors → keys ns = n.lwr :: keys st.names) := by
  simp only [fieldName, STlookup, Res.bind_ok]
  cases hf : stFind n.lwr st.names with
  | none =>
    exact ⟨st.errors, STadd st.names n (), rfl, Counts.same _ ((find_unit _ _).1 hf), fun _ => rfl⟩
  | some u =>
    refine ⟨st.errors + 1, st.names, rfl, Counts.more _ ?_, fun h => by omega⟩
    rw [← find_unit, hf]
    simp

theorem dataName_spec (n : Id) (st : St) :
    ∃ e ns, dataName n st = .ok { st with errors := e, datas := ns } ∧ Counts st.errors e (n.lwr ∉ keys st.datas) ∧
      (e = st.errors → keys ns = n.lwr :: keys st.datas) := by
  simp only [dataName, STlookup, Res.bind_ok]
  cases hf : stFind n.lwr st.datas with
  | none =>
    exact ⟨st.errors, STadd st.datas n (), rfl, Counts.same _ ((find_unit _ _).1 hf), fun _ => rfl⟩
  | some u =>
    refine ⟨st.errors + 1, st.datas, rfl, Counts.more _ ?_, fun h => by omega⟩
    rw [← find_unit, hf]
    simp

theorem enumPrefix_spec (n : Id) (st : St) :
    ∃ e ns, enumPrefix n st = .ok { st with errors := e, prefixes := ns } ∧
      Counts st.errors e (n.lwr ∉ keys st.prefixes) ∧ (e = st.errors → keys ns = n.lwr :: keys st.prefixes) := by
  simp only [enumPrefix, STlookup, Res.bind_ok]
  cases hf : stFind n.lwr st.prefixes with
  | none =>
    exact ⟨st.errors, STadd st.prefixes n (), rfl, Counts.same _ ((find_unit _ _).1 hf), fun _ => rfl⟩
  | some u =>
    refine ⟨st.errors + 1, st.prefixes, rfl, Counts.more _ ?_, fun h => by omega⟩
    rw [← find_unit, hf]
    simp

/-! ## Types -/

theorem attrType_spec (p : Prog) (tab : List (Ste Decl)) (a : Attr) (st : St)
    (hp : a.type = .linkOrEnum → a.ref.isSome) (hr : ∀ r ∈ a.ref, Right p tab r) :
    ∃ a' e, attrType tab a st = .ok (a', { st with errors := e }) ∧ Counts st.errors e (AttrOk p a) ∧
      (e = st.errors → AttrFilled p a a') := by
  unfold attrType
  cases ht : a.type with
  | linkOrEnum =>
    obtain ⟨r, hr'⟩ := Option.isSome_iff_exists.1 (hp ht)
    have ha := hr r hr'
    simp only [hr', STlookup, Res.bind_ok]
    have ok : AttrOk p a ↔ (Denotes p r .node ∨ Denotes p r .nodeset ∨ Denotes p r .enum) := by
      rw [AttrOk, hr']
      simp [ht]
    have fill : ∀ a' : Attr, a'.name = a.name → a'.ref = a.ref →
        ((Denotes p r .node ∨ Denotes p r .nodeset → a'.type = .link) ∧ (Denotes p r .enum → a'.type = .linkOrEnum)) →
        AttrFilled p a a' := by
      intro a' h1 h2 h3
      refine ⟨h1, h2, fun h => absurd ht h, fun _ x hx => ?_⟩
      rw [hr'] at hx
      cases hx
      exact h3
    cases hf : stFind r.lwr tab with
    | none =>
      refine ⟨a, st.errors + 1, rfl, Counts.more _ ?_, fun h => by omega⟩
      rw [ok]
      have := ha.not_none hf
      simp [this]
    | some d =>
      have hi := ha.iff hf
      rw [hi, hi, hi] at ok
      simp only [hi] at fill
      dsimp only
      cases hk : d.kind with
      | node => exact ⟨_, st.errors, rfl, Counts.same _ (ok.2 (by simp [hk])), fun _ => fill _ rfl hr'.symm (by simp [hk])⟩
      | nodeset =>
        exact ⟨_, st.errors, rfl, Counts.same _ (ok.2 (by simp [hk])), fun _ => fill _ rfl hr'.symm (by simp [hk])⟩
      | enum => exact ⟨_, st.errors, rfl, Counts.same _ (ok.2 (by simp [hk])), fun _ => fill _ rfl hr'.symm (by simp [hk])⟩
      | phase => exact ⟨_, st.errors + 1, rfl, Counts.more _ (by rw [ok, hk]; simp), fun h => by omega⟩
      | traversal => exact ⟨_, st.errors + 1, rfl, Counts.more _ (by rw [ok, hk]; simp), fun h => by omega⟩
      | pass => exact ⟨_, st.errors + 1, rfl, Counts.more _ (by rw [ok, hk]; simp), fun h => by omega⟩
  | user =>
    exact ⟨a, st.errors, rfl, Counts.same _ (fun h => by rw [ht] at h; cases h),
      fun _ => ⟨rfl, rfl, fun _ => rfl, fun h => by rw [ht] at h; cases h⟩⟩
  | link =>
    exact ⟨a, st.errors, rfl, Counts.same _ (fun h => by rw [ht] at h; cases h),
      fun _ => ⟨rfl, rfl, fun _ => rfl, fun h => by rw [ht] at h; cases h⟩⟩
  | prim =>
    exact ⟨a, st.errors, rfl, Counts.same _ (fun h => by rw [ht] at h; cases h),
      fun _ => ⟨rfl, rfl, fun _ => rfl, fun h => by rw [ht] at h; cases h⟩⟩

theorem travdata_spec (p : Prog) (tab : List (Ste Decl)) (l : List Attr) (st : St)
    (hp : ∀ a ∈ l, a.type = .linkOrEnum → a.ref.isSome) (hr : ∀ a ∈ l, ∀ r ∈ a.ref, Right p tab r) :
    ∃ l' e ns, CEXitravdata tab l st = .ok (l', { st with errors := e, datas := ns }) ∧
      Counts st.errors e (Fresh (keys st.datas) ((l.map (·.name)).map (·.lwr)) ∧ ∀ a ∈ l, AttrOk p a) ∧
      (e = st.errors → AllPairs (AttrFilled p) l l') := by
  induction l generalizing st with
  | nil => exact ⟨[], st.errors, st.datas, rfl, Counts.same _ ⟨trivial, by simp⟩, fun _ => .nil⟩
  | cons a l ih =>
    obtain ⟨e1, n1, h1, c1, k1⟩ := dataName_spec a.name st
    obtain ⟨a', e2, h2, c2, f2⟩ := attrType_spec p tab a { st with errors := e1, datas := n1 }
      (hp a List.mem_cons_self) (hr a List.mem_cons_self)
    obtain ⟨l', e3, n3, h3, c3, f3⟩ := ih { st with errors := e2, datas := n1 }
      (fun x hx => hp x (List.mem_cons_of_mem _ hx)) (fun x hx => hr x (List.mem_cons_of_mem _ hx))
    refine ⟨a' :: l', e3, n3, by simp only [CEXitravdata, h1, Res.bind_ok, h2, h3], ?_, fun h => ?_⟩
    · refine ((c1.trans c2).trans' (c3 : Counts e2 e3 _)
        (z := Fresh (a.name.lwr :: keys st.datas) ((l.map (·.name)).map (·.lwr)) ∧ ∀ a ∈ l, AttrOk p a) ?_).congr ?_
      · rintro ⟨x, _⟩
        rw [show keys ({ st with errors := e2, datas := n1 } : St).datas = _ from k1 (c1.2.2 x)]
      · simp only [List.map_cons, Fresh, List.forall_mem_cons]
        constructor
        · rintro ⟨⟨a1, a2⟩, a3, a4⟩; exact ⟨⟨a1, a3⟩, a2, a4⟩
        · rintro ⟨⟨a1, a3⟩, a2, a4⟩; exact ⟨⟨a1, a2⟩, a3, a4⟩
    · have := c1.1
      have : e1 ≤ e2 := c2.1
      have : e2 ≤ e3 := c3.1
      exact .cons (f2 (by show e2 = e1; omega)) (f3 (by show e3 = e2; omega))

theorem attrs_spec (p : Prog) (tab : List (Ste Decl)) (l : List Attr) (st : St)
    (hp : ∀ a ∈ l, a.type = .linkOrEnum → a.ref.isSome) (hr : ∀ a ∈ l, ∀ r ∈ a.ref, Right p tab r) :
    ∃ l' e ns, CEXattribute tab l st = .ok (l', { st with errors := e, names := ns }) ∧
      Counts st.errors e (Fresh (keys st.names) ((l.map (·.name)).map (·.lwr)) ∧ ∀ a ∈ l, AttrOk p a) ∧
      (e = st.errors → AllPairs (AttrFilled p) l l' ∧
        keys ns = ((l.map (·.name)).map (·.lwr)).reverse ++ keys st.names) := by
  induction l generalizing st with
  | nil => exact ⟨[], st.errors, st.names, rfl, Counts.same _ ⟨trivial, by simp⟩, fun _ => ⟨.nil, rfl⟩⟩
  | cons a l ih =>
    obtain ⟨e1, n1, h1, c1, k1⟩ := fieldName_spec a.name st
    obtain ⟨a', e2, h2, c2, f2⟩ := attrType_spec p tab a { st with errors := e1, names := n1 }
      (hp a List.mem_cons_self) (hr a List.mem_cons_self)
    obtain ⟨l', e3, n3, h3, c3, f3⟩ := ih { st with errors := e2, names := n1 }
      (fun x hx => hp x (List.mem_cons_of_mem _ hx)) (fun x hx => hr x (List.mem_cons_of_mem _ hx))
    refine ⟨a' :: l', e3, n3, by simp only [CEXattribute, h1, Res.bind_ok, h2, h3], ?_, fun h => ?_⟩
    · refine ((c1.trans c2).trans' (c3 : Counts e2 e3 _)
        (z := Fresh (a.name.lwr :: keys st.names) ((l.map (·.name)).map (·.lwr)) ∧ ∀ a ∈ l, AttrOk p a) ?_).congr ?_
      · rintro ⟨x, _⟩
        rw [show keys ({ st with errors := e2, names := n1 } : St).names = _ from k1 (c1.2.2 x)]
      · simp only [List.map_cons, Fresh, List.forall_mem_cons]
        constructor
        · rintro ⟨⟨a1, a2⟩, a3, a4⟩; exact ⟨⟨a1, a3⟩, a2, a4⟩
        · rintro ⟨⟨a1, a3⟩, a2, a4⟩; exact ⟨⟨a1, a2⟩, a3, a4⟩
    · have := c1.1
      have : e1 ≤ e2 := c2.1
      have : e2 ≤ e3 := c3.1
      obtain ⟨f31, f32⟩ := f3 (by show e3 = e2; omega)
      refine ⟨.cons (f2 (by show e2 = e1; omega)) f31, ?_⟩
      rw [f32, show keys ({ st with errors := e2, names := n1 } : St).names = _ from k1 (by omega)]
      simp

theorem children_spec (p : Prog) (tab : List (Ste Decl)) (l : List Child) (st : St)
    (hp : ∀ c ∈ l, c.ref.isSome) (hr : ∀ c ∈ l, ∀ r ∈ c.ref, Right p tab r) :
    ∃ l' e ns, CEXchild tab l st = .ok (l', { st with errors := e, names := ns }) ∧
      Counts st.errors e (Fresh (keys st.names) ((l.map (·.name)).map (·.lwr)) ∧ ∀ c ∈ l, ChildOk p c) ∧
      (e = st.errors → AllPairs (ChildFilled p) l l') := by
  induction l generalizing st with
  | nil => exact ⟨[], st.errors, st.names, rfl, Counts.same _ ⟨trivial, by simp⟩, fun _ => .nil⟩
  | cons c l ih =>
    obtain ⟨r, hr'⟩ := Option.isSome_iff_exists.1 (hp c List.mem_cons_self)
    have ha := hr c List.mem_cons_self r hr'
    have ok : ChildOk p c ↔ (Denotes p r .node ∨ Denotes p r .nodeset) := by
      rw [ChildOk, hr']
      simp
    simp only [CEXchild, hr', STlookup, Res.bind_ok]
    cases hf : stFind r.lwr tab with
    | none =>
      refine ⟨c :: l, st.errors + 1, st.names, rfl, Counts.more _ ?_, fun h => by omega⟩
      rintro ⟨_, h⟩
      have := ok.1 (h c List.mem_cons_self)
      have hn := ha.not_none hf
      simp [hn] at this
    | some d =>
      have hi := ha.iff hf
      obtain ⟨c', e1, h1, c1, f1, hn1⟩ : ∃ c' e1, childType c d.kind st = (c', { st with errors := e1 }) ∧
          Counts st.errors e1 (ChildOk p c) ∧ (e1 = st.errors → ChildFilled p c c') ∧ c'.name = c.name := by
        rw [ok, hi, hi]
        have fill : ∀ c' : Child, c'.name = c.name → c'.ref = c.ref →
            ((d.kind = .node → c'.type = .inode) ∧ (d.kind = .nodeset → c'.type = .inodeset)) → ChildFilled p c c' := by
          intro c' x1 x2 x3
          refine ⟨x1, x2, fun y hy => ?_⟩
          rw [hr'] at hy
          cases hy
          rw [hi, hi]
          exact x3
        cases hk : d.kind with
        | node => exact ⟨_, st.errors, rfl, Counts.same _ (by simp), fun _ => fill _ rfl rfl (by simp [hk]), rfl⟩
        | nodeset => exact ⟨_, st.errors, rfl, Counts.same _ (by simp), fun _ => fill _ rfl rfl (by simp [hk]), rfl⟩
        | phase => exact ⟨c, st.errors + 1, rfl, Counts.more _ (by simp), fun h => by omega, rfl⟩
        | traversal => exact ⟨c, st.errors + 1, rfl, Counts.more _ (by simp), fun h => by omega, rfl⟩
        | pass => exact ⟨c, st.errors + 1, rfl, Counts.more _ (by simp), fun h => by omega, rfl⟩
        | enum => exact ⟨c, st.errors + 1, rfl, Counts.more _ (by simp), fun h => by omega, rfl⟩
      obtain ⟨e2, n2, h2, c2, k2⟩ := fieldName_spec c.name { st with errors := e1 }
      obtain ⟨l', e3, n3, h3, c3, f3⟩ := ih { st with errors := e2, names := n2 }
        (fun x hx => hp x (List.mem_cons_of_mem _ hx)) (fun x hx => hr x (List.mem_cons_of_mem _ hx))
      refine ⟨c' :: l', e3, n3, by simp only [h1, hn1, h2, Res.bind_ok, h3], ?_, fun h => ?_⟩
      · refine ((c1.trans c2).trans' (c3 : Counts e2 e3 _)
          (z := Fresh (c.name.lwr :: keys st.names) ((l.map (·.name)).map (·.lwr)) ∧ ∀ c ∈ l, ChildOk p c) ?_).congr ?_
        · rintro ⟨_, x⟩
          rw [show keys ({ st with errors := e2, names := n2 } : St).names = _ from k2 (c2.2.2 x)]
        · simp only [List.map_cons, Fresh, List.forall_mem_cons]
          constructor
          · rintro ⟨⟨a1, a2⟩, a3, a4⟩; exact ⟨⟨a2, a3⟩, a1, a4⟩
          · rintro ⟨⟨a1, a3⟩, a2, a4⟩; exact ⟨⟨a2, a1⟩, a3, a4⟩
      · have := c1.1
        have : e1 ≤ e2 := c2.1
        have : e2 ≤ e3 := c3.1
        exact .cons (f1 (by omega)) (f3 (by show e3 = e2; omega))

/-! ## The lists of declarations -/

theorem traversals_spec (p : Prog) (tab : List (Ste Decl)) (l : List Traversal) (st : St)
    (hw : ∀ t ∈ l, ∀ u ∈ t.uid, WfId u) (hwd : ∀ t ∈ l, ∀ a ∈ t.data, WfId a.name)
    (hx : ∀ t ∈ l, ∀ e ∈ t.nodes, ∀ a ∈ exprIds e, Right p tab a)
    (hp : ∀ t ∈ l, ∀ a ∈ t.data, a.type = .linkOrEnum → a.ref.isSome)
    (hr : ∀ t ∈ l, ∀ a ∈ t.data, ∀ r ∈ a.ref, Right p tab r) :
    ∃ l' e ns, CEXitraversal tab l st = .ok (l', { st with errors := e, datas := ns }) ∧
      Counts st.errors e ((∀ t ∈ l, ∀ u ∈ t.uid, ¬ Reserved uidWords u) ∧ (∀ t ∈ l, ∀ e ∈ t.nodes, ExprOk p e) ∧
        ∀ t ∈ l, Distinct (t.data.map (·.name)) ∧ ∀ a ∈ t.data, AttrOk p a) ∧
      (e = st.errors → AllPairs (fun t t' => t'.name = t.name ∧ t'.uid = t.uid ∧ t'.nodes = t.nodes ∧
        AllPairs (AttrFilled p) t.data t'.data) l l') := by
  induction l generalizing st with
  | nil => exact ⟨[], st.errors, st.datas, rfl, Counts.same _ (by simp), fun _ => .nil⟩
  | cons t l ih =>
    have m := @List.mem_cons_self _ t l
    obtain ⟨e1, h1, c1⟩ := checkUID_spec t.uid st (hw t m)
    obtain ⟨e2, h2, c2⟩ := setexprOpt_spec p tab t.nodes { st with errors := e1, datas := [] } (hx t m)
    obtain ⟨d, e3, n3, h3, c3, f3⟩ := travdata_spec p tab t.data { st with errors := e2, datas := [] } (hp t m) (hr t m)
    obtain ⟨l', e4, n4, h4, c4, f4⟩ := ih { st with errors := e3, datas := n3 }
      (fun x hx => hw x (List.mem_cons_of_mem _ hx)) (fun x hx => hwd x (List.mem_cons_of_mem _ hx))
      (fun x hx' => hx x (List.mem_cons_of_mem _ hx')) (fun x hx => hp x (List.mem_cons_of_mem _ hx))
      (fun x hx => hr x (List.mem_cons_of_mem _ hx))
    refine ⟨{ t with data := d } :: l', e4, n4, by simp only [CEXitraversal, h1, h2, Res.bind_ok, h3, h4], ?_,
      fun h => ?_⟩
    · have hd : Fresh [] ((t.data.map (·.name)).map (·.lwr)) ↔ Distinct (t.data.map (·.name)) := by
        apply distinct_iff
        intro i hi
        obtain ⟨a, ha, rfl⟩ := List.mem_map.1 hi
        exact hwd t m a ha
      refine (((c1.trans c2).trans c3).trans c4).congr ?_
      simp only [keys, List.map_nil, hd, List.forall_mem_cons]
      constructor
      · rintro ⟨⟨⟨a, b⟩, c, c'⟩, d, f, g⟩; exact ⟨⟨a, d⟩, ⟨b, f⟩, ⟨c, c'⟩, g⟩
      · rintro ⟨⟨a, d⟩, ⟨b, f⟩, ⟨c, c'⟩, g⟩; exact ⟨⟨⟨a, b⟩, c, c'⟩, d, f, g⟩
    · have := c1.1
      have : e1 ≤ e2 := c2.1
      have : e2 ≤ e3 := c3.1
      have : e3 ≤ e4 := c4.1
      exact .cons ⟨rfl, rfl, rfl, f3 (by show e3 = e2; omega)⟩ (f4 (by show e4 = e3; omega))

theorem passes_spec (l : List Pass) (st : St) (hw : ∀ t ∈ l, ∀ u ∈ t.uid, WfId u) :
    ∃ e, CEXipass l st = { st with errors := e } ∧
      Counts st.errors e (∀ t ∈ l, ∀ u ∈ t.uid, ¬ Reserved uidWords u) := by
  induction l generalizing st with
  | nil => exact ⟨st.errors, rfl, Counts.same _ (by simp)⟩
  | cons t l ih =>
    obtain ⟨e1, h1, c1⟩ := checkUID_spec t.uid st (hw t List.mem_cons_self)
    obtain ⟨e2, h2, c2⟩ := ih { st with errors := e1 } (fun x hx => hw x (List.mem_cons_of_mem _ hx))
    exact ⟨e2, by simp only [CEXipass, h1, h2], (c1.trans c2).congr (by simp)⟩

theorem nodeName_spec (n : Id) (st : St) (hw : WfId n) :
    ∃ e, nodeName n st = { st with errors := e } ∧
      Counts st.errors e (¬ SameName n.orig "node".toUTF8.toList) := by
  have hi : SameName n.orig "node".toUTF8.toList ↔ n.lwr = [110, 111, 100, 101] := by
    rw [SameName, hw.1, show ("node".toUTF8.toList).map lowerB = [110, 111, 100, 101] by decide +kernel]
  rw [hi]
  unfold nodeName
  simp only [STReq, strcmpEq]
  by_cases h : n.lwr = [110, 111, 100, 101]
  · refine ⟨st.errors + 1, ?_, Counts.more _ (by simp [h])⟩
    simp only [h, beq_self_eq_true, err]
  · refine ⟨st.errors, ?_, Counts.same _ h⟩
    have hb : (n.lwr == [110, 111, 100, 101]) = false := by simpa using h
    simp only [hb]

theorem rootNode_spec (i : Nat) (b : Bool) (st : St) :
    ∃ e sr s, rootNode i b st = { st with errors := e, seenRoot := sr, root := s } ∧
      Counts st.errors e (b.toNat + st.seenRoot.toNat ≤ 1) ∧ sr = (st.seenRoot || b) ∧
      s = (if st.seenRoot then st.root else if b then some i else st.root) := by
  cases hb : b with
  | false =>
    refine ⟨st.errors, st.seenRoot, st.root, rfl, Counts.same _ ?_, by simp, by simp⟩
    cases st.seenRoot <;> decide
  | true =>
    cases hs : st.seenRoot with
    | true =>
      refine ⟨st.errors + 1, true, st.root, ?_, Counts.more _ (by decide), rfl, by simp⟩
      simp only [rootNode, hs, err]
    | false =>
      refine ⟨st.errors, true, some i, ?_, Counts.same _ (by decide), rfl, by simp⟩
      simp only [rootNode, hs]

theorem nodes_spec (p : Prog) (tab : List (Ste Decl)) (l : List Node) (i : Nat) (st : St) (hn : st.names = [])
    (hw : ∀ n ∈ l, WfId n.name) (hwa : ∀ n ∈ l, ∀ a ∈ n.attrs, WfId a.name)
    (hwc : ∀ n ∈ l, ∀ c ∈ n.children, WfId c.name)
    (hpa : ∀ n ∈ l, ∀ a ∈ n.attrs, a.type = .linkOrEnum → a.ref.isSome) (hpc : ∀ n ∈ l, ∀ c ∈ n.children, c.ref.isSome)
    (hra : ∀ n ∈ l, ∀ a ∈ n.attrs, ∀ r ∈ a.ref, Right p tab r)
    (hrc : ∀ n ∈ l, ∀ c ∈ n.children, ∀ r ∈ c.ref, Right p tab r) :
    ∃ l' e sr s, CEXinode tab i l st = .ok (l', { st with errors := e, seenRoot := sr, root := s }) ∧
      Counts st.errors e ((∀ n ∈ l, ¬ SameName n.name.orig "node".toUTF8.toList) ∧
        flagged (·.isRoot) l + st.seenRoot.toNat ≤ 1 ∧
        ∀ x ∈ l, Distinct (x.attrs.map (·.name) ++ x.children.map (·.name)) ∧
          (∀ a ∈ x.attrs, AttrOk p a) ∧ ∀ c ∈ x.children, ChildOk p c) ∧
      s = (if st.seenRoot then st.root else (firstOf (·.isRoot) i l).or st.root) ∧
      (e = st.errors → AllPairs (fun n n' => n'.name = n.name ∧ n'.isRoot = n.isRoot ∧
        AllPairs (AttrFilled p) n.attrs n'.attrs ∧ AllPairs (ChildFilled p) n.children n'.children) l l') := by
  induction l generalizing i st with
  | nil =>
    refine ⟨[], st.errors, st.seenRoot, st.root, rfl, Counts.same _ ⟨by simp, ?_, by simp⟩, ?_, fun _ => .nil⟩
    · cases st.seenRoot <;> simp [flagged]
    · cases st.seenRoot <;> simp [firstOf]
  | cons n l ih =>
    have m := @List.mem_cons_self _ n l
    obtain ⟨e1, h1, c1⟩ := nodeName_spec n.name st (hw n m)
    obtain ⟨e2, sr2, s2, h2, c2, hsr2, hs2⟩ := rootNode_spec i n.isRoot { st with errors := e1 }
    obtain ⟨as, e3, n3, h3, c3, f3⟩ := attrs_spec p tab n.attrs
      { st with errors := e2, seenRoot := sr2, root := s2 } (hpa n m) (hra n m)
    obtain ⟨cs, e4, n4, h4, c4, f4⟩ := children_spec p tab n.children
      { st with errors := e3, seenRoot := sr2, root := s2, names := n3 } (hpc n m) (hrc n m)
    obtain ⟨l', e5, sr5, s5, h5, c5, hs5, f5⟩ := ih (i + 1)
      { st with errors := e4, seenRoot := sr2, root := s2, names := [] } rfl
      (fun x hx => hw x (List.mem_cons_of_mem _ hx)) (fun x hx => hwa x (List.mem_cons_of_mem _ hx))
      (fun x hx => hwc x (List.mem_cons_of_mem _ hx)) (fun x hx => hpa x (List.mem_cons_of_mem _ hx))
      (fun x hx => hpc x (List.mem_cons_of_mem _ hx)) (fun x hx => hra x (List.mem_cons_of_mem _ hx))
      (fun x hx => hrc x (List.mem_cons_of_mem _ hx))
    have c34 : Counts e2 e4 (Distinct (n.attrs.map (·.name) ++ n.children.map (·.name)) ∧
        (∀ a ∈ n.attrs, AttrOk p a) ∧ ∀ c ∈ n.children, ChildOk p c) := by
      have hd : Fresh [] ((n.attrs.map (·.name) ++ n.children.map (·.name)).map (·.lwr)) ↔
          Distinct (n.attrs.map (·.name) ++ n.children.map (·.name)) := by
        apply distinct_iff
        intro i hi
        rcases List.mem_append.1 hi with hi | hi
        · obtain ⟨a, ha, rfl⟩ := List.mem_map.1 hi
          exact hwa n m a ha
        · obtain ⟨a, ha, rfl⟩ := List.mem_map.1 hi
          exact hwc n m a ha
      rw [List.map_append, fresh_append] at hd
      rw [← hd]
      have hk : keys ({ st with errors := e2, seenRoot := sr2, root := s2 } : St).names = [] := by simp [keys, hn]
      rw [hk] at c3 f3
      refine (c3.trans' (c4 : Counts e3 e4 _) (z := Fresh (((n.attrs.map (·.name)).map (·.lwr)).reverse ++ [])
        ((n.children.map (·.name)).map (·.lwr)) ∧ ∀ c ∈ n.children, ChildOk p c) ?_).congr ?_
      · intro x
        rw [show keys ({ st with errors := e3, seenRoot := sr2, root := s2, names := n3 } : St).names = _ from
          (f3 (c3.2.2 x)).2]
      · constructor
        · rintro ⟨⟨a, b⟩, c, d⟩; exact ⟨⟨a, c⟩, b, d⟩
        · rintro ⟨⟨a, c⟩, b, d⟩; exact ⟨⟨a, b⟩, c, d⟩
    have hst : ({ st with errors := e4, seenRoot := sr2, root := s2, names := [] } : St) =
        { st with errors := e4, seenRoot := sr2, root := s2 } := by rw [← hn]
    refine ⟨{ n with children := cs, attrs := as } :: l', e5, sr5, s5, ?_, ?_, ?_, fun h => ?_⟩
    · rw [hst] at h5
      simp only [CEXinode, h1, h2, h3, Res.bind_ok, h4, hst, h5]
    · refine (((c1.trans c2).trans c34).trans c5).congr ?_
      have hfl : flagged (·.isRoot) (n :: l) = n.isRoot.toNat + flagged (·.isRoot) l := by
        simp only [flagged, List.filter_cons]
        cases n.isRoot <;> simp; omega
      rw [hfl, hsr2]
      simp only [List.forall_mem_cons]
      constructor
      · rintro ⟨⟨⟨a, b⟩, c⟩, d, f, g⟩
        refine ⟨⟨a, d⟩, ?_, c, g⟩
        revert b f
        cases st.seenRoot <;> cases n.isRoot <;> simp <;> omega
      · rintro ⟨⟨a, d⟩, f, c, g⟩
        refine ⟨⟨⟨a, ?_⟩, c⟩, d, ?_, g⟩ <;> revert f <;> cases st.seenRoot <;> cases n.isRoot <;> simp <;> omega
    · rw [hs5, hsr2, hs2, firstOf]
      cases st.seenRoot <;> cases n.isRoot <;> simp
    · have := c1.1
      have : e1 ≤ e2 := c2.1
      have : e2 ≤ e3 := c3.1
      have : e3 ≤ e4 := c4.1
      have : e4 ≤ e5 := c5.1
      exact .cons ⟨rfl, rfl, (f3 (by show e3 = e2; omega)).1, f4 (by show e4 = e3; omega)⟩ (f5 (by show e5 = e4; omega))

theorem sets_spec (p : Prog) (tab : List (Ste Decl)) (l : List NodeSet) (st : St) (hn : st.names = [])
    (hwa : ∀ n ∈ l, ∀ a ∈ n.attrs, WfId a.name)
    (hpa : ∀ n ∈ l, ∀ a ∈ n.attrs, a.type = .linkOrEnum → a.ref.isSome)
    (hra : ∀ n ∈ l, ∀ a ∈ n.attrs, ∀ r ∈ a.ref, Right p tab r)
    (hx : ∀ t ∈ l, ∀ e ∈ t.expr, ∀ a ∈ exprIds e, Right p tab a) :
    ∃ l' e, CEXinodeset tab l st = .ok (l', { st with errors := e }) ∧
      Counts st.errors e ((∀ x ∈ l, Distinct (x.attrs.map (·.name)) ∧ ∀ a ∈ x.attrs, AttrOk p a) ∧
        ∀ x ∈ l, ∀ e ∈ x.expr, ExprOk p e) ∧
      (e = st.errors → AllPairs (fun n n' => n'.name = n.name ∧ n'.expr = n.expr ∧
        AllPairs (AttrFilled p) n.attrs n'.attrs) l l') := by
  induction l generalizing st with
  | nil => exact ⟨[], st.errors, rfl, Counts.same _ (by simp), fun _ => .nil⟩
  | cons n l ih =>
    have m := @List.mem_cons_self _ n l
    obtain ⟨as, e1, n1, h1, c1, f1⟩ := attrs_spec p tab n.attrs st (hpa n m) (hra n m)
    obtain ⟨e2, h2, c2⟩ := setexprOpt_spec p tab n.expr { st with errors := e1, names := n1 } (hx n m)
    obtain ⟨l', e3, h3, c3, f3⟩ := ih { st with errors := e2, names := [] } rfl
      (fun x hx => hwa x (List.mem_cons_of_mem _ hx)) (fun x hx => hpa x (List.mem_cons_of_mem _ hx))
      (fun x hx => hra x (List.mem_cons_of_mem _ hx)) (fun x hx' => hx x (List.mem_cons_of_mem _ hx'))
    have hst : ({ st with errors := e2, names := [] } : St) = { st with errors := e2 } := by rw [← hn]
    refine ⟨{ n with attrs := as } :: l', e3, ?_, ?_, fun h => ?_⟩
    · rw [hst] at h3
      simp only [CEXinodeset, h1, Res.bind_ok, h2, hst, h3]
    · have hd : Fresh [] ((n.attrs.map (·.name)).map (·.lwr)) ↔ Distinct (n.attrs.map (·.name)) := by
        apply distinct_iff
        intro i hi
        obtain ⟨a, ha, rfl⟩ := List.mem_map.1 hi
        exact hwa n m a ha
      have hk : keys st.names = [] := by simp [keys, hn]
      rw [hk, hd] at c1
      refine ((c1.trans c2).trans c3).congr ?_
      simp only [List.forall_mem_cons]
      constructor
      · rintro ⟨⟨⟨a, b⟩, c⟩, d, f⟩; exact ⟨⟨⟨a, b⟩, d⟩, c, f⟩
      · rintro ⟨⟨⟨a, b⟩, d⟩, c, f⟩; exact ⟨⟨⟨a, b⟩, c⟩, d, f⟩
    · have := c1.1
      have : e1 ≤ e2 := c2.1
      have : e2 ≤ e3 := c3.1
      exact .cons ⟨rfl, rfl, (f1 (by omega)).1⟩ (f3 (by show e3 = e2; omega))

theorem enums_spec (l : List Enum) (st : St) (hw : ∀ x ∈ l, WfId x.uid) :
    ∃ e ns, CEXienum l st = .ok { st with errors := e, prefixes := ns } ∧
      Counts st.errors e (Fresh (keys st.prefixes) ((l.map (·.uid)).map (·.lwr)) ∧
        ∀ x ∈ l, ¬ Reserved prefixWords x.uid) := by
  induction l generalizing st with
  | nil => exact ⟨st.errors, st.prefixes, rfl, Counts.same _ ⟨trivial, by simp⟩⟩
  | cons x l ih =>
    obtain ⟨e1, h1, c1⟩ := checkWords_spec x.uid.upr enumReserved st
    rw [enumReserved_eq, reserved_iff _ _ (hw x List.mem_cons_self)] at c1
    obtain ⟨e2, n2, h2, c2, k2⟩ := enumPrefix_spec x.uid { st with errors := e1 }
    obtain ⟨e3, n3, h3, c3⟩ := ih { st with errors := e2, prefixes := n2 } (fun y hy => hw y (List.mem_cons_of_mem _ hy))
    refine ⟨e3, n3, by simp only [CEXienum, h1, h2, Res.bind_ok, h3], ?_⟩
    refine ((c1.trans c2).trans' (c3 : Counts e2 e3 _)
      (z := Fresh (x.uid.lwr :: keys st.prefixes) ((l.map (·.uid)).map (·.lwr)) ∧
        ∀ x ∈ l, ¬ Reserved prefixWords x.uid) ?_).congr ?_
    · rintro ⟨_, y⟩
      rw [show keys ({ st with errors := e2, prefixes := n2 } : St).prefixes = _ from k2 (c2.2.2 y)]
    · simp only [List.map_cons, Fresh, List.forall_mem_cons]
      constructor
      · rintro ⟨⟨a1, a2⟩, a3, a4⟩; exact ⟨⟨a2, a3⟩, a1, a4⟩
      · rintro ⟨⟨a1, a3⟩, a2, a4⟩; exact ⟨⟨a2, a1⟩, a3, a4⟩

end Verif.Spec.CheckExist
