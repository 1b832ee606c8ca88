import Verif.Spec.CopyFree
import Verif.Lemmas.Trav

/-!
# Lemmas about the generated copy and free traversals
-/

namespace Verif.Spec.Trav
open Verif.Trav Verif.Str

/-! ## Outcomes -/

theorem OrOom.ok {α : Type} {y : α} {P : α → Prop} (h : P y) : OrOom (.ok y) P := Or.inr ⟨y, rfl, h⟩

theorem OrOom.bind {α β : Type} {x : Res α} {f : α → Res β} {P : α → Prop} {Q : β → Prop} (h : OrOom x P)
    (hf : ∀ y, P y → OrOom (f y) Q) : OrOom (x >>= f) Q := by
  rcases h with h | ⟨y, h, hy⟩
  · left; rw [h]; rfl
  · rw [h]; exact hf y hy

theorem OrOom.mono {α : Type} {x : Res α} {P Q : α → Prop} (h : OrOom x P) (hf : ∀ y, P y → Q y) : OrOom x Q := by
  rcases h with h | ⟨y, h, hy⟩
  · exact Or.inl h
  · exact Or.inr ⟨y, h, hf y hy⟩

theorem Res.bind_assoc {α β γ : Type} (x : Res α) (f : α → Res β) (g : β → Res γ) :
    ((x >>= f) >>= g) = (x >>= fun a => f a >>= g) := by
  cases x <;> rfl

theorem run_stmt (C : Op → St → Res (Ptr × St)) (f : Mem → Res Mem) (k : Prog) (s : St) :
    runProg C (stmt f k) s = (f s.mem >>= fun m => runProg C k { s with mem := m }) := by
  simp only [stmt, runProg]
  cases f s.mem <;> rfl

theorem run_expr (C : Op → St → Res (Ptr × St)) (f : Mem → Res (Ptr × Mem)) (k : Ptr → Prog) (s : St) :
    runProg C (expr f k) s = (f s.mem >>= fun r => runProg C (k r.1) { s with mem := r.2 }) := by
  simp only [expr, runProg]
  cases f s.mem <;> rfl

/-! ## New blocks -/

theorem New.refl (m : Mem) : New m m [] :=
  ⟨fun _ _ => rfl, (fun _ h => by cases h), (fun _ h => by cases h), List.nodup_nil, fun _ h => Or.inl h⟩

theorem New.trans {m m' m'' : Mem} {f g : List Addr} (h : New m m' f) (k : New m' m'' g) : New m m'' (f ++ g) := by
  refine ⟨fun b hb => ?_, fun b hb => ?_, fun b hb => ?_, ?_, fun b hb => ?_⟩
  · have := h.same b hb
    rw [k.same b (by rw [this]; exact hb), this]
  · rcases List.mem_append.mp hb with hb | hb
    · exact h.fresh b hb
    · cases e : m b with
      | none => rfl
      | some x =>
        have := h.same b (by simp [e])
        rw [k.fresh b hb, e] at this
        cases this
  · rcases List.mem_append.mp hb with hb | hb
    · have := h.live b hb
      rw [k.same b this]; exact this
    · exact k.live b hb
  · refine List.nodup_append.mpr ⟨h.nodup, k.nodup, fun a ha b hb e => ?_⟩
    subst e
    exact h.live a ha (k.fresh a hb)
  · rcases k.only b hb with hb | hb
    · rcases h.only b hb with hb | hb
      · exact Or.inl hb
      · exact Or.inr (List.mem_append_left _ hb)
    · exact Or.inr (List.mem_append_right _ hb)

theorem New.write {m m' : Mem} {f : List Addr} {a : Addr} {x : Blk} (h : New m m' f) (ha : a ∈ f) :
    New m (upd m' a (some x)) f := by
  refine ⟨fun b hb => ?_, h.fresh, fun b hb => ?_, h.nodup, fun b hb => ?_⟩
  · have hne : b ≠ a := fun e => hb (by rw [e]; exact h.fresh a ha)
    rw [upd_other _ _ hne]; exact h.same b hb
  · by_cases e : b = a
    · rw [e, upd_same]; simp
    · rw [upd_other _ _ e]; exact h.live b hb
  · by_cases e : b = a
    · exact Or.inr (e ▸ ha)
    · rw [upd_other _ _ e] at hb; exact h.only b hb

theorem New.one {m : Mem} {a : Addr} {x : Blk} (ha : m a = none) : New m (upd m a (some x)) [a] := by
  refine ⟨fun b hb => ?_, fun b hb => ?_, fun b hb => ?_, by simp, fun b hb => ?_⟩
  · exact upd_other _ _ fun e => hb (by rw [e]; exact ha)
  · simp at hb; subst hb; exact ha
  · simp at hb; subst hb; simp [upd_same]
  · by_cases e : b = a
    · exact Or.inr (by simp [e])
    · rw [upd_other _ _ e] at hb; exact Or.inl hb

theorem New.alloc {m m' : Mem} {f : List Addr} {a : Addr} {x : Blk} (h : New m m' f) (ha : m' a = none) :
    New m (upd m' a (some x)) (f ++ [a]) := h.trans (New.one ha)

/-! ## Trees depend on their blocks only -/

theorem StrAt.congr {m m' : Mem} {p : Ptr} {s : Option CStr} {fp : List Addr} (h : StrAt m p s fp)
    (e : ∀ b, b ∈ fp → m' b = m b) : StrAt m' p s fp := by
  cases p with
  | none => cases s <;> simp_all [StrAt]
  | some a =>
    cases s with
    | none => simp [StrAt] at h
    | some s =>
      obtain ⟨h1, h2⟩ := h
      exact ⟨by rw [e a (by simp [h2])]; exact h1, h2⟩

theorem AttrAt.congr {m m' : Mem} {A : AttrD} {f : Field} {v : AVal} {fp : List Addr} (h : AttrAt m A f v fp)
    (e : ∀ b, b ∈ fp → m' b = m b) : AttrAt m' A f v fp := by
  unfold AttrAt at h ⊢
  split at h
  · exact h
  · split at h
    · obtain ⟨p, s, h1, h2, h3⟩ := h
      exact ⟨p, s, h1, h2, h3.congr e⟩
    all_goals exact h

theorem AttrsAt.congr {m m' : Mem} : {As : List AttrD} → {fs : List Field} → {vs : List AVal} → {fp : List Addr} →
    AttrsAt m As fs vs fp → (∀ b, b ∈ fp → m' b = m b) → AttrsAt m' As fs vs fp
  | [], [], [], _, h, _ => h
  | A :: As, f :: fs, v :: vs, fp, ⟨f1, f2, h1, h2, h3⟩, e =>
    ⟨f1, f2, h1.congr fun b hb => e b (by simp [h3, hb]), h2.congr fun b hb => e b (by simp [h3, hb]), h3⟩
  | [], [], _ :: _, _, h, _ => h.elim
  | [], _ :: _, _, _, h, _ => h.elim
  | _ :: _, [], _, _, h, _ => h.elim
  | _ :: _, _ :: _, [], _, h, _ => h.elim

theorem Struct.congr {m m' : Mem} {b : NodeB} {ty : Nat} {D : NodeD} {ks : List Ptr} {fs : List Field} {fp : List Addr}
    (h : Struct m b ty D ks fs fp) (e : ∀ b, b ∈ fp → m' b = m b) : Struct m' b ty D ks fs fp := by
  rcases h with h | ⟨h0, d, h1, h2, h3, h4, h5⟩
  · exact Or.inl h
  · exact Or.inr ⟨h0, d, h1, by rw [e d (by simp [h5])]; exact h2, h3, h4, h5⟩

mutual
theorem TreeAt.congr {Ds : List NodeD} {m m' : Mem} : (t : Tree) → {a : Addr} → {fp : List Addr} →
    TreeAt Ds m t a fp → (∀ b, b ∈ fp → m' b = m b) → TreeAt Ds m' t a fp
  | .mk ty pos file kids attrs, a, fp, h, e => by
    simp only [TreeAt] at h ⊢
    obtain ⟨b, D, ks, fs, df, ff, kf, af, h1, h2, h3, h4, h5, h6, h7, h8, h9, h10⟩ := h
    subst h10
    exact ⟨b, D, ks, fs, df, ff, kf, af, h1, by rw [e a (by simp)]; exact h2, h3, h4, h5,
      h6.congr fun b hb => e b (by simp [hb]), h7.congr fun b hb => e b (by simp [hb]),
      KidsAt.congr kids h8 fun b hb => e b (by simp [hb]), h9.congr fun b hb => e b (by simp [hb]), rfl⟩
theorem KidsAt.congr {Ds : List NodeD} {m m' : Mem} : (K : Kids) → {ks : List Ptr} → {fp : List Addr} →
    KidsAt Ds m K ks fp → (∀ b, b ∈ fp → m' b = m b) → KidsAt Ds m' K ks fp
  | .nil, ks, fp, h, e => by simp only [KidsAt] at h ⊢; exact h
  | .none rest, ks, fp, h, e => by
    simp only [KidsAt] at h ⊢
    obtain ⟨ks', h1, h2⟩ := h
    exact ⟨ks', h1, KidsAt.congr rest h2 e⟩
  | .some t rest, ks, fp, h, e => by
    simp only [KidsAt] at h ⊢
    obtain ⟨c, ks', f1, f2, h1, h2, h3, h4⟩ := h
    subst h4
    exact ⟨c, ks', f1, f2, h1, TreeAt.congr t h2 fun b hb => e b (by simp [hb]),
      KidsAt.congr rest h3 fun b hb => e b (by simp [hb]), rfl⟩
end

theorem StrAt.live {m : Mem} {p : Ptr} {s : Option CStr} {fp : List Addr} (h : StrAt m p s fp) :
    ∀ b, b ∈ fp → m b ≠ none := by
  cases p with
  | none => cases s <;> simp_all [StrAt]
  | some a =>
    cases s with
    | none => simp [StrAt] at h
    | some s =>
      obtain ⟨h1, h2⟩ := h
      intro b hb
      simp [h2] at hb
      subst hb
      simp [h1]

theorem AttrAt.live {m : Mem} {A : AttrD} {f : Field} {v : AVal} {fp : List Addr} (h : AttrAt m A f v fp) :
    ∀ b, b ∈ fp → m b ≠ none := by
  unfold AttrAt at h
  split at h
  · simp [h.2.2]
  · split at h
    · obtain ⟨p, s, h1, h2, h3⟩ := h
      exact h3.live
    all_goals
      obtain ⟨_, _, _, h⟩ := h
      simp [h]

theorem AttrsAt.live {m : Mem} : {As : List AttrD} → {fs : List Field} → {vs : List AVal} → {fp : List Addr} →
    AttrsAt m As fs vs fp → ∀ b, b ∈ fp → m b ≠ none
  | [], [], [], _, h => by simp only [AttrsAt] at h; simp [h]
  | A :: As, f :: fs, v :: vs, fp, ⟨f1, f2, h1, h2, h3⟩ => by
    subst h3
    intro b hb
    rcases List.mem_append.mp hb with hb | hb
    · exact h1.live b hb
    · exact h2.live b hb
  | [], [], _ :: _, _, h => h.elim
  | [], _ :: _, _, _, h => h.elim
  | _ :: _, [], _, _, h => h.elim
  | _ :: _, _ :: _, [], _, h => h.elim

theorem Struct.live {m : Mem} {b : NodeB} {ty : Nat} {D : NodeD} {ks : List Ptr} {fs : List Field} {fp : List Addr}
    (h : Struct m b ty D ks fs fp) : ∀ b, b ∈ fp → m b ≠ none := by
  rcases h with h | ⟨h0, d, h1, h2, h3, h4, h5⟩
  · simp [h.2.2.2.2.2]
  · simp [h5, h2]

mutual
theorem TreeAt.live {Ds : List NodeD} {m : Mem} : (t : Tree) → {a : Addr} → {fp : List Addr} →
    TreeAt Ds m t a fp → ∀ b, b ∈ fp → m b ≠ none
  | .mk ty pos file kids attrs, a, fp, h => by
    simp only [TreeAt] at h
    obtain ⟨b, D, ks, fs, df, ff, kf, af, h1, h2, h3, h4, h5, h6, h7, h8, h9, h10⟩ := h
    subst h10
    intro x hx
    simp only [List.mem_cons, List.mem_append] at hx
    rcases hx with rfl | hx | hx | hx | hx
    · simp [h2]
    · exact h7.live x hx
    · exact h6.live x hx
    · exact KidsAt.live kids h8 x hx
    · exact h9.live x hx
theorem KidsAt.live {Ds : List NodeD} {m : Mem} : (K : Kids) → {ks : List Ptr} → {fp : List Addr} →
    KidsAt Ds m K ks fp → ∀ b, b ∈ fp → m b ≠ none
  | .nil, ks, fp, h => by simp only [KidsAt] at h; simp [h.2]
  | .none rest, ks, fp, h => by
    simp only [KidsAt] at h
    obtain ⟨ks', h1, h2⟩ := h
    exact KidsAt.live rest h2
  | .some t rest, ks, fp, h => by
    simp only [KidsAt] at h
    obtain ⟨c, ks', f1, f2, h1, h2, h3, h4⟩ := h
    subst h4
    intro x hx
    rcases List.mem_append.mp hx with hx | hx
    · exact TreeAt.live t h2 x hx
    · exact KidsAt.live rest h3 x hx
end

theorem TreeAt.grow {Ds : List NodeD} {m m' : Mem} {t : Tree} {a : Addr} {fp f : List Addr} (h : TreeAt Ds m t a fp)
    (k : New m m' f) : TreeAt Ds m' t a fp := h.congr t fun b hb => k.same b (h.live t b hb)

theorem KidsAt.grow {Ds : List NodeD} {m m' : Mem} {K : Kids} {ks : List Ptr} {fp f : List Addr} (h : KidsAt Ds m K ks fp)
    (k : New m m' f) : KidsAt Ds m' K ks fp := h.congr K fun b hb => k.same b (h.live K b hb)

/-! ## Copying -/

/-- The current traversal is of the kind `tr`. -/
def At (tr : Nat) (s : St) : Prop := ∃ f fr, s.cur = some f ∧ s.frames f = some fr ∧ fr.ty = tr

/-- The stack of traversals is the same. -/
def Same (s s' : St) : Prop := s'.cur = s.cur ∧ s'.frames = s.frames ∧ s'.dmem = s.dmem

theorem Same.trans {s s' s'' : St} (h : Same s s') (k : Same s' s'') : Same s s'' :=
  ⟨k.1.trans h.1, k.2.1.trans h.2.1, k.2.2.trans h.2.2⟩

theorem At.same {tr : Nat} {s s' : St} (h : At tr s) (k : Same s s') : At tr s' := by
  obtain ⟨f, fr, h1, h2, h3⟩ := h
  exact ⟨f, fr, k.1.trans h1, by rw [k.2.1]; exact h2, h3⟩

/-- The node at `a` has type `ty` and the struct at `d` with these members. -/
def Holds (m : Mem) (a : Addr) (ty : Nat) (d : Addr) (ks : List Ptr) (fs : List Field) : Prop :=
  ∃ b, m a = some (.node b) ∧ b.ty = ty ∧ b.data = some d ∧ m d = some (.data ⟨ty, ks, fs⟩)

theorem Holds.ne {m : Mem} {a d : Addr} {ty : Nat} {ks : List Ptr} {fs : List Field} (h : Holds m a ty d ks fs) : a ≠ d := by
  obtain ⟨b, h1, _, _, h4⟩ := h
  intro e
  rw [e, h4] at h1
  cases h1

theorem Holds.live {m : Mem} {a d : Addr} {ty : Nat} {ks : List Ptr} {fs : List Field} (h : Holds m a ty d ks fs) :
    m a ≠ none ∧ m d ≠ none := by
  obtain ⟨b, h1, _, _, h4⟩ := h
  exact ⟨by simp [h1], by simp [h4]⟩

theorem Holds.congr {m m' : Mem} {a d : Addr} {ty : Nat} {ks : List Ptr} {fs : List Field} (h : Holds m a ty d ks fs)
    (ha : m' a = m a) (hd : m' d = m d) : Holds m' a ty d ks fs := by
  obtain ⟨b, h1, h2, h3, h4⟩ := h
  exact ⟨b, ha.trans h1, h2, h3, hd.trans h4⟩

theorem Holds.grow {m m' : Mem} {a d : Addr} {ty : Nat} {ks : List Ptr} {fs : List Field} {F : List Addr}
    (h : Holds m a ty d ks fs) (k : New m m' F) : Holds m' a ty d ks fs :=
  h.congr (k.same _ h.live.1) (k.same _ h.live.2)

theorem Holds.set {m : Mem} {a d : Addr} {ty : Nat} {ks ks' : List Ptr} {fs fs' : List Field} (h : Holds m a ty d ks fs) :
    Holds (upd m d (some (.data ⟨ty, ks', fs'⟩))) a ty d ks' fs' := by
  have := h.ne
  obtain ⟨b, h1, h2, h3, h4⟩ := h
  exact ⟨b, by rw [upd_other _ _ this]; exact h1, h2, h3, upd_same _ _ _⟩

theorem Holds.access {m : Mem} {a d : Addr} {ty : Nat} {ks : List Ptr} {fs : List Field} (h : Holds m a ty d ks fs) :
    accessData m ty (some a) = .ok (d, ⟨ty, ks, fs⟩) := by
  obtain ⟨b, h1, h2, h3, h4⟩ := h
  simp [accessData, nodeAt, h1, h2, h3, dataAt, h4]

theorem Holds.readKid {m : Mem} {a d : Addr} {ty : Nat} {ks : List Ptr} {fs : List Field} (h : Holds m a ty d ks fs)
    {i : Nat} {c : Ptr} (hi : ks[i]? = some c) : Verif.Trav.readKid ty (some a) i m = .ok c := by
  simp [Verif.Trav.readKid, h.access, hi]

theorem Holds.writeKid {m : Mem} {a d : Addr} {ty : Nat} {ks : List Ptr} {fs : List Field} (h : Holds m a ty d ks fs)
    {i : Nat} (c : Ptr) (hi : i < ks.length) :
    Verif.Trav.writeKid ty (some a) i c m = .ok (upd m d (some (.data ⟨ty, ks.set i c, fs⟩))) := by
  simp [Verif.Trav.writeKid, h.access, hi]

theorem Holds.readAttr {m : Mem} {a d : Addr} {ty : Nat} {ks : List Ptr} {fs : List Field} (h : Holds m a ty d ks fs)
    {i : Nat} {v : Val} (hi : fs[i]? = some (.plain v)) (hv : v ≠ .undef) :
    Verif.Trav.readAttr ty (some a) i m = .ok v := by
  simp [Verif.Trav.readAttr, h.access, hi, hv]

theorem Holds.writeAttr {m : Mem} {a d : Addr} {ty : Nat} {ks : List Ptr} {fs : List Field} (h : Holds m a ty d ks fs)
    {i : Nat} {w : Val} (v : Val) (hi : fs[i]? = some (.plain w)) :
    Verif.Trav.writeAttr ty (some a) i v m = .ok (upd m d (some (.data ⟨ty, ks, fs.set i (.plain v)⟩))) := by
  simp [Verif.Trav.writeAttr, h.access, hi]

theorem copyRow_get (new : Mem → Option Addr) : ∀ (Ds : List NodeD) (j t : Nat),
    (copyRow new j Ds)[t]? = Ds[t]?.map (DGCTinode new (j + t))
  | [], _, _ => by simp [copyRow]
  | D :: Ds, j, 0 => by simp [copyRow]
  | D :: Ds, j, t + 1 => by
    simp only [copyRow, List.getElem?_cons_succ, copyRow_get new Ds (j + 1) t]
    rw [show j + 1 + t = j + (t + 1) by omega]

theorem copy_handler {new : Mem → Option Addr} {Ds : List NodeD} {ty : Nat} {D : NodeD} (h : declOf Ds ty = some D) :
    (ccn_copy_vtable new Ds)[ty]? = some (DGCTinode new ty D) := by
  cases ty with
  | zero => cases h
  | succ t =>
    simp only [declOf] at h
    simp [ccn_copy_vtable, copyRow_get, h, Nat.add_comm]

theorem MEMmalloc_spec {new : Mem → Option Addr} (hnew : ∀ m a, new m = some a → m a = none) (b : Blk) (m : Mem) :
    OrOom (Verif.Trav.MEMmalloc new b m) fun r => m r.1 = none ∧ r.2 = upd m r.1 (some b) := by
  unfold Verif.Trav.MEMmalloc
  cases h : new m with
  | none => exact Or.inl rfl
  | some a => exact OrOom.ok ⟨hnew m a h, rfl⟩

theorem STRcpyM_spec {new : Mem → Option Addr} (hnew : ∀ m a, new m = some a → m a = none) {m : Mem} {p : Ptr}
    {s : Option CStr} {ff : List Addr} (h : StrAt m p s ff) :
    OrOom (STRcpyM new p m) fun r => ∃ ff', New m r.2 ff' ∧ StrAt r.2 r.1 s ff' := by
  cases p with
  | none =>
    cases s with
    | some s => simp [StrAt] at h
    | none => exact OrOom.ok ⟨[], New.refl m, rfl⟩
  | some a =>
    cases s with
    | none => simp [StrAt] at h
    | some s =>
      obtain ⟨h1, _⟩ := h
      simp only [STRcpyM, h1]
      refine (MEMmalloc_spec hnew (.str s) m).bind fun r hr => ?_
      obtain ⟨r1, r2⟩ := hr
      refine OrOom.ok ⟨[r.1], ?_, ?_⟩
      · simp only [r2]; exact New.one r1
      · simp [StrAt, r2, upd_same]

/-- The members of the struct have the right form, their values do not matter. -/
def Shape : List AttrD → List Field → Prop
  | [], [] => True
  | A :: As, f :: fs => (match A.inh || A.syn with
      | true => ∃ x y, f = .nested x y
      | false => ∃ v, f = .plain v) ∧ Shape As fs
  | _, _ => False

theorem shape_DGNC : ∀ (As : List AttrD) (vs : List Val), Shape As (DGNCattribute As vs)
  | [], _ => trivial
  | A :: As, vs => by
    simp only [DGNCattribute]
    split
    · refine ⟨?_, shape_DGNC As _⟩
      cases A.inh || A.syn <;> simp
    · refine ⟨?_, shape_DGNC As _⟩
      cases A.inh || A.syn <;> simp

theorem length_DGNC : ∀ (ks : List Bool) (xs : List Ptr), (DGNCchild ks xs).length = ks.length
  | [], _ => rfl
  | true :: ks, x :: xs => by simp [DGNCchild, length_DGNC ks xs]
  | true :: ks, [] => by simp [DGNCchild, length_DGNC ks []]
  | false :: ks, xs => by simp [DGNCchild, length_DGNC ks xs]

theorem ASTx_spec {new : Mem → Option Addr} (hnew : ∀ m a, new m = some a → m a = none) (ty : Nat) (D : NodeD)
    (kargs : List Ptr) (aargs : List Val) (m : Mem) :
    OrOom (ASTx new ty D kargs aargs m) fun r => ∃ q df b ks fs, r.1 = some q ∧ New m r.2 (q :: df) ∧
      r.2 q = some (.node b) ∧ b.ty = ty ∧ b.numChildren = D.kids.length ∧ Struct r.2 b ty D ks fs df ∧
      Shape D.attrs fs := by
  unfold ASTx
  refine (MEMmalloc_spec hnew _ m).bind fun n hn => ?_
  obtain ⟨n1, n2⟩ := hn
  split
  · rename_i he
    simp only [Bool.and_eq_true, List.isEmpty_iff] at he
    simp only [setNode, nodeAt, n2, upd_same, Res.bind_ok]
    refine OrOom.ok ⟨n.1, [], _, [], [], rfl, ?_, upd_same _ _ _, rfl, by simp [he.1], Or.inl ⟨he.1, he.2, rfl, rfl, rfl, rfl⟩, ?_⟩
    · exact (New.one n1).write (by simp)
    · rw [he.2]; trivial
  · rename_i he
    have hne : D.kids ≠ [] ∨ D.attrs ≠ [] := by
      by_cases h1 : D.kids = []
      · by_cases h2 : D.attrs = []
        · simp [h1, h2] at he
        · exact Or.inr h2
      · exact Or.inl h1
    refine (MEMmalloc_spec hnew _ n.2).bind fun d hd => ?_
    obtain ⟨d1, d2⟩ := hd
    have hnd : n.1 ≠ d.1 := by
      intro e
      rw [← e, n2, upd_same] at d1
      cases d1
    have hnode : d.2 n.1 = upd m n.1 (some (.node ⟨0, none, none, none, 0, 0, 0, 0, 0⟩)) n.1 := by
      rw [d2, upd_other _ _ hnd, n2]
    rw [upd_same] at hnode
    simp only [setNode, nodeAt, hnode, Res.bind_ok]
    refine OrOom.ok ⟨n.1, [d.1], _, DGNCchild D.kids kargs, DGNCattribute D.attrs aargs, rfl, ?_, upd_same _ _ _, rfl, rfl,
      Or.inr ⟨hne, d.1, rfl, ?_, length_DGNC D.kids kargs, ?_, rfl⟩, shape_DGNC _ _⟩
    · have h1 : New m d.2 ([n.1] ++ [d.1]) := by
        have := New.one (x := .node ⟨0, none, none, none, 0, 0, 0, 0, 0⟩) n1
        rw [← n2] at this
        rw [d2]
        exact this.alloc d1
      exact h1.write (by simp)
    · show upd _ _ _ d.1 = _
      rw [upd_other _ _ (Ne.symm hnd), d2, upd_same]
    · intro hk
      have : D.kids.isEmpty = false := by simpa using hk
      simp [this]

theorem CopyBaseNode_spec {new : Mem → Option Addr} (hnew : ∀ m a, new m = some a → m a = none) {m₀ m : Mem}
    {q a : Addr} {df ff : List Addr} {b src : NodeB} {file : Option CStr} (hN : New m₀ m (q :: df))
    (hq : m q = some (.node b)) (ha : m₀ a = some (.node src)) (hs : StrAt m₀ src.filename file ff) :
    OrOom (CopyBaseNode new (some q) (some a) m) fun m' => ∃ ff' b', m' q = some (.node b') ∧ b'.ty = b.ty ∧
      b'.data = b.data ∧ b'.children = b.children ∧ b'.numChildren = b.numChildren ∧
      (b'.bline, b'.eline, b'.bcol, b'.ecol) = (src.bline, src.eline, src.bcol, src.ecol) ∧
      StrAt m' b'.filename file ff' ∧ New m₀ m' (q :: df ++ ff') ∧ ∀ x, x ∈ df → m' x = m x := by
  have hma : m a = some (.node src) := by rw [hN.same a (by simp [ha]), ha]
  have hqa : a ≠ q := by
    intro e
    have := hN.fresh q (by simp)
    rw [← e, ha] at this
    cases this
  have hqdf : ∀ x, x ∈ df → x ≠ q := by
    intro x hx e
    have := hN.nodup
    rw [← e] at this
    exact (List.nodup_cons.mp this).1 hx
  unfold CopyBaseNode
  simp only [nodeAt, hma, setNode, hq, Res.bind_ok]
  rw [upd_other _ _ hqa, hma]
  simp only [Res.bind_ok]
  have hN1 := hN.write (x := .node { b with bcol := src.bcol, ecol := src.ecol, bline := src.bline, eline := src.eline })
    (a := q) (by simp)
  have hs1 : StrAt (upd m q (some (.node { b with bcol := src.bcol, ecol := src.ecol, bline := src.bline, eline := src.eline })))
      src.filename file ff := hs.congr fun x hx => hN1.same x (hs.live x hx)
  refine (STRcpyM_spec hnew hs1).bind fun f hf => ?_
  obtain ⟨ff', hN2, hs2⟩ := hf
  have hq2 : f.2 q = some (.node { b with bcol := src.bcol, ecol := src.ecol, bline := src.bline, eline := src.eline }) := by
    rw [hN2.same q (by simp [upd_same]), upd_same]
  rw [hq2]
  simp only [Res.bind_ok]
  refine OrOom.ok ⟨ff', _, upd_same _ _ _, rfl, rfl, rfl, rfl, rfl, ?_, ?_, fun x hx => ?_⟩
  · refine hs2.congr fun x hx => upd_other _ _ fun e => ?_
    have := hN2.fresh x hx
    rw [e, upd_same] at this
    cases this
  · exact (hN1.trans hN2).write (by simp)
  · have h1 := hqdf x hx
    rw [upd_other _ _ h1]
    have h2 := hN1.live x (by simp [hx])
    rw [hN2.same x h2, upd_other _ _ h1]

theorem getElem?_at {α : Type} (xs ys : List α) (y : α) {i : Nat} (h : i = xs.length) : (xs ++ y :: ys)[i]? = some y := by
  subst h; simp

theorem set_at {α : Type} (xs ys : List α) (y z : α) {i : Nat} (h : i = xs.length) :
    (xs ++ y :: ys).set i z = xs ++ z :: ys := by
  subst h; simp

theorem copy_attrs {new : Mem → Option Addr} (hnew : ∀ m a, new m = some a → m a = none)
    {C : Op → St → Res (Ptr × St)} {ty : Nat} {a q da e : Addr} {aks ks : List Ptr} {m₀ : Mem} {cont : Prog}
    {P : Ptr × St → Prop} : ∀ (As : List AttrD) {fs₀ afs done rest : List Field} {vs : List AVal} {af F : List Addr} {s : St},
    New m₀ s.mem F → q ∈ F → e ∈ F → Holds m₀ a ty da aks (fs₀ ++ afs) → AttrsAt m₀ As afs vs af →
    Holds s.mem q ty e ks (done ++ rest) → done.length = fs₀.length → Shape As rest →
    (∀ s' done' F', Same s s' → New m₀ s'.mem (F ++ F') → Holds s'.mem q ty e ks (done ++ done') →
      AttrsAt s'.mem As done' vs F' → (∀ b, b ∈ F → b ≠ e → s'.mem b = s.mem b) → OrOom (runProg C cont s') P) →
    OrOom (runProg C (DGCTattribute new ty (some a) (some q) As fs₀.length cont) s) P := by
  intro As
  induction As with
  | nil =>
    intro fs₀ afs done rest vs af F s hN hq he ha hA hh hl hS k
    cases afs with
    | cons _ _ => simp [AttrsAt] at hA
    | nil =>
      cases vs with
      | cons _ _ => simp [AttrsAt] at hA
      | nil =>
        cases rest with
        | cons _ _ => simp [Shape] at hS
        | nil =>
          simp only [DGCTattribute]
          exact k s [] [] ⟨rfl, rfl, rfl⟩ (by simpa using hN) hh rfl fun _ _ _ => rfl
  | cons A As ih =>
    intro fs₀ afs done rest vs af F s hN hq he ha hA hh hl hS k
    match afs, vs, rest, hA, hS with
    | f :: afs, v :: vs, x :: rest, hA, hS =>
    obtain ⟨f1, f2, hA1, hA2, rfl⟩ := hA
    obtain ⟨hS1, hS2⟩ := hS
    have hstep : ∀ (s1 : St) (g : Field) (F1 : List Addr), Same s s1 → New m₀ s1.mem (F ++ F1) →
        Holds s1.mem q ty e ks (done ++ g :: rest) → AttrAt s1.mem A g v F1 →
        (∀ b, b ∈ F → b ≠ e → s1.mem b = s.mem b) →
        OrOom (runProg C (DGCTattribute new ty (some a) (some q) As (fs₀.length + 1) cont) s1) P := by
      intro s1 g F1 h1 h2 h3 h4 h5
      have := ih (fs₀ := fs₀ ++ [f]) (afs := afs) (done := done ++ [g]) (rest := rest) (vs := vs) (s := s1)
        h2 (by simp [hq]) (by simp [he]) (by simpa using ha) hA2 (by simpa using h3) (by simp [hl]) hS2
      rw [List.length_append, List.length_singleton] at this
      refine this fun s2 done2 F2 g1 g2 g3 g4 g5 => ?_
      refine k s2 (g :: done2) (F1 ++ F2) (h1.trans g1) (by simpa using g2) (by simpa using g3) ⟨F1, F2, ?_, g4, rfl⟩ ?_
      · have hne : e ∉ F1 := fun h => (List.nodup_append.mp h2.nodup).2.2 e he e h rfl
        exact h4.congr fun b hb => g5 b (by simp [hb]) fun h => hne (h ▸ hb)
      · intro b hb hbe
        rw [g5 b (by simp [hb]) hbe, h5 b hb hbe]
    have hha := ha.grow hN
    simp only [DGCTattribute]
    cases hI : A.inh || A.syn with
    | true =>
      simp only [AttrAt, hI] at hA1
      obtain ⟨_, rfl, _⟩ := hA1
      rw [hI] at hS1
      refine hstep s x [] ⟨rfl, rfl, rfl⟩ (by simpa using hN) hh ?_ fun _ _ _ => rfl
      simp only [AttrAt, hI]
      refine ⟨hS1, ?_, ?_⟩ <;> trivial
    | false =>
      simp only [AttrAt, hI] at hA1
      rw [hI] at hS1
      obtain ⟨w, rfl⟩ := hS1
      have hval : ∀ (u : Val), u ≠ .undef → f = .plain u → (∀ m, AttrAt m A (.plain u) v []) →
          OrOom (runProg C (stmt (copyVal ty (some a) (some q) fs₀.length)
            (DGCTattribute new ty (some a) (some q) As (fs₀.length + 1) cont)) s) P := by
        intro u hu hf hm
        subst hf
        rw [run_stmt]
        simp only [copyVal]
        rw [hha.readAttr (getElem?_at _ _ _ rfl) hu]
        simp only [Res.bind_ok]
        rw [hh.writeAttr u (getElem?_at _ _ _ hl.symm), set_at _ _ _ _ hl.symm]
        simp only [Res.bind_ok]
        refine hstep { s with mem := _ } (.plain u) [] ⟨rfl, rfl, rfl⟩ (by simpa using hN.write he) hh.set (hm _) ?_
        intro b hb hbe
        exact upd_other _ _ hbe
      cases hT : A.ty with
      | string =>
        simp only [hT] at hA1
        obtain ⟨p, str, rfl, rfl, hstr⟩ := hA1
        simp only []
        rw [run_stmt]
        simp only [copyStr]
        rw [hha.readAttr (getElem?_at _ _ _ rfl) (by simp)]
        simp only [Res.bind_ok, Val.toPtr]
        have hstr1 : StrAt s.mem p str f1 := hstr.congr fun b hb => hN.same b (hstr.live b hb)
        rw [Res.bind_assoc]
        refine (STRcpyM_spec hnew hstr1).bind fun r hr => ?_
        obtain ⟨ff, hN1, hs1⟩ := hr
        have hh1 := hh.grow hN1
        rw [hh1.writeAttr _ (getElem?_at _ _ _ hl.symm), set_at _ _ _ _ hl.symm]
        simp only [Res.bind_ok]
        have hne : e ∉ ff := by
          intro h
          exact hh.live.2 (hN1.fresh e h)
        refine hstep { s with mem := _ } (.plain (.ptr r.1)) ff ⟨rfl, rfl, rfl⟩ ((hN.trans hN1).write (by simp [he])) hh1.set ?_ ?_
        · simp only [AttrAt, hI, hT]
          exact ⟨r.1, str, rfl, rfl, hs1.congr fun b hb => upd_other _ _ fun h => hne (h ▸ hb)⟩
        · intro b hb hbe
          simp only []
          rw [upd_other _ _ hbe]
          exact hN1.same b (hN.live b hb)
      | link =>
        simp only [hT] at hA1
        obtain ⟨p, rfl, rfl, rfl⟩ := hA1
        exact hval (.ptr p) (by simp) rfl fun m => by simp [AttrAt, hI, hT]
      | plain =>
        simp only [hT] at hA1
        obtain ⟨p, rfl, rfl, rfl⟩ := hA1
        exact hval (.word p) (by simp) rfl fun m => by simp [AttrAt, hI, hT]
      | user =>
        simp only [hT] at hA1
        obtain ⟨p, rfl, rfl, rfl⟩ := hA1
        exact hval (.word p) (by simp) rfl fun m => by simp [AttrAt, hI, hT]

/-- Starting a traversal without data. -/
theorem start_nop {E : Env} {tr : Nat} {R : Prog → St → Res (Ptr × St)} (hinit : E.initTable[tr]? = some .nop)
    (hfini : E.freeTable[tr]? = some .nop) (hframe : ∀ s a, E.newFrame s = some a → s.frames a = none) {a : Addr} {s : St}
    {P : Ptr → Mem → Prop}
    (h : ∀ s1 : St, s1.mem = s.mem → At tr s1 → OrOom (TRAVdo E R (some a) s1) fun r => Same s1 r.2 ∧ P r.1 r.2.mem) :
    OrOom (TRAVstart E R (some a) tr s) fun r => Same s r.2 ∧ P r.1 r.2.mem := by
  simp only [TRAVstart, TRAVpush]
  cases hf : E.newFrame s with
  | none => exact Or.inl rfl
  | some f =>
    simp only [hinit, TRAVdataInit, Res.bind_ok, TRAVopt]
    refine (h { s with frames := upd s.frames f (some ⟨s.cur, tr, none⟩), cur := some f, trace := s.trace ++ [.init f tr] } rfl
      ⟨f, ⟨s.cur, tr, none⟩, rfl, upd_same _ _ _, rfl⟩).bind fun r hr => ?_
    obtain ⟨⟨h1, h2, h3⟩, hP⟩ := hr
    simp only [] at h1 h2 h3
    simp only [TRAVpop, h1, h2, upd_same, hfini, TRAVdataFree, Res.bind_ok]
    refine OrOom.ok ⟨⟨rfl, ?_, h3⟩, hP⟩
    simp only [upd_upd]
    exact upd_none _ _ (hframe s f hf)

/-- Starting a traversal without data, without a tree. -/
theorem start_null {E : Env} {tr n : Nat} (hinit : E.initTable[tr]? = some .nop)
    (hfini : E.freeTable[tr]? = some .nop) (hframe : ∀ s a, E.newFrame s = some a → s.frames a = none) (s : St) :
    OrOom (call E (n + 1) (.travStart none tr) s) fun r => Same s r.2 ∧ r.1 = none ∧ r.2.mem = s.mem := by
  simp only [call, TRAVstart, TRAVpush]
  cases hf : E.newFrame s with
  | none => exact Or.inl rfl
  | some f =>
    simp only [hinit, TRAVdataInit, Res.bind_ok, TRAVopt, TRAVpop, upd_same, hfini, TRAVdataFree]
    refine OrOom.ok ⟨⟨rfl, ?_, rfl⟩, rfl, rfl⟩
    simp only [upd_upd]
    exact upd_none _ _ (hframe s f hf)

mutual
theorem copy_node {E : Env} {new : Mem → Option Addr} {Ds : List NodeD} {cpy : Nat} (hE : CopyEnv E new Ds cpy) :
    (t : Tree) → ∀ {k : Nat} {a : Addr} {fp : List Addr} {s : St}, need t ≤ k → At cpy s → TreeAt Ds s.mem t a fp →
    OrOom (TRAVdo E (runProg (call E k)) (some a) s) fun r => ∃ q fp', r.1 = some q ∧ TreeAt Ds r.2.mem t q fp' ∧
      New s.mem r.2.mem fp' ∧ Same s r.2
  | .mk ty pos file kids attrs, k, a, fp, s, hk, hat, ht => by
    simp only [TreeAt] at ht
    obtain ⟨b, D, ks, fs, df, ff, kf, af, hD, ha, rfl, rfl, hnum, hfile, hstruct, hkids, hattrs, rfl⟩ := ht
    obtain ⟨f, fr, hcur, hfr, hty⟩ := hat
    simp only [need] at hk
    have h0 : TRAVdo E (runProg (call E k)) (some a) s =
        runProg (call E k) (DGCTinode new b.ty D a) { s with trace := s.trace ++ [.visit f a] } := by
      simp [TRAVdo, hcur, hfr, hty, hE.table, nodeAt, ha, copy_handler hD]
    rw [h0, DGCTinode, run_expr]
    refine (ASTx_spec hE.new b.ty D _ _ s.mem).bind fun r hr => ?_
    obtain ⟨q, dq, bq, kq, fq, hr1, hN, hq, hqt, hqn, hqs, hsh⟩ := hr
    rw [hr1, run_stmt]
    refine (CopyBaseNode_spec hE.new hN hq ha hfile).bind fun m hm => ?_
    obtain ⟨fq', b', hq', e1, e2, e3, e4, e5, hf', hN', hsame⟩ := hm
    simp only []
    have hqs' : Struct m b' b.ty D kq fq dq := by
      rcases hqs with ⟨h1, h2, h3, h4⟩ | ⟨h0, d, h1, h2, h3, h4, h5⟩
      · exact Or.inl ⟨h1, h2, e2.trans h3, h4⟩
      · exact Or.inr ⟨h0, d, e2.trans h1, by rw [hsame d (by simp [h5])]; exact h2, h3, fun h => e3.trans (h4 h), h5⟩
    rcases hstruct with ⟨d1, d2, d3, rfl, rfl, rfl⟩ | ⟨d0, da, d1, d2, d3, d4, rfl⟩
    · rcases hqs' with ⟨g1, g2, g3, rfl, rfl, rfl⟩ | ⟨g0, _⟩
      · rw [d1, d2]
        simp only [List.length_nil, DGCTchild, DGCTattribute, runProg]
        refine OrOom.ok ⟨q, q :: fq', rfl, ?_, by simpa using hN', rfl, rfl, rfl⟩
        simp only [TreeAt]
        cases kids with
        | nil =>
          refine ⟨b', D, [], [], [], fq', [], [], hD, hq', e1.trans hqt, ?_, e4.trans hqn, hf', Or.inl ⟨g1, g2, g3, rfl, rfl, rfl⟩, ?_, ?_, by simp⟩
          · rw [e5]
          · simp [KidsAt]
          · rw [d2] at hattrs ⊢
            cases attrs with
            | nil => rfl
            | cons _ _ => simp [AttrsAt] at hattrs
        | none r => simp [KidsAt] at hkids
        | some t r => simp [KidsAt] at hkids
      · rcases g0 with g | g
        · exact absurd d1 g
        · exact absurd d2 g
    · rcases hqs' with ⟨g1, g2, _⟩ | ⟨g0, e, g1, g2, g3, g4, rfl⟩
      · rcases d0 with d | d
        · exact absurd g1 d
        · exact absurd g2 d
      · have hb' : b'.ty = b.ty := e1.trans hqt
        have hHa : Holds s.mem a b.ty da ([] ++ ks) fs := ⟨b, ha, rfl, d1, d2⟩
        have hHq : Holds m q b.ty e ([] ++ kq) fq := ⟨b', hq', hb', g1, g2⟩
        have hNk := copy_kids hE kids (k := k) (ty := b.ty) (a := a) (q := q) (da := da) (e := e) (ks₀ := []) (ks := ks)
          (afs := fs) (done := []) (rest := kq) (fs := fq) (F := q :: [e] ++ fq') (kf := kf)
          (s := { s with mem := m, trace := s.trace ++ [.visit f a] }) (m₀ := s.mem)
          (cont := DGCTattribute new b.ty (some a) (some q) D.attrs 0 (.ret (some q)))
          (P := fun r => ∃ q fp', r.1 = some q ∧ TreeAt Ds r.2.mem (.mk b.ty (b.bline, b.eline, b.bcol, b.ecol) file kids attrs) q fp' ∧
            New s.mem r.2.mem fp' ∧ Same s r.2)
          (by omega) ⟨f, fr, hcur, hfr, hty⟩ hN' (by simp) (by simp) hHa hkids hHq rfl (by rw [g3, d3])
        rw [← d3]
        refine hNk fun s1 done1 F1 hs1 hN1 hH1 hl1 hK1 hsame1 => ?_
        have := copy_attrs hE.new (C := call E k) (ty := b.ty) (a := a) (q := q) (da := da) (e := e) (aks := ks) (ks := done1)
          (m₀ := s.mem) (cont := .ret (some q))
          (P := fun r => ∃ q fp', r.1 = some q ∧ TreeAt Ds r.2.mem (.mk b.ty (b.bline, b.eline, b.bcol, b.ecol) file kids attrs) q fp' ∧
            New s.mem r.2.mem fp' ∧ Same s r.2) D.attrs (fs₀ := []) (afs := fs) (done := []) (rest := fq) (vs := attrs) (af := af)
          (F := q :: [e] ++ fq' ++ F1) (s := s1) hN1 (by simp) (by simp) hHa hattrs (by simpa using hH1) rfl hsh
        refine this fun s2 done2 F2 hs2 hN2 hH2 hA2 hsame2 => ?_
        simp only [runProg]
        have hqe : q ≠ e := hH2.ne
        have heF : e ∉ fq' ∧ e ∉ F1 := by
          have := hN1.nodup
          simp only [List.cons_append, List.nil_append, List.nodup_cons, List.mem_cons, List.mem_append] at this
          exact ⟨fun h => this.2.1 (Or.inl h), fun h => this.2.1 (Or.inr h)⟩
        have hq2 : s2.mem q = some (.node b') := by
          rw [hsame2 q (by simp) hqe, hsame1 q (by simp) hqe]
          exact hq'
        refine OrOom.ok ⟨q, q :: ([e] ++ (fq' ++ (F1 ++ F2))), rfl, ?_, by simpa using hN2,
          Same.trans (s' := s1) ⟨hs1.1, hs1.2.1, hs1.2.2⟩ hs2⟩
        simp only [TreeAt]
        refine ⟨b', D, done1, done2, [e], fq', F1, F2, hD, hq2, hb', e5, e4.trans hqn, ?_, Or.inr ⟨g0, e, g1, ?_, ?_, g4, rfl⟩, ?_, hA2, rfl⟩
        · refine hf'.congr fun x hx => ?_
          have hxe : x ≠ e := fun h => heF.1 (h ▸ hx)
          rw [hsame2 x (by simp [hx]) hxe, hsame1 x (by simp [hx]) hxe]
        · obtain ⟨bb, _, _, _, h⟩ := hH2
          exact h
        · rw [hl1, d3]
        · exact KidsAt.congr kids hK1 fun x hx => hsame2 x (by simp [hx]) fun h => heF.2 (h ▸ hx)
theorem copy_kids {E : Env} {new : Mem → Option Addr} {Ds : List NodeD} {cpy : Nat} (hE : CopyEnv E new Ds cpy) :
    (K : Kids) → ∀ {k ty : Nat} {a q da e : Addr} {ks₀ ks done rest : List Ptr} {afs fs : List Field}
    {kf F : List Addr} {s : St} {m₀ : Mem} {cont : Prog} {P : Ptr × St → Prop}, needK K ≤ k → At cpy s →
    New m₀ s.mem F → q ∈ F → e ∈ F → Holds m₀ a ty da (ks₀ ++ ks) afs → KidsAt Ds m₀ K ks kf →
    Holds s.mem q ty e (done ++ rest) fs → done.length = ks₀.length → rest.length = ks.length →
    (∀ s' done' F', Same s s' → New m₀ s'.mem (F ++ F') → Holds s'.mem q ty e (done ++ done') fs →
      done'.length = ks.length → KidsAt Ds s'.mem K done' F' → (∀ b, b ∈ F → b ≠ e → s'.mem b = s.mem b) →
      OrOom (runProg (call E k) cont s') P) →
    OrOom (runProg (call E k) (DGCTchild ty (some a) (some q) ks.length ks₀.length cont) s) P
  | .nil, k, ty, a, q, da, e, ks₀, ks, done, rest, afs, fs, kf, F, s, m₀, cont, P, hk, hat, hN, hq, he, ha, hK, hh, hl, hr, kk => by
    simp only [KidsAt] at hK
    obtain ⟨rfl, rfl⟩ := hK
    have : rest = [] := by simpa using hr
    subst this
    simp only [List.length_nil, DGCTchild]
    exact kk s [] [] ⟨rfl, rfl, rfl⟩ (by simpa using hN) hh rfl (by simp [KidsAt]) fun _ _ _ => rfl
  | .none K, k, ty, a, q, da, e, ks₀, ks, done, rest, afs, fs, kf, F, s, m₀, cont, P, hk, hat, hN, hq, he, ha, hK, hh, hl, hr, kk => by
    simp only [KidsAt] at hK
    obtain ⟨ks', rfl, hK⟩ := hK
    simp only [needK] at hk
    cases rest with
    | nil => simp at hr
    | cons x rest =>
      obtain ⟨k, rfl⟩ : ∃ k', k = k' + 1 := ⟨k - 1, by omega⟩
      simp only [List.length_cons, DGCTchild]
      rw [run_expr, (ha.grow hN).readKid (getElem?_at _ _ _ rfl)]
      simp only [Res.bind_ok]
      rw [runProg]
      simp only [call, TRAVopt, Res.bind_ok]
      rw [run_stmt, hh.writeKid _ (by simp [hl]), set_at _ _ _ _ hl.symm]
      simp only [Res.bind_ok]
      have := copy_kids hE K (k := k + 1) (ty := ty) (a := a) (q := q) (da := da) (e := e) (ks₀ := ks₀ ++ [none]) (ks := ks')
        (done := done ++ [none]) (rest := rest) (afs := afs) (fs := fs) (kf := kf) (F := F)
        (s := { s with mem := upd s.mem e (some (.data ⟨ty, done ++ none :: rest, fs⟩)) }) (m₀ := m₀) (cont := cont) (P := P)
        (by omega) hat (hN.write he) hq he (by simpa using ha) hK (by simpa using hh.set) (by simp [hl]) (by simpa using hr)
      rw [List.length_append, List.length_singleton] at this
      refine this fun s' done' F' g1 g2 g3 g4 g5 g6 => ?_
      refine kk s' (none :: done') F' g1 g2 (by simpa using g3) (by simp [g4]) ?_ fun b hb hbe => ?_
      · simp only [KidsAt]; exact ⟨done', rfl, g5⟩
      · rw [g6 b hb hbe]; exact upd_other _ _ hbe
  | .some t K, k, ty, a, q, da, e, ks₀, ks, done, rest, afs, fs, kf, F, s, m₀, cont, P, hk, hat, hN, hq, he, ha, hK, hh, hl, hr, kk => by
    simp only [KidsAt] at hK
    obtain ⟨c, ks', f1, f2, rfl, ht, hK, rfl⟩ := hK
    simp only [needK] at hk
    cases rest with
    | nil => simp at hr
    | cons x rest =>
      obtain ⟨k, rfl⟩ : ∃ k', k = k' + 1 := ⟨k - 1, by omega⟩
      simp only [List.length_cons, DGCTchild]
      rw [run_expr, (ha.grow hN).readKid (getElem?_at _ _ _ rfl)]
      simp only [Res.bind_ok]
      rw [runProg]
      simp only [call, TRAVopt]
      refine (copy_node hE t (k := k) (a := c) (s := { s with mem := s.mem }) (by omega) hat (ht.grow hN)).bind fun r hr' => ?_
      obtain ⟨c', fpc, hr1, htc, hNc, hsc⟩ := hr'
      have hhc := hh.grow hNc
      rw [hr1, run_stmt, hhc.writeKid _ (by simp [hl]), set_at _ _ _ _ hl.symm]
      simp only [Res.bind_ok]
      have hec : e ∉ fpc := fun h => hh.live.2 (hNc.fresh e h)
      have := copy_kids hE K (k := k + 1) (ty := ty) (a := a) (q := q) (da := da) (e := e) (ks₀ := ks₀ ++ [some c]) (ks := ks')
        (done := done ++ [some c']) (rest := rest) (afs := afs) (fs := fs) (kf := f2) (F := F ++ fpc)
        (s := { r.2 with mem := upd r.2.mem e (some (.data ⟨ty, done ++ some c' :: rest, fs⟩)) }) (m₀ := m₀) (cont := cont) (P := P)
        (by omega) (At.same (s := s) hat hsc) ((hN.trans hNc).write (by simp [he])) (by simp [hq]) (by simp [he])
        (by simpa using ha) hK (by simpa using hhc.set) (by simp [hl]) (by simpa using hr)
      rw [List.length_append, List.length_singleton] at this
      refine this fun s' done' F' g1 g2 g3 g4 g5 g6 => ?_
      refine kk s' (some c' :: done') (fpc ++ F') (Same.trans (s' := r.2) hsc g1) (by simpa using g2) (by simpa using g3) (by simp [g4]) ?_ fun b hb hbe => ?_
      · simp only [KidsAt]
        refine ⟨c', done', fpc, F', rfl, ?_, g5, rfl⟩
        refine TreeAt.congr t htc fun b hb => ?_
        have hbe : b ≠ e := fun h => hec (h ▸ hb)
        rw [g6 b (by simp [hb]) hbe]
        exact upd_other _ _ hbe
      · rw [g6 b (by simp [hb]) hbe]
        simp only []
        rw [upd_other _ _ hbe]
        exact hNc.same b (hN.live b hb)
end

/-! ## Releasing -/

theorem del_in {fp : List Addr} {m : Mem} {a : Addr} (h : a ∈ fp) : del fp m a = none := by simp [del, h]

theorem del_out {fp : List Addr} {m : Mem} {a : Addr} (h : a ∉ fp) : del fp m a = m a := by simp [del, h]

theorem del_nil (m : Mem) : del [] m = m := by funext a; simp [del]

theorem del_del (f g : List Addr) (m : Mem) : del g (del f m) = del (f ++ g) m := by
  funext a
  by_cases h1 : a ∈ f <;> by_cases h2 : a ∈ g <;> simp [del, h1, h2]

theorem del_one (m : Mem) (a : Addr) : upd m a none = del [a] m := by
  funext b
  by_cases h : b = a <;> simp [del, upd, h]

theorem MEMfree_str {m : Mem} {p : Ptr} {s : Option CStr} {ff : List Addr} (h : StrAt m p s ff) :
    Verif.Trav.MEMfree p m = .ok (del ff m) := by
  cases p with
  | none =>
    cases s with
    | none => simp only [StrAt] at h; subst h; simp [Verif.Trav.MEMfree, del_nil]
    | some s => simp [StrAt] at h
  | some a =>
    cases s with
    | none => simp [StrAt] at h
    | some s =>
      obtain ⟨h1, rfl⟩ := h
      simp [Verif.Trav.MEMfree, h1, del_one]

theorem freeRow_get : ∀ (Ds : List NodeD) (j t : Nat), (freeRow j Ds)[t]? = Ds[t]?.map (DGFTinode (j + t))
  | [], _, _ => by simp [freeRow]
  | D :: Ds, j, 0 => by simp [freeRow]
  | D :: Ds, j, t + 1 => by
    simp only [freeRow, List.getElem?_cons_succ, freeRow_get Ds (j + 1) t]
    rw [show j + 1 + t = j + (t + 1) by omega]

theorem free_handler {Ds : List NodeD} {ty : Nat} {D : NodeD} (h : declOf Ds ty = some D) :
    (ccn_free_vtable Ds)[ty]? = some (DGFTinode ty D) ∧ D ∈ Ds := by
  cases ty with
  | zero => cases h
  | succ t =>
    simp only [declOf] at h
    exact ⟨by simp [ccn_free_vtable, freeRow_get, h, Nat.add_comm], List.mem_of_getElem? h⟩

theorem free_attrs {C : Op → St → Res (Ptr × St)} {ty : Nat} {a d : Addr} {ks : List Ptr} {cont : Prog} :
    ∀ (As : List AttrD) {fs₀ afs : List Field} {vs : List AVal} {af : List Addr} {s : St},
    Holds s.mem a ty d ks (fs₀ ++ afs) → AttrsAt s.mem As afs vs af → af.Nodup → a ∉ af → d ∉ af →
    (∀ A, A ∈ As → A.ty = .string → (A.inh || A.syn) = false) →
    runProg C (DGFTattribute ty (some a) As fs₀.length cont) s = runProg C cont { s with mem := del af s.mem } := by
  intro As
  induction As with
  | nil =>
    intro fs₀ afs vs af s hh hA hn ha hd hb
    match afs, vs, hA with
    | [], [], hA =>
      simp only [AttrsAt] at hA
      subst hA
      simp only [DGFTattribute, del_nil]
  | cons A As ih =>
    intro fs₀ afs vs af s hh hA hn ha hd hb
    match afs, vs, hA with
    | f :: afs, v :: vs, hA =>
    obtain ⟨f1, f2, hA1, hA2, rfl⟩ := hA
    rw [List.nodup_append] at hn
    simp only [List.mem_append, not_or] at ha hd
    have hrest : ∀ s1 : St, s1 = { s with mem := del f1 s.mem } →
        runProg C (DGFTattribute ty (some a) As (fs₀.length + 1) cont) s1 =
          runProg C cont { s with mem := del (f1 ++ f2) s.mem } := by
      intro s1 e
      subst e
      have h1 : Holds (del f1 s.mem) a ty d ks (fs₀ ++ f :: afs) := hh.congr (del_out ha.1) (del_out hd.1)
      have h2 : AttrsAt (del f1 s.mem) As afs vs f2 := hA2.congr fun b hb => del_out fun h => hn.2.2 b h b hb rfl
      have := ih (fs₀ := fs₀ ++ [f]) (afs := afs) (vs := vs) (af := f2) (s := { s with mem := del f1 s.mem })
        (by simpa using h1) h2 hn.2.1 ha.2 hd.2 fun A hA => hb A (List.mem_cons_of_mem _ hA)
      rw [List.length_append, List.length_singleton] at this
      rw [this, del_del]
    have hskip : f1 = [] → runProg C (DGFTattribute ty (some a) As (fs₀.length + 1) cont) s =
        runProg C cont { s with mem := del (f1 ++ f2) s.mem } := by
      intro e
      exact hrest s (by rw [e, del_nil])
    simp only [DGFTattribute]
    cases hT : A.ty with
    | string =>
      have hI := hb A (by simp) hT
      simp only [AttrAt, hI, hT] at hA1
      obtain ⟨p, str, rfl, rfl, hstr⟩ := hA1
      simp only []
      rw [run_stmt]
      obtain ⟨b, b1, b2, b3, b4⟩ := hh
      simp only [freeStr, nodeAt, b1, Res.bind_ok, b3, dataAt, b4, if_true, getElem?_at _ _ _ rfl, Val.toPtr, MEMfree_str hstr]
      exact hrest _ rfl
    | _ =>
      simp only []
      refine hskip ?_
      simp only [AttrAt, hT] at hA1
      split at hA1
      · exact hA1.2.2
      · obtain ⟨_, _, _, h⟩ := hA1
        exact h

theorem freeNode_spec {m : Mem} {a : Addr} {b : NodeB} {file : Option CStr} {df ff : List Addr} (ha : m a = some (.node b))
    (hf : StrAt m b.filename file ff) (haf : a ∉ ff)
    (hd : (b.data = none ∧ df = []) ∨ ∃ d, b.data = some d ∧ m d ≠ none ∧ d ≠ a ∧ d ∉ ff ∧ df = [d]) :
    freeNode (some a) m = .ok (del (a :: (df ++ ff)) m) := by
  simp only [freeNode, nodeAt, ha, Res.bind_ok, MEMfree_str hf]
  rw [del_out haf, ha]
  simp only [Res.bind_ok]
  rcases hd with ⟨hd, rfl⟩ | ⟨d, hd, h1, h2, h3, rfl⟩
  · simp only [hd, Verif.Trav.MEMfree, Res.bind_ok]
    rw [del_out haf, ha]
    simp only []
    rw [del_one, del_del]
    congr 1
    funext x
    by_cases e : x = a <;> by_cases e' : x ∈ ff <;> simp [del, e, e']
  · simp only [hd, Verif.Trav.MEMfree]
    rw [del_out h3]
    cases hm : m d with
    | none => exact absurd hm h1
    | some x =>
      simp only [Res.bind_ok]
      rw [upd_other _ _ (Ne.symm h2), del_out haf, ha]
      simp only []
      congr 1
      funext y
      by_cases e1 : y = a
      · simp [upd, del, e1]
      · by_cases e2 : y = d
        · simp [upd, del, e2]
        · simp [upd, del, e1, e2]

mutual
theorem free_node {E : Env} {Ds : List NodeD} {tr : Nat} (hE : FreeEnv E Ds tr) (hB : freeBuilds Ds = true)
    (hI : ∀ D, D ∈ Ds → D.kids.length ≤ INT_MAX) :
    (t : Tree) → ∀ {k : Nat} {a : Addr} {fp : List Addr} {s : St}, need t ≤ k → At tr s → TreeAt Ds s.mem t a fp → fp.Nodup →
    ∃ s', TRAVdo E (runProg (call E k)) (some a) s = .ok (none, s') ∧ s'.mem = del fp s.mem ∧ Same s s'
  | .mk ty pos file kids attrs, k, a, fp, s, hk, hat, ht, hn => by
    simp only [TreeAt] at ht
    obtain ⟨b, D, ks, fs, df, ff, kf, af, hD, ha, rfl, rfl, hnum, hfile, hstruct, hkids, hattrs, rfl⟩ := ht
    obtain ⟨f, fr, hcur, hfr, hty⟩ := hat
    simp only [need] at hk
    have h0 : TRAVdo E (runProg (call E k)) (some a) s =
        runProg (call E k) (DGFTinode b.ty D a) { s with trace := s.trace ++ [.visit f a] } := by
      simp [TRAVdo, hcur, hfr, hty, hE.table, nodeAt, ha, (free_handler hD).1]
    rw [h0, DGFTinode]
    have hstr : ∀ A, A ∈ D.attrs → A.ty = .string → (A.inh || A.syn) = false := by
      intro A hA hT
      have h1 := List.all_eq_true.mp (List.all_eq_true.mp hB D (free_handler hD).2) A hA
      simp only [hT] at h1
      simpa using h1
    rw [List.nodup_cons] at hn
    obtain ⟨hna, hn⟩ := hn
    simp only [List.mem_append, not_or] at hna
    rw [List.nodup_append] at hn
    obtain ⟨_, hn, hdx⟩ := hn
    rw [List.nodup_append] at hn
    obtain ⟨_, hn, hfx⟩ := hn
    rw [List.nodup_append] at hn
    obtain ⟨hnk, hnaf, hkx⟩ := hn
    rcases hstruct with ⟨d1, d2, d3, rfl, rfl, rfl⟩ | ⟨d0, d, d1, d2, d3, d4, rfl⟩
    · -- no struct
      have hkf : kf = [] := by
        cases kids with
        | nil => simp only [KidsAt] at hkids; exact hkids.2
        | none r => simp [KidsAt] at hkids
        | some t r => simp [KidsAt] at hkids
      have haf : af = [] := by
        rw [d2] at hattrs
        cases attrs with
        | nil => simpa [AttrsAt] using hattrs
        | cons _ _ => simp [AttrsAt] at hattrs
      subst hkf haf
      rw [d1, d2]
      simp only [List.isEmpty_nil, DGFTattribute]
      rw [run_stmt, freeNode_spec ha hfile hna.2.1 (Or.inl ⟨d3, rfl⟩)]
      simp only [Res.bind_ok, runProg]
      exact ⟨_, rfl, by simp, rfl, rfl, rfl⟩
    · have hda : d ≠ a := by
        intro e; rw [e, ha] at d2; cases d2
      have hdx' : d ∉ ff ∧ d ∉ kf ∧ d ∉ af := by
        refine ⟨fun h => ?_, fun h => ?_, fun h => ?_⟩ <;> exact hdx d (by simp) d (by simp [h]) rfl
      -- the part behind the children
      have hend : ∀ (s1 : St) (ks1 : List Ptr), Same s s1 →
          s1.mem = upd (del kf s.mem) d (some (.data ⟨b.ty, ks1, fs⟩)) →
          ∃ s', runProg (call E k) (DGFTattribute b.ty (some a) D.attrs 0 (stmt (freeNode (some a)) (.ret none))) s1 =
            .ok (none, s') ∧ s'.mem = del (a :: ([d] ++ (ff ++ (kf ++ af)))) s.mem ∧ Same s s' := by
        intro s1 ks1 hs1 hm1
        have ha1 : s1.mem a = some (.node b) := by rw [hm1, upd_other _ _ (Ne.symm hda), del_out hna.2.2.1, ha]
        have hd1 : s1.mem d = some (.data ⟨b.ty, ks1, fs⟩) := by rw [hm1, upd_same]
        have hx : ∀ x, x ∉ kf → x ≠ d → s1.mem x = s.mem x := by
          intro x h1 h2
          rw [hm1, upd_other _ _ h2, del_out h1]
        have hA1 : AttrsAt s1.mem D.attrs fs attrs af := hattrs.congr fun x hx' =>
          hx x (fun h => hkx x h x hx' rfl) fun e => hdx'.2.2 (e ▸ hx')
        rw [show (0 : Nat) = ([] : List Field).length from rfl,
          free_attrs D.attrs (d := d) (ks := ks1) (s := s1) (fs₀ := []) (afs := fs) ⟨b, ha1, rfl, d1, hd1⟩ hA1 hnaf
            hna.2.2.2 hdx'.2.2 hstr]
        rw [run_stmt]
        have ha2 : del af s1.mem a = some (.node b) := by rw [del_out hna.2.2.2, ha1]
        have hf2 : StrAt (del af s1.mem) b.filename file ff := hfile.congr fun x hx' => by
          rw [del_out fun h => hfx x hx' x (by simp [h]) rfl]
          exact hx x (fun h => hfx x hx' x (by simp [h]) rfl) fun e => hdx'.1 (e ▸ hx')
        rw [freeNode_spec ha2 hf2 hna.2.1 (Or.inr ⟨d, d1, by rw [del_out hdx'.2.2, hd1]; simp, hda, hdx'.1, rfl⟩)]
        simp only [Res.bind_ok, runProg]
        refine ⟨_, rfl, ?_, hs1⟩
        simp only []
        funext x
        by_cases e1 : x = a
        · rw [e1, del_in (by simp), del_in (by simp)]
        · by_cases e2 : x = d
          · rw [e2, del_in (by simp), del_in (by simp)]
          · by_cases e3 : x ∈ ff
            · rw [del_in (by simp [e3]), del_in (by simp [e3])]
            · rw [del_out (by simp [e1, e2, e3])]
              by_cases e4 : x ∈ af
              · rw [del_in e4, del_in (by simp [e4])]
              · rw [del_out e4, hm1, upd_other _ _ e2]
                by_cases e5 : x ∈ kf
                · rw [del_in e5, del_in (by simp [e5])]
                · rw [del_out e5, del_out (by simp [e1, e2, e3, e4, e5])]
      split
      · rename_i he
        have hk0 : D.kids = [] := by simpa using he
        have hks : ks = [] := by rw [hk0] at d3; simpa using d3
        subst hks
        have hkf : kf = [] := by
          cases kids with
          | nil => simp only [KidsAt] at hkids; exact hkids.2
          | none r => simp [KidsAt] at hkids
          | some t r => simp [KidsAt] at hkids
        subst hkf
        refine hend _ [] ⟨rfl, rfl, rfl⟩ ?_
        funext x
        by_cases e : x = d
        · rw [e, upd_same]; exact d2
        · rw [upd_other _ _ e, del_nil]
      · rename_i he
        have hk0 : D.kids ≠ [] := by simpa using he
        obtain ⟨k, rfl⟩ : ∃ k', k = k' + 1 := ⟨k - 1, by omega⟩
        rw [runProg]
        obtain ⟨s1, h1, h2, h3⟩ := free_kids hE hB hI kids (k := k) (fuel := k) (a := a) (b := b) (d := d) (ty := b.ty)
          (ks₀ := []) (ks := ks) (fs := fs) (kf := kf) (s := { s with trace := s.trace ++ [.visit f a] }) (by omega)
          (by omega) ⟨f, fr, hcur, hfr, hty⟩ ha (d4 hk0) (by simp [hnum, d3]) d2 hkids hnk hna.2.2.1 hdx'.2.1
          (by simpa [d3] using hI D (free_handler hD).2)
        simp only [List.length_nil] at h1
        simp only [call, TRAVchildren, h1, Res.bind_ok]
        exact hend s1 _ h3 h2
theorem free_kids {E : Env} {Ds : List NodeD} {tr : Nat} (hE : FreeEnv E Ds tr) (hB : freeBuilds Ds = true)
    (hI : ∀ D, D ∈ Ds → D.kids.length ≤ INT_MAX) :
    (K : Kids) → ∀ {k fuel : Nat} {a d : Addr} {b : NodeB} {ty : Nat} {ks₀ ks : List Ptr} {fs : List Field} {kf : List Addr}
    {s : St}, needK K ≤ k → needK K ≤ fuel → At tr s → s.mem a = some (.node b) → b.children = some d →
    b.numChildren = (ks₀ ++ ks).length → s.mem d = some (.data ⟨ty, ks₀ ++ ks, fs⟩) → KidsAt Ds s.mem K ks kf → kf.Nodup →
    a ∉ kf → d ∉ kf → (ks₀ ++ ks).length ≤ INT_MAX →
    ∃ s', childLoop E (runProg (call E k)) fuel (some a) ks₀.length s = .ok s' ∧
      s'.mem = upd (del kf s.mem) d (some (.data ⟨ty, ks₀ ++ List.replicate ks.length none, fs⟩)) ∧ Same s s'
  | .nil, k, fuel, a, d, b, ty, ks₀, ks, fs, kf, s, hk, hf, hat, ha, hc, hnum, hd, hK, hn, hak, hdk, hi => by
    simp only [KidsAt] at hK
    obtain ⟨rfl, rfl⟩ := hK
    simp only [needK] at hf
    obtain ⟨fuel, rfl⟩ : ∃ k', fuel = k' + 1 := ⟨fuel - 1, by omega⟩
    refine ⟨s, ?_, ?_, rfl, rfl, rfl⟩
    · simp [childLoop, nodeAt, ha, hnum]
    · funext x
      by_cases e : x = d
      · rw [e, upd_same, hd]; simp
      · rw [upd_other _ _ e, del_nil]
  | .none K, k, fuel, a, d, b, ty, ks₀, ks, fs, kf, s, hk, hf, hat, ha, hc, hnum, hd, hK, hn, hak, hdk, hi => by
    simp only [KidsAt] at hK
    obtain ⟨ks', rfl, hK⟩ := hK
    simp only [needK] at hk hf
    obtain ⟨fuel, rfl⟩ : ∃ k', fuel = k' + 1 := ⟨fuel - 1, by omega⟩
    have hda : a ≠ d := by
      intro e; rw [e, hd] at ha; cases ha
    have hlen : ks₀.length < (ks₀ ++ none :: ks').length := by simp
    have h1 : childLoop E (runProg (call E k)) (fuel + 1) (some a) ks₀.length s =
        childLoop E (runProg (call E k)) fuel (some a) (ks₀.length + 1)
          { s with mem := upd s.mem d (some (.data ⟨ty, ks₀ ++ none :: ks', fs⟩)) } := by
      simp only [childLoop, nodeAt, ha, Res.bind_ok, hnum, if_pos hlen, getChild, hc, dataAt, hd, getElem?_at _ _ _ rfl,
        TRAVopt, setChild, if_true, set_at _ _ _ _ rfl]
      rw [if_pos (by omega)]
    obtain ⟨s', g1, g2, g3⟩ := free_kids hE hB hI K (k := k) (fuel := fuel) (a := a) (b := b) (d := d) (ty := ty)
      (ks₀ := ks₀ ++ [none]) (ks := ks') (fs := fs) (kf := kf)
      (s := { s with mem := upd s.mem d (some (.data ⟨ty, ks₀ ++ none :: ks', fs⟩)) }) (by omega) (by omega) hat
      (by simp only []; rw [upd_other _ _ hda]; exact ha) hc (by simpa using hnum) (by simp [upd_same])
      (KidsAt.congr K hK fun x hx => upd_other _ _ fun e => hdk (e ▸ hx)) hn hak hdk (by simpa using hi)
    rw [List.length_append, List.length_singleton] at g1
    refine ⟨s', by rw [h1, g1], ?_, g3⟩
    rw [g2]
    funext x
    by_cases e : x = d
    · rw [e, upd_same, upd_same]; simp [List.replicate_succ]
    · rw [upd_other _ _ e, upd_other _ _ e]
      by_cases e' : x ∈ kf
      · rw [del_in e', del_in e']
      · rw [del_out e', del_out e']; exact upd_other _ _ e
  | .some t K, k, fuel, a, d, b, ty, ks₀, ks, fs, kf, s, hk, hf, hat, ha, hc, hnum, hd, hK, hn, hak, hdk, hi => by
    simp only [KidsAt] at hK
    obtain ⟨c, ks', f1, f2, rfl, ht, hK, rfl⟩ := hK
    simp only [needK] at hk hf
    obtain ⟨fuel, rfl⟩ : ∃ k', fuel = k' + 1 := ⟨fuel - 1, by omega⟩
    have hda : a ≠ d := by
      intro e; rw [e, hd] at ha; cases ha
    rw [List.nodup_append] at hn
    simp only [List.mem_append, not_or] at hak hdk
    obtain ⟨s1, e1, e2, e3⟩ := free_node hE hB hI t (k := k) (a := c) (s := s) (by omega) hat ht hn.1
    have ha1 : s1.mem a = some (.node b) := by rw [e2, del_out hak.1, ha]
    have hd1 : s1.mem d = some (.data ⟨ty, ks₀ ++ some c :: ks', fs⟩) := by rw [e2, del_out hdk.1, hd]
    have hlen : ks₀.length < (ks₀ ++ some c :: ks').length := by simp
    have h1 : childLoop E (runProg (call E k)) (fuel + 1) (some a) ks₀.length s =
        childLoop E (runProg (call E k)) fuel (some a) (ks₀.length + 1)
          { s1 with mem := upd s1.mem d (some (.data ⟨ty, ks₀ ++ none :: ks', fs⟩)) } := by
      simp only [childLoop, nodeAt, ha, Res.bind_ok, hnum, if_pos hlen, getChild, hc, dataAt, hd, getElem?_at _ _ _ rfl,
        TRAVopt, e1, ha1, hd1, setChild, if_true, set_at _ _ _ _ rfl]
      rw [if_pos (by omega)]
    obtain ⟨s', g1, g2, g3⟩ := free_kids hE hB hI K (k := k) (fuel := fuel) (a := a) (b := b) (d := d) (ty := ty)
      (ks₀ := ks₀ ++ [none]) (ks := ks') (fs := fs) (kf := f2)
      (s := { s1 with mem := upd s1.mem d (some (.data ⟨ty, ks₀ ++ none :: ks', fs⟩)) }) (by omega) (by omega) (At.same hat e3)
      (by simp only []; rw [upd_other _ _ hda]; exact ha1) hc (by simpa using hnum) (by simp [upd_same])
      (KidsAt.congr K hK fun x hx => by
        have hxd : x ≠ d := fun e => hdk.2 (e ▸ hx)
        simp only []
        rw [upd_other _ _ hxd, e2, del_out fun h => hn.2.2 x h x hx rfl]) hn.2.1 hak.2 hdk.2 (by simpa using hi)
    rw [List.length_append, List.length_singleton] at g1
    refine ⟨s', by rw [h1, g1], ?_, Same.trans (s' := s1) e3 g3⟩
    rw [g2]
    funext x
    by_cases e : x = d
    · rw [e, upd_same, upd_same]; simp [List.replicate_succ]
    · rw [upd_other _ _ e, upd_other _ _ e]
      by_cases e' : x ∈ f2
      · rw [del_in e', del_in (by simp [e'])]
      · rw [del_out e']
        simp only []
        rw [upd_other _ _ e, e2]
        by_cases e'' : x ∈ f1
        · rw [del_in e'', del_in (by simp [e''])]
        · rw [del_out e'', del_out (by simp [e', e''])]
end

end Verif.Spec.Trav
