import Verif.Spec.CheckAttrs
import Verif.Props.ChildTable
import Verif.Props.Propagate

/-!
# Properties C44 and C45: attributes of nodesets and members, checks of attributes
-/

namespace Verif.Props
open Verif Verif.Propagate Verif.CheckAttrs Verif.ChildTable Verif.Spec.Propagate Verif.Spec.CheckAttrs Verif.Spec.Nodesets
open Verif.Spec.ChildTable Verif.Spec.Graph

theorem rootErrors_zero {set root : Bool} {a : Attr} :
    rootErrors set root a = 0 ↔ (set = false → root = true → a.inh = false) := by
  cases set <;> cases root <;> cases h : a.inh <;> simp [rootErrors, h]

theorem ctorErrors_zero {set : Bool} {a : Attr} :
    ctorErrors set a = 0 ↔ (set = true → a.ctor = false) ∧ (a.ctor = true → set = false → a.inh = false ∧ a.syn = false) := by
  cases set <;> cases h : a.inh <;> cases h' : a.syn <;> cases h'' : a.ctor <;> simp [ctorErrors, h, h', h'']

theorem lifetimeErrors_zero {a : Attr} : lifetimeErrors a = 0 ↔ (a.lifetimes ≠ [] → a.inh = false ∧ a.syn = false) := by
  cases h : a.inh <;> cases h' : a.syn <;> cases h'' : a.lifetimes <;> simp [lifetimeErrors, h, h', h'']

theorem attribute_zero {set root : Bool} {a : Attr} (hr : set = true → root = false) :
    CHAattribute set root a = 0 ↔ AttrOk set root a := by
  have hroot : (set = false → root = true → a.inh = false) ↔ (root = true → a.inh = false) := by
    constructor
    · intro h ht
      cases set with
      | true => rw [hr rfl] at ht; cases ht
      | false => exact h rfl ht
    · exact fun h _ => h
  rw [CHAattribute]
  cases hp : a.propagated with
  | true =>
    rw [rootErrors_zero, hroot]
    have no : ∀ {P : Prop}, a.propagated = false → P := fun h => by rw [hp] at h; cases h
    exact ⟨fun h => ⟨h, no, no, no⟩, fun h => h.root⟩
  | false =>
    simp only [Nat.add_eq_zero_iff]
    rw [rootErrors_zero, ctorErrors_zero, lifetimeErrors_zero, hroot]
    constructor
    · rintro ⟨⟨h1, h2, h3⟩, h4⟩
      refine ⟨h1, fun _ => h2, fun _ hc => ?_, fun _ => h4⟩
      cases set with
      | true => rw [h2 rfl] at hc; cases hc
      | false => exact h3 hc rfl
    · exact fun h => ⟨⟨h.root, h.set hp, fun hc _ => h.ctor hp hc⟩, h.lifetimes hp⟩

theorem inode_zero (l : List (Bool × List Attr)) :
    CHAinode l = 0 ↔ ∀ root a r, (root, a :: r) ∈ l → AttrOk false root a := by
  induction l with
  | nil => simp [CHAinode]
  | cons x rest ih =>
    obtain ⟨root, attrs⟩ := x
    rw [CHAinode, Nat.add_eq_zero_iff, ih]
    constructor
    · rintro ⟨h1, h2⟩ root' a r hm
      rcases List.mem_cons.1 hm with hm | hm
      · cases hm
        exact (attribute_zero (by simp)).1 h1
      · exact h2 root' a r hm
    · intro h
      refine ⟨?_, fun root' a r hm => h root' a r (List.mem_cons_of_mem _ hm)⟩
      cases attrs with
      | nil => rfl
      | cons a r => exact (attribute_zero (by simp)).2 (h root a r List.mem_cons_self)

theorem exprErrors_zero {ill : Bool} {l : List Attr} : exprErrors ill l = 0 ↔ (l ≠ [] → ill = false) := by
  cases ill <;> cases l <;> simp [exprErrors]

theorem inodeset_zero (l : List (Bool × List Attr)) :
    CHAinodeset l = 0 ↔ (∀ ill a r, (ill, a :: r) ∈ l → AttrOk true false a) ∧
      ∀ ill r, (ill, r) ∈ l → r ≠ [] → ill = false := by
  induction l with
  | nil => simp [CHAinodeset]
  | cons x rest ih =>
    obtain ⟨ill, attrs⟩ := x
    rw [CHAinodeset, Nat.add_eq_zero_iff, Nat.add_eq_zero_iff, ih, exprErrors_zero]
    constructor
    · rintro ⟨⟨h0, h1⟩, h2, h3⟩
      constructor
      · intro ill' a r hm
        rcases List.mem_cons.1 hm with hm | hm
        · cases hm
          exact (attribute_zero (by simp)).1 h1
        · exact h2 ill' a r hm
      · intro ill' r hm hr
        rcases List.mem_cons.1 hm with hm | hm
        · cases hm
          exact h0 hr
        · exact h3 ill' r hm hr
    · rintro ⟨h1, h2⟩
      refine ⟨⟨h2 ill attrs List.mem_cons_self, ?_⟩, fun ill' a r hm => h1 ill' a r (List.mem_cons_of_mem _ hm),
        fun ill' r hm => h2 ill' r (List.mem_cons_of_mem _ hm)⟩
      cases attrs with
      | nil => rfl
      | cons a r => exact (attribute_zero (by simp)).2 (h1 ill a r List.mem_cons_self)

/-- C45, partial: the check reports no error exactly if the first attribute of each node and nodeset may be where it is,
and no nodeset with attributes has an intersection or a difference.  Missing: the other attributes; they are not looked at
(`C45_first_only_false`). -/
theorem C45_first_partial (d : Decls) : CHAstart d = 0 ↔ FirstAllowed d := by
  rw [CHAstart, Nat.add_eq_zero_iff, inode_zero, inodeset_zero]
  exact ⟨fun ⟨h1, h2, h3⟩ => ⟨h1, h2, h3⟩, fun h => ⟨h.nodes, h.sets, h.expr⟩⟩

/-- Accepted and rejected samples: the first attribute is checked. -/
example : CHAstart { nodes := [(true, [intA 1, intA 2])], sets := [(false, [intA 3])] } = 0 ∧
    CHAstart { nodes := [(true, [{ intA 1 with inh := true }])], sets := [(true, [intA 3])] } = 2 := by decide

/-- C45: what is allowed is accepted. -/
theorem C45_accepts (d : Decls) (h : Allowed d) : CHAstart d = 0 :=
  (C45_first_partial d).2 ⟨fun root a _ hm => h.nodes root _ hm a List.mem_cons_self,
    fun ill a _ hm => h.sets ill _ hm a List.mem_cons_self, h.expr⟩

/-- The hypothesis of `C45_accepts` holds for a sample. -/
example : Allowed { nodes := [(true, [intA 1, { intA 2 with syn := true }])], sets := [(false, [intA 3])] } := by
  refine ⟨fun root l hm a ha => ?_, fun ill l hm a ha => ?_, fun ill l hm _ => ?_⟩
  · simp only [List.mem_singleton, Prod.mk.injEq] at hm
    obtain ⟨rfl, rfl⟩ := hm
    simp only [List.mem_cons, List.not_mem_nil, or_false] at ha
    rcases ha with rfl | rfl <;> exact ⟨by decide, by decide, by decide, by decide⟩
  · simp only [List.mem_singleton, Prod.mk.injEq] at hm
    obtain ⟨rfl, rfl⟩ := hm
    simp only [List.mem_singleton] at ha
    subst ha
    exact ⟨by decide, by decide, by decide, by decide⟩
  · simp only [List.mem_singleton, Prod.mk.injEq] at hm
    exact hm.1

/-- C45 is false: the root node has an inherited attribute, another attribute is synthesized and used in the constructor,
and an attribute of a nodeset is used in the constructor, and no error is reported: `CHAattribute` never goes on to the
next attribute. -/
theorem C45_first_only_false :
    CHAstart { nodes := [(true, [intA 1, { intA 2 with inh := true }, { intA 3 with syn := true, ctor := true, lifetimes := [⟨.mandatory, none, none⟩] }])],
               sets := [(false, [intA 4, { intA 5 with ctor := true }])] } = 0 ∧
    ¬ Allowed { nodes := [(true, [intA 1, { intA 2 with inh := true }, { intA 3 with syn := true, ctor := true, lifetimes := [⟨.mandatory, none, none⟩] }])],
                sets := [(false, [intA 4, { intA 5 with ctor := true }])] } := by
  refine ⟨by decide, fun h => ?_⟩
  have := (h.nodes true _ List.mem_cons_self { intA 2 with inh := true } (by simp)).root rfl
  cases this

theorem shape_mentions {e : Expr} {M : Nat → Nat → Prop} {j m : Nat} (hu : ¬ HasInterOrDiff e.shape) (hj : Mentions e.shape j)
    (hm : M j m) : In M e m := by
  induction e with
  | lit n => cases hj
  | ref k => cases hj; exact hm
  | union l r ihl ihr =>
    simp only [Expr.shape, HasInterOrDiff, Bool.false_eq_true, false_or, not_or] at hu
    rcases hj with hj | hj
    · exact .inl (ihl hu.1 hj)
    · exact .inr (ihr hu.2 hj)
  | inter l r => exact absurd (Or.inl rfl) hu
  | diff l r => exact absurd (Or.inl rfl) hu

theorem path_member {sets : List Expr} {M : Nat → Nat → Prop} (hM : Membership sets M) {i j m : Nat}
    (h : Path (Refers (sets.map Expr.shape)) i j)
    (hu : ∀ k, (k = i ∨ Path (Refers (sets.map Expr.shape)) i k) → k ≠ j → ∀ e, sets[k]? = some e → ¬ HasInterOrDiff e.shape)
    (hac : ¬ Cyclic (Refers (sets.map Expr.shape))) (hm : M j m) : M i m := by
  induction h with
  | @edge i j h =>
    have hne : i ≠ j := fun h' => hac ⟨i, .edge (by rw [← h'] at h; exact h)⟩
    obtain ⟨e, he, hme⟩ := h
    obtain ⟨e', he', rfl⟩ : ∃ e', sets[i]? = some e' ∧ e'.shape = e := by simpa using he
    exact (hM i e' he' m).2 (shape_mentions (hu i (.inl rfl) hne e' he') hme hm)
  | @step i k j h h' ih =>
    have hne : i ≠ j := fun e => hac ⟨i, .step h (by rw [← e] at h'; exact h')⟩
    have hk : M k m := by
      refine ih (fun k' hk' => hu k' (.inr ?_)) hm
      rcases hk' with rfl | hk'
      · exact .edge h
      · exact .step h hk'
    obtain ⟨e, he, hme⟩ := h
    obtain ⟨e', he', rfl⟩ : ∃ e', sets[i]? = some e' ∧ e'.shape = e := by simpa using he
    exact (hM i e' he' m).2 (shape_mentions (hu i (.inl rfl) hne e' he') hme hk)

/-- C44: if the child tables, the propagation and the check of attributes report no error, each member of a nodeset has
every attribute that the nodeset has, declared or received, with the same type and kind. -/
theorem C44_members (sets : List Expr) (M : Nat → Nat → Prop) (hM : Membership sets M)
    (hres : ∀ e ∈ sets, Resolved sets.length e.shape)
    (s1 : NS) (h1 : NCTast (sets.map Expr.shape) sets.length = .ok s1) (e1 : s1.errors = 0)
    (env : Env) (init : Target → List Attr) (st : Start env init)
    (hsets : env.sets = sets.length) (htable : ∀ i, i < sets.length → env.table i = s1.table i)
    (hmem : ∀ i m, i < sets.length → (Entry.node m ∈ env.members i ↔ M i m))
    (s2 : PState) (h2 : PRAast env init = .ok s2) (e2 : s2.errors = 0)
    (d : Decls) (hd : d.sets = (List.range sets.length).map fun i => (s1.illegal i, s2.attrs (.set i)))
    (e3 : CHAstart d = 0) :
    ∀ i, i < sets.length → ∀ b, b ∈ s2.attrs (.set i) → ∀ m, M i m →
      ∃ c, c ∈ s2.attrs (.node m) ∧ SameSignature b c := by
  intro i hi b hb m hm
  have hres' : ∀ e ∈ sets.map Expr.shape, Resolved (sets.map Expr.shape).length e := by
    intro e he
    obtain ⟨e', he', rfl⟩ := List.mem_map.1 he
    rw [List.length_map]
    exact hres e' he'
  obtain ⟨s1', h1', t1, t2, t3⟩ := C25_tables (sets.map Expr.shape) hres' sets.length (by simp)
  rw [h1] at h1'
  cases h1'
  obtain ⟨s2', h2', p1, p2, p3⟩ := C26_members env init st
  rw [h2] at h2'
  cases h2'
  obtain ⟨p3, p4, p5⟩ := p3 e2
  have hac := t1.1 e1
  have hcheck := ((C45_first_partial d).1 e3).expr
  -- nodesets with attributes have unions only
  have union : ∀ k e, sets[k]? = some e → s2.attrs (.set k) ≠ [] → ¬ HasInterOrDiff e.shape := by
    intro k e he hne hu
    have hk : k < sets.length := by
      rcases Nat.lt_or_ge k sets.length with h | h
      · exact h
      · rw [List.getElem?_eq_none h] at he; cases he
    have : s1.illegal k = false := hcheck _ _ (by
      rw [hd]
      exact List.mem_map.2 ⟨k, List.mem_range.2 hk, rfl⟩) hne
    have hill := (t3 k e.shape (by simp [he])).2 hu
    rw [this] at hill; cases hill
  rcases p2 _ b hb with hb | ⟨j, a, ⟨hj, ha, hab⟩, rfl⟩
  · exact p3 (.node m) i b ⟨by rw [hsets]; exact hi, hb, (hmem i m hi).2 hm⟩
  · rw [hsets] at hj
    have hpath : Path (Refers (sets.map Expr.shape)) j i := by
      refine ((t2 hac j (by simpa using hj)).2 i).1 ?_
      rw [← htable j hj]; exact hab
    have hjm : M j m := by
      refine path_member hM hpath (fun k hk _ e he => union k e he fun hnil => ?_) hac hm
      rcases hk with rfl | hk
      · have := p1 _ a ha
        rw [hnil] at this; cases this
      · have hr : Receives env init (.set k) j a := by
          refine ⟨by rw [hsets]; exact hj, ha, ?_⟩
          rw [Above, htable j hj]
          exact ((t2 hac j (by simpa using hj)).2 k).2 hk
        obtain ⟨c, hc, _⟩ := p3 _ _ _ hr
        rw [hnil] at hc; cases hc
    obtain ⟨c, hc, hs⟩ := p3 (.node m) j a ⟨by rw [hsets]; exact hj, ha, (hmem j m hj).2 hjm⟩
    exact ⟨c, hc, hs.name, hs.type, hs.inh, hs.syn, hs.ref⟩

/-- The nodesets of `envP` as expressions, and their members. -/
def setsP : List Expr := [.union (.lit [0]) (.ref 1), .lit [1]]

/-- The members of `setsP`. -/
def memP (i m : Nat) : Prop := (i = 0 ∧ (m = 0 ∨ m = 1)) ∨ (i = 1 ∧ m = 1)

/-- The hypotheses of `C44_members` hold for a sample with two nodesets, one in the other, and attributes of both. -/
example : ∃ s1 s2 d, Membership setsP memP ∧ (∀ e ∈ setsP, Resolved setsP.length e.shape) ∧
    NCTast (setsP.map Expr.shape) setsP.length = .ok s1 ∧ s1.errors = 0 ∧ Start envP initP ∧ envP.sets = setsP.length ∧
    (∀ i, i < setsP.length → envP.table i = s1.table i) ∧
    (∀ i m, i < setsP.length → (Entry.node m ∈ envP.members i ↔ memP i m)) ∧
    PRAast envP initP = .ok s2 ∧ s2.errors = 0 ∧
    d.sets = ((List.range setsP.length).map fun i => (s1.illegal i, s2.attrs (.set i))) ∧ CHAstart d = 0 ∧
    (s2.attrs (.set 1)).length = 3 := by
  refine ⟨_, _, { nodes := [], sets := _ }, ?_, ?_, rfl, rfl, startP, rfl, ?_, ?_, rfl, by decide, rfl, by decide, by decide⟩
  · intro i e he m
    match i, he with
    | 0, he => cases he; simp [memP, In]
    | 1, he => cases he; simp [memP, In]
    | n + 2, he => cases he
  · intro e he
    simp only [setsP, List.mem_cons, List.not_mem_nil, or_false] at he
    rcases he with rfl | rfl
    · exact ⟨trivial, ⟨1, rfl, by decide⟩⟩
    · trivial
  · intro i hi
    match i, hi with
    | 0, _ => rfl
    | 1, _ => rfl
    | n + 2, hi => exact absurd hi (by simp [setsP])
  · intro i m hi
    match i, hi with
    | 0, _ => simp [envP, memP]
    | 1, _ => simp [envP, memP]
    | n + 2, hi => exact absurd hi (by simp [setsP])

end Verif.Props
