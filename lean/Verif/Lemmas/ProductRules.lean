import Verif.Spec.ProductRules

/-!
# Lemmas about the check of equations
-/

namespace Verif.ProductRules
open Verif.Propagate (Attr Target)
open Verif.Spec.ProductRules

theorem allStored_append {env : Env} {a b : List (NodeD × ARef)} {c d : List Resolution} (h : AllStored env a c)
    (h' : AllStored env b d) : AllStored env (a ++ b) (c ++ d) := by
  induction h with
  | nil => exact h'
  | cons h _ ih => exact .cons h ih

theorem nodup_eq {α : Type} {f : α → Nat} {l : List α} (h : (l.map f).Nodup) {a b : α} (ha : a ∈ l) (hb : b ∈ l)
    (hn : f a = f b) : a = b := by
  induction l with
  | nil => cases ha
  | cons x rest ih =>
    rw [List.map_cons, List.nodup_cons] at h
    rcases List.mem_cons.1 ha with ha' | ha' <;> rcases List.mem_cons.1 hb with hb' | hb'
    · rw [ha', hb']
    · exact absurd (List.mem_map.2 ⟨b, hb', by rw [← hn, ha']⟩) h.1
    · exact absurd (List.mem_map.2 ⟨a, ha', by rw [hn, hb']⟩) h.1
    · exact ih h.2 ha' hb'

/-- The attributes of a node or nodeset. -/
def AttrsAt (env : Env) : Target → List Attr → Prop
  | .node i, l => ∃ nd, env.nodes[i]? = some nd ∧ l = nd.attrs
  | .set i, l => env.sets[i]? = some l

theorem AttrsAt.unique {env : Env} {t : Target} {l l' : List Attr} (h : AttrsAt env t l) (h' : AttrsAt env t l') : l = l' := by
  cases t with
  | node i =>
    obtain ⟨nd, h1, h2⟩ := h
    obtain ⟨nd', h1', h2'⟩ := h'
    rw [h1] at h1'; cases h1'
    rw [h2, h2']
  | set i => rw [AttrsAt] at h h'; rw [h] at h'; cases h'; rfl

theorem AttrsAt.nodup {env : Env} (hn : Named env) {t : Target} {l : List Attr} (h : AttrsAt env t l) : (l.map (·.name)).Nodup := by
  cases t with
  | node i =>
    obtain ⟨nd, h1, rfl⟩ := h
    exact hn.attrs nd (List.mem_of_getElem? h1)
  | set i => exact hn.sets l (List.mem_of_getElem? h)

theorem TypeAttrs.at {env : Env} {ty : Nat} {l : List Attr} (h : TypeAttrs env ty l) :
    ∃ t, AttrsAt env t l ∧ attributesOfType env ty = .ok (t, l) := by
  cases h with
  | @node i nd h1 h2 h3 =>
    exact ⟨.node i, ⟨nd, h2, h3⟩, by simp only [attributesOfType, h1, attributesOf, h2, h3]⟩
  | @set i h1 h2 => exact ⟨.set i, h2, by simp only [attributesOfType, h1, attributesOf, h2]⟩

theorem TypeAttrs.unique {env : Env} {ty : Nat} {l l' : List Attr} (h : TypeAttrs env ty l) (h' : TypeAttrs env ty l') :
    l = l' := by
  obtain ⟨t, h1, h2⟩ := TypeAttrs.at h
  obtain ⟨t', h1', h2'⟩ := TypeAttrs.at h'
  rw [h2] at h2'
  injection h2' with h2'
  injection h2'

/-- What the tables of found children and attributes say is right. -/
structure Valid (env : Env) (s : CState) : Prop where
  children : ∀ i k c, s.children i k = some c → ∃ nd, env.nodes[i]? = some nd ∧ c ∈ nd.children ∧ c.name = k
  attrs : ∀ t k a, s.attrs t k = some a → ∃ l, AttrsAt env t l ∧ a ∈ l ∧ a.name = k

theorem childLoop_spec (key : Nat) (l : List Child) :
    (∀ c, childLoop key l = some c → c ∈ l ∧ c.name = key) ∧ (childLoop key l = none → ∀ c, c ∈ l → c.name ≠ key) := by
  induction l with
  | nil => exact ⟨(fun c h => by cases h), fun _ c h => by cases h⟩
  | cons x rest ih =>
    rw [childLoop]
    by_cases hx : x.name = key
    · simp only [hx, decide_true]
      exact ⟨fun c h => by cases h; exact ⟨List.mem_cons_self, hx⟩, fun h => by cases h⟩
    · simp only [hx, decide_false]
      refine ⟨fun c h => ⟨List.mem_cons_of_mem _ (ih.1 c h).1, (ih.1 c h).2⟩, fun h c hc => ?_⟩
      rcases List.mem_cons.1 hc with rfl | hc
      · exact hx
      · exact ih.2 h c hc

theorem attrLoop_spec (key : Nat) (l : List Attr) :
    (∀ c, attrLoop key l = some c → c ∈ l ∧ c.name = key) ∧ (attrLoop key l = none → ∀ c, c ∈ l → c.name ≠ key) := by
  induction l with
  | nil => exact ⟨(fun c h => by cases h), fun _ c h => by cases h⟩
  | cons x rest ih =>
    rw [attrLoop]
    by_cases hx : x.name = key
    · simp only [hx, decide_true]
      exact ⟨fun c h => by cases h; exact ⟨List.mem_cons_self, hx⟩, fun h => by cases h⟩
    · simp only [hx, decide_false]
      refine ⟨fun c h => ⟨List.mem_cons_of_mem _ (ih.1 c h).1, (ih.1 c h).2⟩, fun h c hc => ?_⟩
      rcases List.mem_cons.1 hc with rfl | hc
      · exact hx
      · exact ih.2 h c hc

theorem insert_nested_some {κ α : Type} [DecidableEq κ] {t : κ → Nat → Option α} {n m : κ} {key k : Nat} {v x : α}
    (h : insert_nested t n key v m k = some x) : t m k = some x ∨ (m = n ∧ k = key ∧ x = v) := by
  rw [insert_nested] at h
  cases ht : t n key with
  | some y => rw [ht] at h; exact .inl h
  | none =>
    rw [ht] at h
    by_cases h1 : m = n
    · by_cases h2 : k = key
      · simp only [h1, h2, ite_true] at h
        cases h
        exact .inr ⟨h1, h2, rfl⟩
      · simp only [h1, h2, ite_true, ite_false] at h
        rw [h1]; exact .inl h
    · simp only [h1, ite_false] at h
      exact .inl h

theorem find_child_spec {env : Env} {i : Nat} {nd : NodeD} {key : Nat} {s : CState} (v : Valid env s)
    (hi : env.nodes[i]? = some nd) :
    ∃ o s', find_child i nd key s = (o, s') ∧ Valid env s' ∧ s'.log = s.log ∧ s'.errors = s.errors ∧
      (∀ c, o = some c → c ∈ nd.children ∧ c.name = key) ∧ (o = none → ∀ c, c ∈ nd.children → c.name ≠ key) := by
  rw [find_child]
  cases hc : s.children i key with
  | some c =>
    refine ⟨_, _, rfl, v, rfl, rfl, fun c' h => ?_, fun h => by cases h⟩
    cases h
    obtain ⟨nd', h1, h2⟩ := v.children i key c hc
    rw [hi] at h1; cases h1
    exact h2
  | none =>
    cases hl : childLoop key nd.children with
    | none => exact ⟨_, _, rfl, v, rfl, rfl, (fun c h => by cases h), fun _ => (childLoop_spec key _).2 hl⟩
    | some c =>
      have := (childLoop_spec key _).1 c hl
      refine ⟨_, _, rfl, ⟨fun i' k c' h => ?_, v.attrs⟩, rfl, rfl, fun c' h => ?_, fun h => by cases h⟩
      · rcases insert_nested_some h with h | ⟨rfl, rfl, rfl⟩
        · exact v.children i' k c' h
        · exact ⟨nd, hi, this⟩
      · cases h; exact this

theorem find_attribute_spec {env : Env} {t : Target} {l : List Attr} {key : Nat} {s : CState} (v : Valid env s)
    (ht : AttrsAt env t l) :
    ∃ o s', find_attribute t l key s = (o, s') ∧ Valid env s' ∧ s'.log = s.log ∧ s'.errors = s.errors ∧
      (∀ c, o = some c → c ∈ l ∧ c.name = key) ∧ (o = none → ∀ c, c ∈ l → c.name ≠ key) := by
  rw [find_attribute]
  cases hc : s.attrs t key with
  | some c =>
    refine ⟨_, _, rfl, v, rfl, rfl, fun c' h => ?_, fun h => by cases h⟩
    cases h
    obtain ⟨l', h1, h2⟩ := v.attrs t key c hc
    rw [ht.unique h1]
    exact h2
  | none =>
    cases hl : attrLoop key l with
    | none => exact ⟨_, _, rfl, v, rfl, rfl, (fun c h => by cases h), fun _ => (attrLoop_spec key _).2 hl⟩
    | some c =>
      have := (attrLoop_spec key _).1 c hl
      refine ⟨_, _, rfl, ⟨v.children, fun i' k c' h => ?_⟩, rfl, rfl, fun c' h => ?_, fun h => by cases h⟩
      · rcases insert_nested_some h with h | ⟨rfl, rfl, rfl⟩
        · exact v.attrs i' k c' h
        · exact ⟨l, ht, this⟩
      · cases h; exact this

/-- The reference is right. -/
def GoodRef (env : Env) (nd : NodeD) (inRule : Bool) (r : ARef) : Prop :=
  ∃ c a, RefersTo env nd r c a ∧ (inRule = true → (c = none → a.syn = true) ∧ (c ≠ none → a.inh = true))

/-- What a step does: no undefined behaviour, errors are added exactly if `P` is false, and the references are stored. -/
def Does (env : Env) (s : CState) (xs : List (NodeD × ARef)) (P : Prop) (s' : CState) : Prop :=
  Valid env s' ∧ s.errors ≤ s'.errors ∧ (s'.errors = s.errors ↔ P) ∧ ∃ ys, s'.log = s.log ++ ys ∧ AllStored env xs ys

theorem Does.trans {env : Env} {s s' s'' : CState} {xs ys : List (NodeD × ARef)} {P Q : Prop} (h : Does env s xs P s')
    (h' : Does env s' ys Q s'') : Does env s (xs ++ ys) (P ∧ Q) s'' := by
  obtain ⟨v, a, b, zs, c, d⟩ := h
  obtain ⟨v', a', b', zs', c', d'⟩ := h'
  refine ⟨v', Nat.le_trans a a', ?_, zs ++ zs', ?_, allStored_append d d'⟩
  · rw [← b, ← b']; omega
  · rw [c', c, List.append_assoc]

theorem Does.refl {env : Env} {s : CState} (v : Valid env s) : Does env s [] True s :=
  ⟨v, Nat.le_refl _, by simp, [], by simp, .nil⟩

theorem Does.iff {env : Env} {s s' : CState} {xs : List (NodeD × ARef)} {P Q : Prop} (h : Does env s xs P s') (hpq : P ↔ Q) :
    Does env s xs Q s' := ⟨h.1, h.2.1, h.2.2.1.trans hpq, h.2.2.2⟩

theorem ruleErrors_zero {b : Bool} {r : ARef} {a : Attr} :
    ruleErrors b r a = 0 ↔ (b = true → (r.inode = none → a.syn = true) ∧ (r.inode ≠ none → a.inh = true)) := by
  rw [ruleErrors.eq_def]
  cases b with
  | false => simp
  | true => cases hr : r.inode <;> cases hs : a.syn <;> cases hh : a.inh <;> simp

theorem RefersTo.node {env : Env} {nd : NodeD} {r : ARef} {c : Option Child} {a : Attr} (h : RefersTo env nd r c a) :
    (c = none ↔ r.inode = none) := by
  cases h with
  | this h _ _ => simp [h]
  | child h _ _ _ _ => simp [h]

theorem checkAttr_spec {env : Env} {nd : NodeD} {r : ARef} {b : Bool} {oc : Option Child} {t : Target} {l : List Attr}
    {s : CState} (v : Valid env s) (ht : AttrsAt env t l) (hn : Named env)
    (hto : ∀ c a, RefersTo env nd r c a ↔ c = oc ∧ a ∈ l ∧ a.name = r.iattr) (ho : oc = none ↔ r.inode = none) :
    Does env s [(nd, r)] (GoodRef env nd b r) (checkAttr r b oc (t, l) s) := by
  rw [checkAttr]
  obtain ⟨o, s', h, v', h1, h2, h3, h4⟩ := find_attribute_spec (key := r.iattr) v ht
  rw [show find_attribute (t, l).1 (t, l).2 r.iattr s = (o, s') from h]
  cases o with
  | none =>
    have hno : ¬ ∃ c a, RefersTo env nd r c a := fun ⟨c, a, h⟩ => by
      obtain ⟨_, h5, h6⟩ := (hto c a).1 h
      exact h4 rfl a h5 h6
    refine ⟨⟨v'.children, v'.attrs⟩, by simp only [h2]; omega, ?_, [⟨oc, none⟩], by simp only [h1], ?_⟩
    · refine ⟨fun h => by simp only [h2] at h; omega, fun ⟨c, a, h, _⟩ => absurd ⟨c, a, h⟩ hno⟩
    · exact .cons ⟨(fun a h => by cases h), fun _ => hno⟩ .nil
  | some a =>
    have ha := (hto oc a).2 ⟨rfl, h3 a rfl⟩
    refine ⟨⟨v'.children, v'.attrs⟩, by simp only [h2]; omega, ?_, [⟨oc, some a⟩], by simp only [h1], ?_⟩
    · have : s.errors + ruleErrors b r a = s.errors ↔ ruleErrors b r a = 0 := by omega
      simp only [h2]
      rw [this, ruleErrors_zero, Ne, ← ho]
      refine ⟨fun h => ⟨oc, a, ha, h⟩, fun ⟨c, a', h, h'⟩ => ?_⟩
      obtain ⟨rfl, h5, h6⟩ := (hto c a').1 h
      rw [nodup_eq (ht.nodup hn) (h3 a rfl).1 h5 (h6 ▸ (h3 a rfl).2)]
      exact h'
    · exact .cons ⟨fun a' h => by cases h; exact ha, fun h => by cases h⟩ .nil

theorem ref_spec {env : Env} {i : Nat} {nd : NodeD} {r : ARef} {b : Bool} {s : CState} (v : Valid env s)
    (hi : env.nodes[i]? = some nd) (hn : Named env) (ht : Typed env) :
    ∃ s', check_attribute_reference env i nd r b s = .ok s' ∧ Does env s [(nd, r)] (GoodRef env nd b r) s' := by
  have hnd := List.mem_of_getElem? hi
  rw [check_attribute_reference.eq_def]
  cases hr : r.inode with
  | none =>
    refine ⟨_, rfl, checkAttr_spec (nd := nd) v ⟨nd, hi, rfl⟩ hn (fun c a => ?_) (by simp [hr])⟩
    constructor
    · intro h
      cases h with
      | this _ h1 h2 => exact ⟨rfl, h1, h2⟩
      | child h _ _ _ _ => rw [hr] at h; cases h
    · rintro ⟨rfl, h1, h2⟩
      exact .this hr h1 h2
  | some name =>
    obtain ⟨o, s', h, v', h1, h2, h3, h4⟩ := find_child_spec (key := name) v hi
    simp only [h]
    cases o with
    | none =>
      have hno : ¬ ∃ c a, RefersTo env nd r c a := fun ⟨c, a, h⟩ => by
        cases h with
        | this h _ _ => rw [hr] at h; cases h
        | @child c _ _ h h5 _ _ _ => rw [hr] at h; cases h; exact h4 rfl c h5 rfl
      refine ⟨_, rfl, ⟨v'.children, v'.attrs⟩, by simp only [h2]; omega, ?_, [⟨none, none⟩], by simp only [h1], ?_⟩
      · refine ⟨fun h => by simp only [h2] at h; omega, fun ⟨c, a, h, _⟩ => absurd ⟨c, a, h⟩ hno⟩
      · exact .cons ⟨(fun a h => by cases h), fun _ => hno⟩ .nil
    | some c =>
      obtain ⟨h5, h6⟩ := h3 c rfl
      obtain ⟨l, hl⟩ := ht nd hnd c h5
      obtain ⟨t, h7, h8⟩ := TypeAttrs.at hl
      simp only [h8, Res.bind_ok]
      have := checkAttr_spec (nd := nd) (r := r) (b := b) (oc := some c) v' h7 hn (fun c' a => ?_) (by simp [hr])
      · obtain ⟨w, x, y, ys, z, z'⟩ := this
        exact ⟨_, rfl, w, by omega, by rw [← y, h2], ys, by rw [z, h1], z'⟩
      · constructor
        · intro h
          cases h with
          | this h _ _ => rw [hr] at h; cases h
          | @child c'' l' a h h9 h10 h11 h12 =>
            rw [hr] at h
            have : c'' = c := nodup_eq (hn.children nd hnd) h9 h5 (by injection h with h; rw [← h, h6])
            subst this
            rw [TypeAttrs.unique hl h10]
            exact ⟨rfl, h11, h12⟩
        · rintro ⟨rfl, h9, h10⟩
          exact .child (by rw [hr, h6]) h5 hl h9 h10

theorem args_spec {env : Env} {i : Nat} {nd : NodeD} (hi : env.nodes[i]? = some nd) (hn : Named env) (ht : Typed env)
    (l : List ARef) {s : CState} (v : Valid env s) :
    ∃ s', CPRequation_dependency env i nd l s = .ok s' ∧
      Does env s (l.map fun r => (nd, r)) (∀ r, r ∈ l → GoodRef env nd false r) s' := by
  induction l generalizing s with
  | nil => exact ⟨s, rfl, (Does.refl v).iff (by simp)⟩
  | cons r rest ih =>
    obtain ⟨s1, h1, d1⟩ := ref_spec (r := r) (b := false) v hi hn ht
    obtain ⟨s2, h2, d2⟩ := ih d1.1
    refine ⟨s2, ?_, (d1.trans d2).iff (by simp)⟩
    rw [CPRequation_dependency, h1, Res.bind_ok, h2]

theorem eqns_spec {env : Env} {i : Nat} {nd : NodeD} (hi : env.nodes[i]? = some nd) (hn : Named env) (ht : Typed env)
    (l : List Eqn) {s : CState} (v : Valid env s) :
    ∃ s', CPRequation env i nd l s = .ok s' ∧
      Does env s ((l.flatMap fun e => e.rule :: e.args).map fun r => (nd, r))
        (∀ e, e ∈ l → GoodRef env nd true e.rule ∧ ∀ r, r ∈ e.args → GoodRef env nd false r) s' := by
  induction l generalizing s with
  | nil => exact ⟨s, rfl, (Does.refl v).iff (by simp)⟩
  | cons e rest ih =>
    obtain ⟨s1, h1, d1⟩ := ref_spec (r := e.rule) (b := true) v hi hn ht
    obtain ⟨s2, h2, d2⟩ := args_spec hi hn ht e.args d1.1
    obtain ⟨s3, h3, d3⟩ := ih d2.1
    refine ⟨s3, ?_, ?_⟩
    · rw [CPRequation, h1, Res.bind_ok, h2, Res.bind_ok, h3]
    · have := ((d1.trans d2).trans d3).iff (Q := ∀ e', e' ∈ e :: rest → GoodRef env nd true e'.rule ∧ ∀ r, r ∈ e'.args → GoodRef env nd false r) (by simp)
      simpa using this

theorem rule_iff (node : Option Nat) (name : Nat) (l : List Eqn) :
    find_product_rule node name l = true ↔ ∃ e, e ∈ l ∧ e.rule = ⟨node, name⟩ := by
  induction l with
  | nil => simp [find_product_rule]
  | cons e rest ih =>
    rw [find_product_rule]
    have hs : sameNode node e.rule.inode = true ↔ e.rule.inode = node := by
      cases node <;> cases e.rule.inode <;> simp [sameNode, eq_comm]
    have he : (sameNode node e.rule.inode && decide (e.rule.iattr = name)) = true ↔ e.rule = ⟨node, name⟩ := by
      rw [Bool.and_eq_true, hs, decide_eq_true_iff]
      cases hr : e.rule
      simp
    cases hb : (sameNode node e.rule.inode && decide (e.rule.iattr = name)) with
    | true => simp only [true_iff]; exact ⟨e, List.mem_cons_self, he.1 hb⟩
    | false =>
      simp only []
      rw [ih]
      constructor
      · rintro ⟨e', h, h'⟩; exact ⟨e', List.mem_cons_of_mem _ h, h'⟩
      · rintro ⟨e', h, h'⟩
        rcases List.mem_cons.1 h with rfl | h
        · rw [he.2 h'] at hb; cases hb
        · exact ⟨e', h, h'⟩

theorem product_spec {env : Env} {nd : NodeD} (node : Option Nat) (name : Nat) {s : CState} (v : Valid env s) :
    Does env s [] (HasRule nd node name) (check_product_rule nd.eqns node name s) := by
  rw [check_product_rule]
  have := rule_iff node name nd.eqns
  cases hf : find_product_rule node name nd.eqns with
  | true => exact (Does.refl v).iff ⟨fun _ => this.1 hf, fun _ => trivial⟩
  | false =>
    refine ⟨⟨v.children, v.attrs⟩, Nat.le_add_right _ _, ⟨fun h => ?_, fun h => ?_⟩, [], by simp, .nil⟩
    · simp only [] at h; omega
    · rw [this.2 h] at hf; cases hf

theorem attribute_spec {env : Env} {nd : NodeD} (l : List Attr) {s : CState} (v : Valid env s) :
    Does env s [] (∀ a, a ∈ l → a.syn = true → HasRule nd none a.name) (CPRattribute nd l s) := by
  induction l generalizing s with
  | nil => exact (Does.refl v).iff (by simp)
  | cons a rest ih =>
    rw [CPRattribute]
    cases ha : a.syn with
    | true =>
      have := product_spec (nd := nd) none a.name v
      exact (this.trans (ih this.1)).iff (by simp [ha])
    | false => exact (ih v).iff (by simp [ha])

theorem inherited_spec {env : Env} {nd : NodeD} (name : Nat) (l : List Attr) {s : CState} (v : Valid env s) :
    Does env s [] (∀ a, a ∈ l → a.inh = true → HasRule nd (some name) a.name) (inheritedLoop nd name l s) := by
  induction l generalizing s with
  | nil => exact (Does.refl v).iff (by simp)
  | cons a rest ih =>
    rw [inheritedLoop]
    cases ha : a.inh with
    | true =>
      have := product_spec (nd := nd) (some name) a.name v
      exact (this.trans (ih this.1)).iff (by simp [ha])
    | false => exact (ih v).iff (by simp [ha])

theorem child_spec {env : Env} {nd : NodeD} (l : List Child) (ht : ∀ c, c ∈ l → ∃ as, TypeAttrs env c.type as) {s : CState}
    (v : Valid env s) :
    ∃ s', CPRchild env nd l s = .ok s' ∧
      Does env s [] (∀ c, c ∈ l → ∀ as, TypeAttrs env c.type as → ∀ a, a ∈ as → a.inh = true → HasRule nd (some c.name) a.name) s' := by
  induction l generalizing s with
  | nil => exact ⟨s, rfl, (Does.refl v).iff (by simp)⟩
  | cons c rest ih =>
    obtain ⟨as, has⟩ := ht c List.mem_cons_self
    obtain ⟨t, _, h2⟩ := TypeAttrs.at has
    have d1 := inherited_spec (nd := nd) c.name as v
    obtain ⟨s2, h3, d2⟩ := ih (fun c hc => ht c (List.mem_cons_of_mem _ hc)) d1.1
    refine ⟨s2, by rw [CPRchild, h2, Res.bind_ok, h3], (d1.trans d2).iff ?_⟩
    constructor
    · rintro ⟨h4, h5⟩ c' hc' as' has'
      rcases List.mem_cons.1 hc' with rfl | hc'
      · rw [← TypeAttrs.unique has has']; exact h4
      · exact h5 c' hc' as' has'
    · exact fun h => ⟨h c List.mem_cons_self as has, fun c' hc' => h c' (List.mem_cons_of_mem _ hc')⟩

theorem nodeOk_iff {env : Env} {nd : NodeD} :
    NodeOk env nd ↔ ((∀ e, e ∈ nd.eqns → GoodRef env nd true e.rule ∧ ∀ r, r ∈ e.args → GoodRef env nd false r) ∧
      (∀ c, c ∈ nd.children → ∀ as, TypeAttrs env c.type as → ∀ a, a ∈ as → a.inh = true → HasRule nd (some c.name) a.name)) ∧
      ∀ a, a ∈ nd.attrs → a.syn = true → HasRule nd none a.name := by
  constructor
  · intro h
    refine ⟨⟨fun e he => ⟨?_, fun r hr => ?_⟩, h.inh⟩, h.syn⟩
    · by_cases hn : e.rule.inode = none
      · obtain ⟨a, h1, h2⟩ := h.this e he hn
        exact ⟨none, a, h1, fun _ => ⟨fun _ => h2, fun h => absurd rfl h⟩⟩
      · obtain ⟨c, a, h1, h2⟩ := h.child e he hn
        exact ⟨some c, a, h1, fun _ => ⟨(fun h => by cases h), fun _ => h2⟩⟩
    · obtain ⟨c, a, h1⟩ := h.args e he r hr
      exact ⟨c, a, h1, fun h => by cases h⟩
  · rintro ⟨⟨h1, h2⟩, h3⟩
    refine ⟨h3, h2, fun e he hn => ?_, fun e he hn => ?_, fun e he r hr => ?_⟩
    · obtain ⟨c, a, h4, h5⟩ := (h1 e he).1
      have : c = none := (RefersTo.node h4).2 hn
      subst this
      exact ⟨a, h4, (h5 rfl).1 rfl⟩
    · obtain ⟨c, a, h4, h5⟩ := (h1 e he).1
      cases c with
      | none => exact absurd ((RefersTo.node h4).1 rfl) hn
      | some c => exact ⟨c, a, h4, (h5 rfl).2 (by simp)⟩
    · obtain ⟨c, a, h4, _⟩ := (h1 e he).2 r hr
      exact ⟨c, a, h4⟩

theorem nodes_spec {env : Env} (hn : Named env) (ht : Typed env) (l : List NodeD) (i : Nat)
    (hl : ∀ k, env.nodes[i + k]? = l[k]?) {s : CState} (v : Valid env s) :
    ∃ s', CPRinode env i l s = .ok s' ∧
      Does env s (l.flatMap fun nd => (refs nd).map fun r => (nd, r)) (∀ nd, nd ∈ l → NodeOk env nd) s' := by
  induction l generalizing s i with
  | nil => exact ⟨s, rfl, (Does.refl v).iff (by simp)⟩
  | cons nd rest ih =>
    have hi : env.nodes[i]? = some nd := by have := hl 0; simpa using this
    obtain ⟨s1, h1, d1⟩ := eqns_spec hi hn ht nd.eqns v
    obtain ⟨s2, h2, d2⟩ := child_spec (nd := nd) nd.children (ht nd (List.mem_of_getElem? hi)) d1.1
    have d3 := attribute_spec (nd := nd) nd.attrs d2.1
    obtain ⟨s4, h4, d4⟩ := ih (i + 1) (fun k => by
      have := hl (k + 1)
      rw [List.getElem?_cons_succ] at this
      rw [← this]; congr 1; omega) d3.1
    refine ⟨s4, by rw [CPRinode, h1, Res.bind_ok, h2, Res.bind_ok, h4], ?_⟩
    have := (((d1.trans d2).trans d3).iff nodeOk_iff.symm).trans d4
    rw [List.append_nil, List.append_nil] at this
    exact this.iff (by simp)

end Verif.ProductRules
