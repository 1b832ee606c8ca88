import Verif.Spec.GenFiles
import Verif.Lemmas.TravData

/-!
# Lemmas about the words in generated types
-/

namespace Verif.GenFiles
open Verif.Str Verif.Ids Verif.Semantic
open Verif.Spec.Str (lowerB upperB SameName)
open Verif.Spec.Ids
open Verif.Spec.Semantic (Pairs NodeAttr SetAttr TypesNamed)
open Verif.Spec.CheckExist (Denotes)
open Verif.Spec.Described (cType)
open Verif.Spec.GenFiles (IsLink Refers UserType UsersNamed UserSeen SetTypesSeen EnumsAsDeclared NoLinks NoStrings)
open Verif.NodeGen (AT CTy Rhs attrType attrParam enumName origOf FMTattributeDefaultVal FMTattributeTypeToString)
open Verif.Described (nodeProg nodeGen setGen attrGen Known From)

section
variable {A : Parse.Ast} {o : Out}

/-- The types of the library that a type can be of. -/
def basics : List Sym := words [b!"int8_t", b!"int16_t", b!"int32_t", b!"int64_t", b!"uint8_t", b!"uint16_t", b!"uint32_t", b!"uint64_t",
  b!"bool"]

/-- The type of an attribute. -/
inductive TyOf (A : Parse.Ast) (a : Parse.Attr) : CTy → Prop where
  | link : IsLink A a → TyOf A a .nodePtr
  | enum {e : Parse.Enum} {r : Parse.Name} : a.type = .link_or_enum → e ∈ A.enums → a.ref = some r → Denotes (progOf A) (idOf r) .enum →
      TyOf A a (.enum e.name.orig)
  | user {r : Parse.Name} : a.type = .user → a.ref = some r → TyOf A a (.named r.orig)
  | basic : a.type ≠ .user → a.type ≠ .link_or_enum → TyOf A a (.basic (cType a.type))

/-- The words of types. -/
inductive TypeWord (A : Parse.Ast) (U : Prop) : Sym → Prop where
  | node : TypeWord A U (.word b!"node_st")
  | basic {x : Sym} : x ∈ basics → TypeWord A U x
  | enum {e : Parse.Enum} : e ∈ A.enums → TypeWord A U (.tag e.name.orig)
  | user {r : CStr} : U → UserType A r → TypeWord A U (.word r)

theorem basic_words {t : Parse.AT} {x : Sym} (h : x ∈ typeWords (.basic (cType t))) : x ∈ basics := by
  cases t <;> simp only [cType, typeWords, List.not_mem_nil] at h <;>
    (rw [List.mem_singleton.1 h]; decide)

theorem ty_words {a : Parse.Attr} {U : Prop} {c : CTy} (h : TyOf A a c) (hu : a.type = .user → U ∧ ∀ r, a.ref = some r → UserType A r.orig) :
    ∀ x ∈ typeWords c, TypeWord A U x := by
  intro x hx
  cases h with
  | link => rw [List.mem_singleton.1 hx]; exact .node
  | enum _ he _ _ => rw [List.mem_singleton.1 hx]; exact .enum he
  | user h1 h2 => rw [List.mem_singleton.1 hx]; exact .user (hu h1).1 ((hu h1).2 _ h2)
  | basic => exact .basic (basic_words hx)

theorem type_ref {a : Parse.Attr} {b : Propagate.Attr} (h : From A a b) {r : Parse.Name} (hr : a.ref = some r) (hb : ∀ t, b.type ≠ .basic t) :
    (attrGen b).ref = some ⟨r.orig, r.orig.map lowerB, r.orig.map upperB⟩ := by
  rw [← Described.idText_code, ← h.typed.ref r hr]
  cases hc : b.type with
  | basic t => exact absurd hc (hb t)
  | _ => simp [attrGen, hc]

theorem node_link {r : Parse.Name} (h : Denotes (progOf A) (idOf r) .node ∨ Denotes (progOf A) (idOf r) .nodeset) :
    (∃ n ∈ A.nodes, SameName n.name.orig r.orig) ∨ ∃ s ∈ A.nodesets, SameName s.name.orig r.orig :=
  h.imp TravData.den_node TravData.den_set

/-- The type of a generated attribute. -/
theorem attr_type {a : Parse.Attr} {b : Propagate.Attr} (h : From A a b) (hu : a.type = .user → a.ref.isSome) :
    ∃ c, attrType (nodeProg A o) (attrGen b) = .ok c ∧ TyOf A a c := by
  cases hb : b.type with
  | link =>
    obtain ⟨h1, r, h2, h3⟩ := h.typed.link hb
    refine ⟨.nodePtr, ?_, .link ⟨h1, r, h2, node_link h3⟩⟩
    simp [attrType, attrGen, hb]
  | linkOrEnum =>
    obtain ⟨h1, r, h2, h3⟩ := h.typed.enum hb
    obtain ⟨e, he, hs⟩ := denotes_enum h3
    have href := type_ref h h2 (fun t => by rw [hb]; exact nofun)
    have hty : (attrGen b).type = .linkOrEnum := by simp [attrGen, hb]
    have hf : stFind (r.orig.map lowerB) (nodeProg A o).table ≠ none := by
      intro hn
      refine (stFind_none _ _).1 hn ⟨idOf e.name, idOf e.name⟩ (List.mem_map.2 ⟨idOf e.name, List.mem_map.2 ⟨e, he, rfl⟩, rfl⟩) ?_
      exact hs
    cases hx : stFind (r.orig.map lowerB) (nodeProg A o).table with
    | none => exact absurd hx hf
    | some x =>
      obtain ⟨y, hy, _, hv⟩ := stFind_some _ _ _ hx
      obtain ⟨i, hi, rfl⟩ := List.mem_map.1 hy
      obtain ⟨e', he', rfl⟩ := List.mem_map.1 hi
      refine ⟨.enum e'.name.orig, ?_, .enum h1 he' h2 h3⟩
      simp only [attrType, hty, enumName, href, STlookup, Res.bind_ok, hx, ← hv]
      rfl
  | user =>
    have h1 := h.typed.user.1 hb
    obtain ⟨r, hr⟩ := Option.isSome_iff_exists.1 (hu h1)
    have href := type_ref h hr (fun t => by rw [hb]; exact nofun)
    have hty : (attrGen b).type = .user := by simp [attrGen, hb]
    refine ⟨.named r.orig, ?_, .user h1 hr⟩
    simp only [attrType, hty, href, origOf, Res.bind_ok]
  | basic t =>
    obtain ⟨h1, h2, h3⟩ := h.typed.basic t hb
    have hty : (attrGen b).type = cType a.type := by simp only [attrGen, hb, h1, Described.basicOf_prim h2 h3]
    refine ⟨.basic (cType a.type), ?_, .basic h2 h3⟩
    simp only [attrType, hty]
    cases ha : a.type <;> first | exact absurd ha h2 | exact absurd ha h3 | rfl

/-- The type of the parameter for a generated attribute. -/
theorem attr_param {a : Parse.Attr} {b : Propagate.Attr} (h : From A a b) (hu : a.type = .user → a.ref.isSome) {P : Prop}
    (hd : P → a.type = .link_or_enum → ∀ r ∈ a.ref, (∃ e ∈ A.enums, SameName e.name.orig r.orig) → ∃ e ∈ A.enums, e.name.orig = r.orig) :
    ∃ q, attrParam (attrGen b) = .ok q ∧ (P → TyOf A a q.ty) := by
  cases hb : b.type with
  | link =>
    obtain ⟨h1, r, h2, h3⟩ := h.typed.link hb
    have hty : (attrGen b).type = .link := by simp [attrGen, hb]
    exact ⟨_, by simp only [attrParam, hty]; rfl, fun _ => .link ⟨h1, r, h2, node_link h3⟩⟩
  | linkOrEnum =>
    obtain ⟨h1, r, h2, h3⟩ := h.typed.enum hb
    have href := type_ref h h2 (fun t => by rw [hb]; exact nofun)
    have hty : (attrGen b).type = .linkOrEnum := by simp [attrGen, hb]
    refine ⟨⟨.enum r.orig, _⟩, by simp only [attrParam, hty, href, origOf, Res.bind_ok]; rfl, fun hP => ?_⟩
    obtain ⟨e, he, hs⟩ := hd hP h1 r h2 (denotes_enum h3)
    dsimp only
    rw [← hs]
    exact .enum h1 he h2 h3
  | user =>
    have h1 := h.typed.user.1 hb
    obtain ⟨r, hr⟩ := Option.isSome_iff_exists.1 (hu h1)
    have href := type_ref h hr (fun t => by rw [hb]; exact nofun)
    have hty : (attrGen b).type = .user := by simp [attrGen, hb]
    exact ⟨⟨.named r.orig, _⟩, by simp only [attrParam, hty, href, origOf, Res.bind_ok]; rfl, fun _ => .user h1 hr⟩
  | basic t =>
    obtain ⟨h1, h2, h3⟩ := h.typed.basic t hb
    have hty : (attrGen b).type = cType a.type := by simp only [attrGen, hb, h1, Described.basicOf_prim h2 h3]
    refine ⟨⟨.basic (cType a.type), (attrGen b).name.orig⟩, ?_, fun _ => .basic h2 h3⟩
    simp only [attrParam, hty]
    cases ha : a.type <;> first | exact absurd ha h2 | exact absurd ha h3 | rfl

/-! ### Lists -/

/-- All attributes are well. -/
def Attrs (A : Parse.Ast) (U : Prop) (l : List NodeGen.Attr) : Prop :=
  ∀ x ∈ l, ∃ b a, x = attrGen b ∧ From A a b ∧ (a.type = .user → a.ref.isSome) ∧ (a.type = .user → U ∧ ∀ r, a.ref = some r → UserType A r.orig)

theorem attrs_words {U : Prop} : ∀ {l : List NodeGen.Attr}, Attrs A U l → ∃ ws, attrsWords (nodeProg A o) l = .ok ws ∧ ∀ x ∈ ws, TypeWord A U x
  | [], _ => ⟨[], rfl, fun _ h => by cases h⟩
  | x :: l, h => by
    obtain ⟨b, a, rfl, hf, h1, h2⟩ := h x List.mem_cons_self
    obtain ⟨c, hc, ht⟩ := attr_type (o := o) hf h1
    obtain ⟨ws, hw, hx⟩ := attrs_words (l := l) fun y hy => h y (List.mem_cons_of_mem _ hy)
    refine ⟨typeWords c ++ ws, by simp only [attrsWords, hc, hw, Res.bind_ok], fun y hy => ?_⟩
    exact (List.mem_append.1 hy).elim (ty_words ht h2 y) (hx y)

theorem nodes_words {U : Prop} : ∀ {l : List NodeGen.Node}, (∀ n ∈ l, Attrs A U n.attrs) →
    ∃ ws, nodesWords (nodeProg A o) l = .ok ws ∧ ∀ x ∈ ws, TypeWord A U x
  | [], _ => ⟨[], rfl, fun _ h => by cases h⟩
  | n :: l, h => by
    obtain ⟨ws, hw, hx⟩ := attrs_words (o := o) (h n List.mem_cons_self)
    obtain ⟨vs, hv, hy⟩ := nodes_words (l := l) fun m hm => h m (List.mem_cons_of_mem _ hm)
    exact ⟨ws ++ vs, by simp only [nodesWords, hw, hv, Res.bind_ok], fun z hz => (List.mem_append.1 hz).elim (hx z) (hy z)⟩

theorem sets_words {U : Prop} : ∀ {l : List NodeGen.NodeSet}, (∀ n ∈ l, Attrs A U n.attrs) →
    ∃ ws, setsWords (nodeProg A o) l = .ok ws ∧ ∀ x ∈ ws, TypeWord A U x
  | [], _ => ⟨[], rfl, fun _ h => by cases h⟩
  | n :: l, h => by
    obtain ⟨ws, hw, hx⟩ := attrs_words (o := o) (h n List.mem_cons_self)
    obtain ⟨vs, hv, hy⟩ := sets_words (l := l) fun m hm => h m (List.mem_cons_of_mem _ hm)
    exact ⟨ws ++ vs, by simp only [setsWords, hw, hv, Res.bind_ok], fun z hz => (List.mem_append.1 hz).elim (hx z) (hy z)⟩

/-- All attributes are well as parameters. -/
def Params (A : Parse.Ast) (U P : Prop) (l : List NodeGen.Attr) : Prop :=
  ∀ x ∈ l, ∃ b a, x = attrGen b ∧ From A a b ∧ (a.type = .user → a.ref.isSome) ∧ (a.type = .user → U ∧ ∀ r, a.ref = some r → UserType A r.orig) ∧
    (P → a.ctor = true → a.type = .link_or_enum → ∀ r ∈ a.ref, (∃ e ∈ A.enums, SameName e.name.orig r.orig) →
      ∃ e ∈ A.enums, e.name.orig = r.orig)

theorem params_words {U P : Prop} : ∀ {l : List NodeGen.Attr}, Params A U P l → ∃ ws, paramsWords l = .ok ws ∧ (P → ∀ x ∈ ws, TypeWord A U x)
  | [], _ => ⟨[], rfl, fun _ _ h => by cases h⟩
  | x :: l, h => by
    obtain ⟨b, a, rfl, hf, h1, h2, h3⟩ := h x List.mem_cons_self
    obtain ⟨ws, hw, hx⟩ := params_words (l := l) fun y hy => h y (List.mem_cons_of_mem _ hy)
    cases hc : (attrGen b).ctor with
    | false => exact ⟨ws, by simp only [paramsWords, hc, hw], hx⟩
    | true =>
      obtain ⟨q, hq, ht⟩ := attr_param hf h1 (P := P) (fun hP => h3 hP (by rw [← hf.kept.ctor]; exact hc))
      refine ⟨typeWords q.ty ++ ws, by simp only [paramsWords, hc, hq, hw, Res.bind_ok], fun hP y hy => ?_⟩
      exact (List.mem_append.1 hy).elim (ty_words (ht hP) h2 y) (hx hP y)

theorem ctors_words {U P : Prop} : ∀ {l : List NodeGen.Node}, (∀ n ∈ l, Params A U P n.attrs) →
    ∃ ws, ctorsWords l = .ok ws ∧ (P → ∀ x ∈ ws, TypeWord A U x)
  | [], _ => ⟨[], rfl, fun _ _ h => by cases h⟩
  | n :: l, h => by
    obtain ⟨ws, hw, hx⟩ := params_words (h n List.mem_cons_self)
    obtain ⟨vs, hv, hy⟩ := ctors_words (l := l) fun m hm => h m (List.mem_cons_of_mem _ hm)
    exact ⟨ws ++ vs, by simp only [ctorsWords, hw, hv, Res.bind_ok], fun hP z hz => (List.mem_append.1 hz).elim (hx hP z) (hy hP z)⟩

theorem TypeWord.mono {U V : Prop} {x : Sym} (h : TypeWord A U x) (hu : U → V) : TypeWord A V x := by
  cases h with
  | node => exact .node
  | basic h => exact .basic h
  | enum h => exact .enum h
  | user h1 h2 => exact .user (hu h1) h2

/-! ### The attributes of a description -/

theorem node_named (hu : UsersNamed A) {k : Nat} {a : Parse.Attr} (h : NodeAttr A k a) (ht : a.type = .user) :
    a.ref.isSome ∧ ∀ r, a.ref = some r → UserType A r.orig := by
  cases h with
  | own h1 h2 =>
    exact ⟨hu.nodes _ (List.mem_of_getElem? h1) a h2 ht, fun r hr => .node (List.mem_of_getElem? h1) h2 ht hr⟩
  | member h1 h2 _ =>
    exact ⟨hu.sets _ (List.mem_of_getElem? h1) a h2 ht, fun r hr => .set (List.mem_of_getElem? h1) h2 ht hr⟩

theorem set_named (hu : UsersNamed A) {k : Nat} {a : Parse.Attr} (h : SetAttr A k a) (ht : a.type = .user) :
    a.ref.isSome ∧ ∀ r, a.ref = some r → UserType A r.orig := by
  cases h with
  | own h1 h2 =>
    exact ⟨hu.sets _ (List.mem_of_getElem? h1) a h2 ht, fun r hr => .set (List.mem_of_getElem? h1) h2 ht hr⟩
  | named h1 h2 _ =>
    exact ⟨hu.sets _ (List.mem_of_getElem? h1) a h2 ht, fun r hr => .set (List.mem_of_getElem? h1) h2 ht hr⟩

theorem seen_set (hs : SetTypesSeen A) {k : Nat} {a : Parse.Attr} (h : SetAttr A k a) (ht : a.type = .user) : UserSeen A := by
  cases h with
  | own h1 h2 => exact hs _ (List.mem_of_getElem? h1) a h2 ht
  | named h1 h2 _ => exact hs _ (List.mem_of_getElem? h1) a h2 ht

theorem seen_node (hs : SetTypesSeen A) {k : Nat} {a : Parse.Attr} (h : NodeAttr A k a) (ht : a.type = .user) : UserSeen A := by
  cases h with
  | own h1 h2 => exact .own (List.mem_of_getElem? h1) h2 ht
  | member h1 h2 _ => exact hs _ (List.mem_of_getElem? h1) a h2 ht

theorem node_attrs (kn : Known A o) (hu : UsersNamed A) {U : Prop} (hU : UserSeen A → U) :
    ∀ n ∈ (nodeProg A o).nodes, Attrs A (SetTypesSeen A → U) n.attrs := by
  intro n hn x hx
  obtain ⟨k, m, hk, rfl⟩ := Described.at_node hn
  obtain ⟨b, hb, rfl⟩ := List.mem_map.1 hx
  obtain ⟨a, ha, hf⟩ := Described.from_node kn hk hb
  exact ⟨b, a, rfl, hf, fun ht => (node_named hu ha ht).1, fun ht => ⟨fun hs => hU (seen_node hs ha ht), (node_named hu ha ht).2⟩⟩

theorem set_attrs (kn : Known A o) (hu : UsersNamed A) {U : Prop} (hU : UserSeen A → U) :
    ∀ n ∈ (nodeProg A o).sets, Attrs A (SetTypesSeen A → U) n.attrs := by
  intro n hn x hx
  obtain ⟨k, m, hk, rfl⟩ := Described.at_set hn
  obtain ⟨b, hb, rfl⟩ := List.mem_map.1 hx
  obtain ⟨a, ha, hf⟩ := Described.from_set kn hk hb
  exact ⟨b, a, rfl, hf, fun ht => (set_named hu ha ht).1, fun ht => ⟨fun hs => hU (seen_set hs ha ht), (set_named hu ha ht).2⟩⟩

theorem node_params (kn : Known A o) (hu : UsersNamed A) {U : Prop} (hU : UserSeen A → U) :
    ∀ n ∈ (nodeProg A o).nodes, Params A (SetTypesSeen A → U) (EnumsAsDeclared A) n.attrs := by
  intro n hn x hx
  obtain ⟨k, m, hk, rfl⟩ := Described.at_node hn
  obtain ⟨b, hb, rfl⟩ := List.mem_map.1 hx
  obtain ⟨a, ha, hf⟩ := Described.from_node kn hk hb
  exact ⟨b, a, rfl, hf, fun ht => (node_named hu ha ht).1, fun ht => ⟨fun hs => hU (seen_node hs ha ht), (node_named hu ha ht).2⟩,
    fun hd => hd k a ha⟩

/-! ### Data of traversals -/

theorem fields_words {U : Prop} (hU : UserSeen A → U) {ws : List TravData.Row} (ht : ws.map (·.t) = Spec.TravData.withData A)
    (hr : ∀ w ∈ ws, TravData.RowOk A w) : ∀ x ∈ fieldsWords (TravData.codeOf ws).structs, TypeWord A U x := by
  intro x hx
  simp only [fieldsWords, TravData.codeOf, List.mem_flatMap, List.mem_map] at hx
  obtain ⟨s, ⟨w, hw, rfl⟩, f, hf, hx⟩ := hx
  obtain ⟨d, hd, h1, _⟩ := (hr w hw).fields.mem_right hf
  have hwt : w.t ∈ A.traversals := by
    have : w.t ∈ Spec.TravData.withData A := ht ▸ List.mem_map.2 ⟨w, hw, rfl⟩
    exact (List.mem_filter.1 this).1
  generalize f.1 = c at h1 hx
  cases h1 with
  | link => rw [List.mem_singleton.1 hx]; exact .node
  | enum e he =>
    obtain ⟨_, _, _, he, _⟩ := he
    rw [List.mem_singleton.1 hx]
    exact .enum he
  | user r h1 h2 =>
    rw [List.mem_singleton.1 hx]
    exact .user (hU (.data hwt hd h1)) (.data hwt hd h1 h2)
  | basic h1 h2 => exact .basic (basic_words hx)

/-- The macro is there. -/
theorem unsafe_of (kn : Known A o) {ws : List TravData.Row} (ht : ws.map (·.t) = Spec.TravData.withData A)
    (hr : ∀ w ∈ ws, TravData.RowOk A w) (h : UserSeen A) : usesUnsafe (nodeProg A o) (TravData.codeOf ws) = true := by
  have byNode : ∀ {k : Nat} {n : Parse.Node} {b : Propagate.Attr}, A.nodes[k]? = some n → b ∈ o.attrs (.node k) → b.type = .user →
      usesUnsafe (nodeProg A o) (TravData.codeOf ws) = true := by
    intro k n b hn hb ht
    rw [usesUnsafe, Bool.or_eq_true, List.any_eq_true]
    refine Or.inl ⟨nodeGen o k n, List.mem_of_getElem? (Described.node_at hn), ?_⟩
    rw [List.any_eq_true]
    exact ⟨attrGen b, List.mem_map.2 ⟨b, hb, rfl⟩, by simp [attrGen, ht]⟩
  cases h with
  | own hn ha hu =>
    rename_i n a
    obtain ⟨k, hk⟩ := List.getElem?_of_mem hn
    obtain ⟨b, hb, hl, hkp⟩ := kn.facts.ownNode k n hk a ha
    refine byNode hk hb ((hkp.typed (Described.ok_node kn.facts.right hn ha) (kn.types.nodes n hn a ha)).user.2 hu)
  | data hx hd hu =>
    rename_i x d
    have : x ∈ Spec.TravData.withData A := List.mem_filter.2 ⟨hx, by
      cases hdd : x.data with
      | nil => rw [hdd] at hd; cases hd
      | cons => simp⟩
    rw [← ht] at this
    obtain ⟨w, hw, rfl⟩ := List.mem_map.1 this
    obtain ⟨f, hf, h1, _⟩ := (hr w hw).fields.mem_left hd
    rw [usesUnsafe, Bool.or_eq_true]
    refine Or.inr (List.any_eq_true.2 ⟨_, List.mem_map.2 ⟨w, hw, rfl⟩, List.any_eq_true.2 ⟨f, hf, ?_⟩⟩)
    generalize f.1 = c at h1
    cases h1 with
    | link h => rw [h.1] at hu; cases hu
    | enum e h => rw [h.1] at hu; cases hu
    | user => rfl
    | basic h => exact absurd hu h
  | attr hn ha hall =>
    rename_i k n a
    obtain ⟨b, hb, hl⟩ := kn.nodeAttrs k (List.getElem?_eq_some_iff.1 hn).1 a ha
    obtain ⟨a', ha', hf⟩ := Described.from_node kn hn hb
    exact byNode hn hb (hf.typed.user.2 (hall a' ha' (lwr_code.1 (hf.like.name.symm.trans hl.name))))

/-- The macro is there for a type of the user. -/
theorem unsafe_user (kn : Known A o) (hu : UsersNamed A) {ws : List TravData.Row} (ht : ws.map (·.t) = Spec.TravData.withData A)
    (hr : ∀ w ∈ ws, TravData.RowOk A w) (h : usesUnsafe (nodeProg A o) (TravData.codeOf ws) = true) : ∃ x, UserType A x := by
  rw [usesUnsafe, Bool.or_eq_true, List.any_eq_true, List.any_eq_true] at h
  rcases h with ⟨n, hn, h⟩ | ⟨s, hs, h⟩
  · obtain ⟨k, m, hk, rfl⟩ := Described.at_node hn
    obtain ⟨x, hx, h⟩ := List.any_eq_true.1 h
    obtain ⟨b, hb, rfl⟩ := List.mem_map.1 hx
    obtain ⟨a, ha, hf⟩ := Described.from_node kn hk hb
    have hbt : b.type = .user := by
      cases hb : b.type with
      | user => rfl
      | link => simp [attrGen, hb] at h
      | linkOrEnum => simp [attrGen, hb] at h
      | basic t =>
        obtain ⟨h1, h2, h3⟩ := hf.typed.basic t hb
        have hty : (attrGen b).type = cType a.type := by simp only [attrGen, hb, h1, Described.basicOf_prim h2 h3]
        rw [hty] at h
        cases ha : a.type <;> simp_all [cType]
    have hat := hf.typed.user.1 hbt
    obtain ⟨r, hr⟩ := Option.isSome_iff_exists.1 (node_named hu ha hat).1
    exact ⟨_, (node_named hu ha hat).2 r hr⟩
  · obtain ⟨w, hw, rfl⟩ := List.mem_map.1 hs
    obtain ⟨f, hf, h⟩ := List.any_eq_true.1 h
    obtain ⟨d, hd, h1, _⟩ := (hr w hw).fields.mem_right hf
    have hwt : w.t ∈ A.traversals := by
      have : w.t ∈ Spec.TravData.withData A := ht ▸ List.mem_map.2 ⟨w, hw, rfl⟩
      exact (List.mem_filter.1 this).1
    generalize f.1 = c at h1 h
    cases h1 with
    | user r h1 h2 => exact ⟨_, .data hwt hd h1 h2⟩
    | link => cases h
    | enum => cases h
    | basic => cases h

/-! ### References -/

theorem sym_node {tab : List (Ste Decl)} (hr : Right A tab) {t : Parse.Name} {i : Nat} (h : symOf tab (code (idOf t).lwr) = some (.node i)) :
    ∃ m, A.nodes[i]? = some m ∧ SameName m.name.orig t.orig := by
  rw [symOf, decode_code] at h
  have key : ∀ {d : Decl}, stFind (idOf t).lwr tab = some d → d = ⟨.node, i⟩ → ∃ m, A.nodes[i]? = some m ∧ SameName m.name.orig t.orig := by
    intro d hd e
    subst e
    exact (hr.table.node t.orig i).1 hd
  cases hd : stFind (idOf t).lwr tab with
  | none => rw [hd] at h; cases h
  | some d =>
    rw [hd] at h
    refine key hd ?_
    obtain ⟨kd, j⟩ := d
    cases kd <;> first | (cases h; rfl) | cases h

theorem sym_set {tab : List (Ste Decl)} (hr : Right A tab) {t : Parse.Name} {i : Nat} (h : symOf tab (code (idOf t).lwr) = some (.set i)) :
    ∃ m, A.nodesets[i]? = some m ∧ SameName m.name.orig t.orig := by
  rw [symOf, decode_code] at h
  have key : ∀ {d : Decl}, stFind (idOf t).lwr tab = some d → d = ⟨.nodeset, i⟩ → ∃ m, A.nodesets[i]? = some m ∧ SameName m.name.orig t.orig := by
    intro d hd e
    subst e
    exact (hr.table.set t.orig i).1 hd
  cases hd : stFind (idOf t).lwr tab with
  | none => rw [hd] at h; cases h
  | some d =>
    rw [hd] at h
    refine key hd ?_
    obtain ⟨kd, j⟩ := d
    cases kd <;> first | (cases h; rfl) | cases h

/-- What the check of equations reads of a node. -/
abbrev nodeD (o : Out) (k : Nat) (n : Parse.Node) : ProductRules.NodeD :=
  ⟨n.children.map fun c => ⟨code (idOf c.name).lwr, code (idOf c.type).lwr⟩, o.attrs (.node k), n.equations.map eqnOf⟩

/-- A reference is to an attribute of the description. -/
theorem ref_of {addr : Loc → Nat} {members : Nat → List Propagate.Entry} {S : Induce.Spec}
    (w : World addr A o.attrs (cprEnv A o.tab o.attrs) members S) (kn : Known A o) {k : Nat} {n : Parse.Node} (hn : A.nodes[k]? = some n)
    {e : Parse.Equation} (he : e ∈ n.equations) {r : Parse.Ref} (hr : r ∈ e.rule :: e.args) :
    ∃ b a, refOf (cprEnv A o.tab o.attrs) (nodeD o k n) (Semantic.refOf r) = .ok b ∧ From A a b ∧ Refers A k n r a := by
  have hnd : nodeD o k n ∈ (cprEnv A o.tab o.attrs).nodes := List.mem_of_getElem? (cpr_node.2 ⟨n, hn, rfl⟩)
  have hok := w.ok _ hnd
  have hee : eqnOf e ∈ (nodeD o k n).eqns := List.mem_map.2 ⟨e, he, rfl⟩
  have href : ∃ c b, Spec.ProductRules.RefersTo (cprEnv A o.tab o.attrs) (nodeD o k n) (Semantic.refOf r) c b := by
    rcases List.mem_cons.1 hr with rfl | hr
    · by_cases hi : (eqnOf e).rule.inode = none
      · obtain ⟨a, h, _⟩ := hok.this _ hee hi
        exact ⟨none, a, h⟩
      · obtain ⟨c, a, h, _⟩ := hok.child _ hee hi
        exact ⟨some c, a, h⟩
    · exact hok.args _ hee _ (List.mem_map.2 ⟨r, hr, rfl⟩)
  obtain ⟨c, b, h⟩ := href
  cases h with
  | this hi hb hbn =>
    obtain ⟨b', hb'⟩ : ∃ b', ProductRules.attrLoop (Semantic.refOf r).iattr (o.attrs (.node k)) = some b' := by
      cases hx : ProductRules.attrLoop (Semantic.refOf r).iattr (o.attrs (.node k)) with
      | none => exact absurd hbn ((ProductRules.attrLoop_spec _ _).2 hx b hb)
      | some b' => exact ⟨b', rfl⟩
    obtain ⟨h1, h2⟩ := (ProductRules.attrLoop_spec _ _).1 b' hb'
    obtain ⟨a, ha, hf⟩ := Described.from_node kn hn h1
    refine ⟨b', a, by simp only [refOf, hi, hb'], hf, .own ?_ ha (lwr_code.1 (hf.like.name.symm.trans h2))⟩
    cases hx : r.node with
    | none => rfl
    | some x => rw [Semantic.refOf, hx] at hi; cases hi
  | child hi hc hl hb hbn =>
    rename_i c l
    obtain ⟨rc, hrc⟩ : ∃ rc, r.node = some rc := by
      cases hx : r.node with
      | none => rw [Semantic.refOf, hx] at hi; cases hi
      | some x => exact ⟨x, rfl⟩
    obtain ⟨c', hc'⟩ : ∃ c', ProductRules.childLoop c.name (nodeD o k n).children = some c' := by
      cases hx : ProductRules.childLoop c.name (nodeD o k n).children with
      | none => exact absurd rfl ((ProductRules.childLoop_spec _ _).2 hx c hc)
      | some c' => exact ⟨c', rfl⟩
    obtain ⟨h1, h2⟩ := (ProductRules.childLoop_spec _ _).1 c' hc'
    have hcc : c' = c := ProductRules.nodup_eq (w.named.children _ hnd) h1 hc h2
    subst hcc
    obtain ⟨t, _, hat⟩ := ProductRules.TypeAttrs.at hl
    obtain ⟨b', hb'⟩ : ∃ b', ProductRules.attrLoop (Semantic.refOf r).iattr l = some b' := by
      cases hx : ProductRules.attrLoop (Semantic.refOf r).iattr l with
      | none => exact absurd hbn ((ProductRules.attrLoop_spec _ _).2 hx b hb)
      | some b' => exact ⟨b', rfl⟩
    obtain ⟨h3, h4⟩ := (ProductRules.attrLoop_spec _ _).1 b' hb'
    obtain ⟨ch, hch, rfl⟩ := List.mem_map.1 hc
    have hname : SameName ch.name.orig rc.orig := by
      rw [Semantic.refOf, hrc] at hi
      exact lwr_code.1 (Option.some.inj hi).symm
    have hres : refOf (cprEnv A o.tab o.attrs) (nodeD o k n) (Semantic.refOf r) = .ok b' := by
      simp only [refOf, hi, hc', hat, Res.bind_ok, hb']
    cases hl with
    | node hlk hnode hleq =>
      rename_i i nd'
      obtain ⟨m, hm, hms⟩ := sym_node kn.facts.right hlk
      obtain ⟨m', hm', rfl⟩ := cpr_node.1 hnode
      cases hm.symm.trans hm'
      obtain ⟨a, ha, hf⟩ := Described.from_node kn hm (hleq ▸ h3)
      exact ⟨b', a, hres, hf, .node rc ch i m hrc hch hname hm hms ha (lwr_code.1 (hf.like.name.symm.trans h4))⟩
    | set hlk hset =>
      rename_i i
      obtain ⟨m, hm, hms⟩ := sym_set kn.facts.right hlk
      obtain ⟨_, rfl⟩ := cpr_set.1 hset
      obtain ⟨a, ha, hf⟩ := Described.from_set kn hm h3
      exact ⟨b', a, hres, hf, .set rc ch i m hrc hch hname hm hms ha (lwr_code.1 (hf.like.name.symm.trans h4))⟩

theorem refers_named (hu : UsersNamed A) {k : Nat} {n : Parse.Node} {r : Parse.Ref} {a : Parse.Attr} (h : Refers A k n r a) (ht : a.type = .user) :
    a.ref.isSome ∧ ∀ r, a.ref = some r → UserType A r.orig := by
  cases h with
  | own _ h => exact node_named hu h ht
  | node _ _ _ _ _ _ _ _ _ h => exact node_named hu h ht
  | set _ _ _ _ _ _ _ _ _ h => exact set_named hu h ht

theorem refers_seen (hs : SetTypesSeen A) {k : Nat} {n : Parse.Node} {r : Parse.Ref} {a : Parse.Attr} (h : Refers A k n r a) (ht : a.type = .user) :
    UserSeen A := by
  cases h with
  | own _ h => exact seen_node hs h ht
  | node _ _ _ _ _ _ _ _ _ h => exact seen_node hs h ht
  | set _ _ _ _ _ _ _ _ _ h => exact seen_set hs h ht

theorem ref_words {addr : Loc → Nat} {members : Nat → List Propagate.Entry} {S : Induce.Spec}
    (w : World addr A o.attrs (cprEnv A o.tab o.attrs) members S) (kn : Known A o) (hu : UsersNamed A) {k : Nat} {n : Parse.Node}
    (hn : A.nodes[k]? = some n) {e : Parse.Equation} (he : e ∈ n.equations) {r : Parse.Ref} (hr : r ∈ e.rule :: e.args) :
    ∃ ws b a c, refWords (nodeProg A o) (cprEnv A o.tab o.attrs) (nodeD o k n) (Semantic.refOf r) = .ok ws ∧
      refOf (cprEnv A o.tab o.attrs) (nodeD o k n) (Semantic.refOf r) = .ok b ∧ From A a b ∧ Refers A k n r a ∧ TyOf A a c ∧ ws = typeWords c := by
  obtain ⟨b, a, h1, hf, hra⟩ := ref_of w kn hn he hr
  obtain ⟨c, hc, ht⟩ := attr_type (o := o) hf fun ht => (refers_named hu hra ht).1
  exact ⟨typeWords c, b, a, c, by simp only [refWords, h1, hc, Res.bind_ok], h1, hf, hra, ht, rfl⟩

/-- The words of a type without links. -/
inductive PlainWord (A : Parse.Ast) (U : Prop) : Sym → Prop where
  | basic {x : Sym} : x ∈ basics → PlainWord A U x
  | enum {e : Parse.Enum} : e ∈ A.enums → PlainWord A U (.tag e.name.orig)
  | user {r : CStr} : U → UserType A r → PlainWord A U (.word r)

theorem plain_words {U : Prop} (hU : UserSeen A → U) (hs : SetTypesSeen A) (hu : UsersNamed A) {k : Nat} {n : Parse.Node} {r : Parse.Ref}
    {a : Parse.Attr} (hr : Refers A k n r a) {c : CTy} (hc : TyOf A a c) (hl : ¬ IsLink A a) : ∀ x ∈ typeWords c, PlainWord A U x := by
  intro x hx
  cases hc with
  | link h => exact absurd h hl
  | enum _ he _ _ => rw [List.mem_singleton.1 hx]; exact .enum he
  | user h1 h2 => rw [List.mem_singleton.1 hx]; exact .user (hU (refers_seen hs hr h1)) ((refers_named hu hr h1).2 _ h2)
  | basic => exact .basic (basic_words hx)

end

end Verif.GenFiles
