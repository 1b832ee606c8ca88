import Verif.Spec.TravData
import Verif.Lemmas.Described
import Verif.Lemmas.Compiled
import Verif.Lemmas.EnumHeader
import Verif.Lemmas.NodeGenHeader

/-!
# Lemmas about the data of traversals
-/

namespace Verif.TravData
open Verif.Str Verif.Ids Verif.Semantic
open Verif.Spec.Str (lowerB upperB SameName)
open Verif.Spec.Ids
open Verif.Spec.Semantic (Pairs NodeAttr SetAttr TypesNamed)
open Verif.Spec.CheckExist (AttrFilled AllPairs Filled Sound Denotes)
open Verif.Spec.NodeGen (cWords)
open Verif.Spec.TravData
open Verif.NodeGen (AT CTy Rhs keywords twice FMTattributeDefaultVal FMTattributeTypeToString origOf)
open Verif.Trav (Addr Ptr Val St Env)

/-! ### One datum -/

theorem tag_eq (t : Parse.Traversal) : sDataU ++ t.uid.orig.map lowerB = tag t := by
  rw [tag, show "data_".toUTF8.toList = sDataU by decide +kernel]

theorem getter_eq (t : Parse.Traversal) : sDATA ++ t.uid.orig.map upperB ++ sGET = getter t := by
  rw [getter, show "DATA_".toUTF8.toList = sDATA by decide +kernel, show "_GET".toUTF8.toList = sGET by decide +kernel]

theorem init_eq (t : Parse.Traversal) : t.uid.orig.map upperB ++ Declared.sInit = initName t := by
  rw [initName, show "init".toUTF8.toList = Declared.sInit by decide +kernel]

theorem fini_eq (t : Parse.Traversal) : t.uid.orig.map upperB ++ Declared.sFini = finiName t := by
  rw [finiName, show "fini".toUTF8.toList = Declared.sFini by decide +kernel]

/-- What is generated for a datum of the description. -/
structure Good (A : Parse.Ast) (I : Input) (d : Parse.TravData) (x : Datum) : Prop where
  name : x.name = idOf d.name
  field : ∃ f, fieldOf I x = .ok f ∧ FieldAs A d f
  rhs : ∃ r, rhsOf x = .ok r ∧ Empty A d (valueOf r)

section
variable {A : Parse.Ast} {tab : List (Ste Decl)} {q : CheckExist.Prog}

theorem enum_at {r : Id} (hb : BSTast (progOf A).ids = .ok tab) (hw : WfId r) (h : Denotes (progOf A) r .enum) :
    ∃ e, e ∈ A.enums ∧ SameName e.name.orig r.orig ∧ enumName (inputOf A tab q) (some r) = .ok e.name.orig := by
  obtain ⟨x, hx, hn, hk⟩ := h
  have h1 := declared_enum hx hk
  simp only [CheckExist.Prog.ids, progOf, List.map_map, List.getElem?_map, Option.map_eq_some_iff, Function.comp] at h1
  obtain ⟨m, h1, h2⟩ := h1
  have h3 := (table_key hb r.orig x.2).2 ⟨x, hx, hn, rfl⟩
  refine ⟨m, List.mem_of_getElem? h1, by rw [← h2] at hn; exact hn, ?_⟩
  simp only [enumName, STlookup, inputOf, hw.1, h3, Res.bind_ok, hk, List.getElem?_map, h1, Option.map_some]
  rfl

theorem den_node {r : Id} : Denotes (progOf A) r .node → ∃ n ∈ A.nodes, SameName n.name.orig r.orig := fun h => by
  obtain ⟨_, m, h1, h2⟩ := denotes_node h
  exact ⟨m, List.mem_of_getElem? h1, h2⟩

theorem den_set {r : Id} : Denotes (progOf A) r .nodeset → ∃ n ∈ A.nodesets, SameName n.name.orig r.orig := fun h => by
  obtain ⟨_, m, h1, h2⟩ := denotes_set h
  exact ⟨m, List.mem_of_getElem? h1, h2⟩

/-- A name of an enumeration is not that of a node or nodeset. -/
theorem enum_link (hr : Right A tab) {d : Parse.TravData} {r : Parse.Name} (hd : d.ref = some r) (h : Denotes (progOf A) (idOf r) .enum) :
    ¬ Link A d := by
  rintro ⟨_, r', h1, h2⟩
  cases hd.symm.trans h1
  obtain ⟨x, hx, hn, hk⟩ := h
  have h3 := (table_key hr.bst r.orig x.2).2 ⟨x, hx, hn, rfl⟩
  rcases h2 with ⟨n, hn, hs⟩ | ⟨n, hn, hs⟩
  · obtain ⟨k, hk'⟩ := List.getElem?_of_mem hn
    have := (hr.table.node r.orig k).2 ⟨n, hk', hs⟩
    rw [h3] at this
    have e := congrArg Decl.kind (Option.some.inj this)
    rw [hk] at e
    cases e
  · obtain ⟨k, hk'⟩ := List.getElem?_of_mem hn
    have := (hr.table.set r.orig k).2 ⟨n, hk', hs⟩
    rw [h3] at this
    have e := congrArg Decl.kind (Option.some.inj this)
    rw [hk] at e
    cases e

theorem type_link {t : Parse.AT} : typeOf t = .linkOrEnum ↔ t = .link_or_enum := by cases t <;> simp [typeOf]

theorem datum_ok (hr : Right A tab) {d : Parse.TravData} {c : CheckExist.Attr} (hf : AttrFilled (progOf A) (dataOf d) c)
    (hok : Spec.CheckExist.AttrOk (progOf A) (dataOf d)) (hl : d.type = .link_or_enum → d.ref.isSome) (hu : d.type = .user → d.ref.isSome) :
    Good A (inputOf A tab q) d (datumOf d c) := by
  obtain ⟨hn, href, h1, h2⟩ := hf
  by_cases hle : d.type = .link_or_enum
  · obtain ⟨r, hr'⟩ := Option.isSome_iff_exists.1 (hl hle)
    have hmem : idOf r ∈ (dataOf d).ref := by simp [dataOf, hr']
    have ht : (dataOf d).type = .linkOrEnum := type_link.2 hle
    obtain ⟨f1, f2⟩ := h2 ht _ hmem
    have link : Link A d → c.type = .link → Good A (inputOf A tab q) d (datumOf d c) := by
      intro hL hc
      refine ⟨rfl, ⟨(.nodePtr, d.name.orig), ?_, .link hL, rfl⟩, ⟨.null, ?_, .link hL⟩⟩
      · simp [fieldOf, datumOf, hc, idOf]
      · simp [rhsOf, datumOf, hc, FMTattributeDefaultVal]
    rcases hok ht _ hmem with h3 | h3 | h3
    · exact link ⟨hle, r, hr', Or.inl (den_node h3)⟩ (f1 (Or.inl h3))
    · exact link ⟨hle, r, hr', Or.inr (den_set h3)⟩ (f1 (Or.inr h3))
    · obtain ⟨e, he, hs, hen⟩ := enum_at (q := q) hr.bst (⟨rfl, rfl⟩ : WfId (idOf r)) h3
      have hc := f2 h3
      refine ⟨rfl, ⟨(.enum e.name.orig, d.name.orig), ?_, .enum e ⟨hle, r, hr', he, hs⟩, rfl⟩, ⟨.zero, ?_, .other (enum_link hr hr' h3) ?_⟩⟩
      · simp only [fieldOf, datumOf, hc, hr', Option.map_some, hen, Res.bind_ok]
        rfl
      · simp [rhsOf, datumOf, hc, FMTattributeDefaultVal]
      · rw [hle]; decide
  · have ht : (dataOf d).type ≠ .linkOrEnum := fun e => hle (type_link.1 e)
    have hc := h1 ht
    have nl : ¬ Link A d := fun h => hle h.1
    by_cases hus : d.type = .user
    · obtain ⟨r, hr'⟩ := Option.isSome_iff_exists.1 (hu hus)
      have hc' : c.type = .user := by rw [hc]; simp [dataOf, hus, typeOf]
      refine ⟨rfl, ⟨(.named r.orig, d.name.orig), ?_, .user r hus hr', rfl⟩, ⟨.zero, ?_, .other nl (by rw [hus]; decide)⟩⟩
      · simp [fieldOf, datumOf, hc', hr', origOf, Res.bind_ok, idOf]
      · simp [rhsOf, datumOf, hc']
    · have hc' : c.type = .prim := by
        rw [hc]
        show typeOf d.type = _
        cases hd : d.type <;> first | rfl | exact absurd hd hle | exact absurd hd hus
      have hty : (datumOf d c).type = Spec.Described.cType d.type := by
        simp only [datumOf, hc']
        exact Described.basicOf_prim hus hle
      refine ⟨rfl, ⟨(.basic (Spec.Described.cType d.type), d.name.orig), ?_, .basic hus hle, rfl⟩, ?_⟩
      · simp only [fieldOf, hty]
        cases hd : d.type <;> first | exact absurd hd hle | exact absurd hd hus |
          simp [Spec.Described.cType, FMTattributeTypeToString, Res.bind_ok, datumOf, idOf]
      · simp only [rhsOf, hty]
        cases hd : d.type <;> first
          | exact absurd hd hle
          | exact absurd hd hus
          | exact ⟨_, rfl, .string hd⟩
          | exact ⟨_, rfl, .other nl (by rw [hd]; decide)⟩

/-! ### All data -/

theorem zip_data (hr : Right A tab) : ∀ {ds : List Parse.TravData} {cs : List CheckExist.Attr},
    AllPairs (AttrFilled (progOf A)) (ds.map dataOf) cs → (∀ d ∈ ds, Spec.CheckExist.AttrOk (progOf A) (dataOf d)) →
    (∀ d ∈ ds, d.type = .link_or_enum → d.ref.isSome) → (∀ d ∈ ds, d.type = .user → d.ref.isSome) →
    Pairs (Good A (inputOf A tab q)) ds (List.zipWith datumOf ds cs)
  | [], _, _, _, _, _ => by rw [List.zipWith_nil_left]; exact .nil
  | d :: ds, _, h, h1, h2, h3 => by
    cases h with
    | cons ha hb =>
      rw [List.zipWith_cons_cons]
      exact .cons (datum_ok hr ha (h1 d (List.mem_cons_self ..)) (h2 d (List.mem_cons_self ..)) (h3 d (List.mem_cons_self ..)))
        (zip_data hr hb (fun x hx => h1 x (List.mem_cons_of_mem _ hx)) (fun x hx => h2 x (List.mem_cons_of_mem _ hx))
          (fun x hx => h3 x (List.mem_cons_of_mem _ hx)))

/-- What is known of a traversal of the input. -/
structure GoodT (A : Parse.Ast) (I : Input) (t : Parse.Traversal) (x : Trav) : Prop where
  name : x.name = idOf t.name
  uid : x.uid = idOf t.uid
  data : Pairs (Good A I) t.data x.data

theorem zip_travs (hr : Right A tab) (hp : TypesNamed A) (hu : UserNamed A) (hf : Filled (progOf A) q) :
    Pairs (GoodT A (inputOf A tab q)) A.traversals (inputOf A tab q).travs := by
  have hd : ∀ t ∈ A.traversals, ∀ d ∈ t.data, Spec.CheckExist.AttrOk (progOf A) (dataOf d) := by
    intro t ht d hd
    exact (hr.sound.travData _ (List.mem_map.2 ⟨t, ht, rfl⟩)).2 _ (List.mem_map.2 ⟨d, hd, rfl⟩)
  have key : ∀ {ts : List Parse.Traversal} {cs : List CheckExist.Traversal},
      AllPairs (fun t t' => t'.name = t.name ∧ t'.uid = t.uid ∧ t'.nodes = t.nodes ∧ AllPairs (AttrFilled (progOf A)) t.data t'.data)
        (ts.map fun t => ⟨idOf t.name, some (idOf t.uid), t.nodes.map exprOf, t.data.map dataOf⟩) cs → (∀ t ∈ ts, t ∈ A.traversals) →
      Pairs (GoodT A (inputOf A tab q)) ts (List.zipWith travOf ts cs) := by
    intro ts
    induction ts with
    | nil => intro cs _ _; rw [List.zipWith_nil_left]; exact .nil
    | cons t ts ih =>
      intro cs h hm
      cases h with
      | cons ha hb =>
        rw [List.zipWith_cons_cons]
        have ht := hm t (List.mem_cons_self ..)
        exact .cons ⟨rfl, rfl, zip_data hr ha.2.2.2 (hd t ht) (hp.data t ht) (hu t ht)⟩ (ih hb fun x hx => hm x (List.mem_cons_of_mem _ hx))
  exact key hf.traversals fun _ h => h

/-- What is generated for a traversal with data. -/
structure Row where
  t : Parse.Traversal
  fields : List Field
  rhs : List Rhs

/-- The row is right. -/
structure RowOk (A : Parse.Ast) (w : Row) : Prop where
  fields : Pairs (FieldAs A) w.t.data w.fields
  rhs : Pairs (Spec.TravData.Empty A) w.t.data (w.rhs.map valueOf)

/-- The constructor of a row. -/
def initF (w : Row) : Func :=
  ⟨Tables.sData true ++ w.t.name.orig, .alloc (w.t.name.orig.map lowerB) (tag w.t) :: .bind (tag w.t) (w.t.name.orig.map lowerB) ::
    (List.zipWith (fun d r => .set d.name.orig r) w.t.data w.rhs ++ [.call (initName w.t)])⟩

/-- The destructor of a row. -/
def finiF (w : Row) : Func :=
  ⟨Tables.sData false ++ w.t.name.orig, [.call (finiName w.t), .free (w.t.name.orig.map lowerB)]⟩

/-- The code for the rows. -/
def codeOf (ws : List Row) : Code where
  structs := ws.map fun w => ⟨tag w.t, w.fields⟩
  union := ws.map fun w => ⟨tag w.t, w.t.name.orig.map lowerB⟩
  getters := ws.map fun w => ⟨getter w.t, w.t.name.orig.map lowerB⟩
  funcs := ws.flatMap fun w => [initF w, finiF w]

theorem data_gen {I : Input} {ds : List Parse.TravData} {xs : List Datum} (h : Pairs (Good A I) ds xs) :
    ∃ fs rs, DGTDSitravdata I xs = .ok fs ∧ DGTDCitravdata xs = .ok (List.zipWith (fun d r => .set d.name.orig r) ds rs) ∧
      Pairs (FieldAs A) ds fs ∧ Pairs (Spec.TravData.Empty A) ds (rs.map valueOf) := by
  induction h with
  | nil => exact ⟨[], [], rfl, rfl, .nil, .nil⟩
  | cons h _ ih =>
    rename_i d x ds xs _
    obtain ⟨fs, rs, h1, h2, h3, h4⟩ := ih
    obtain ⟨f, hf, hfa⟩ := h.field
    obtain ⟨r, hr, hra⟩ := h.rhs
    refine ⟨f :: fs, r :: rs, ?_, ?_, .cons hfa h3, .cons hra h4⟩
    · simp only [DGTDSitravdata, hf, h1, Res.bind_ok]
    · rw [DGTDCitravdata, hr, h2]
      simp only [Res.bind_ok, List.zipWith_cons_cons, h.name]
      rfl

theorem lower_id (n : Parse.Name) : (idOf n).lwr = n.orig.map lowerB := rfl
theorem upper_id (n : Parse.Name) : (idOf n).upr = n.orig.map upperB := rfl

theorem rows_gen {I : Input} {ts : List Parse.Traversal} {xs : List Trav} (h : Pairs (GoodT A I) ts xs) :
    ∃ ws : List Row, ws.map (·.t) = ts.filter (fun t => decide (t.data ≠ [])) ∧ (∀ w ∈ ws, RowOk A w) ∧
      DGTDSitraversal I xs = .ok (codeOf ws).structs ∧ DGTDUitraversal xs = (codeOf ws).union ∧ DGTDGitraversal xs = (codeOf ws).getters ∧
      DGTDCitraversal xs = .ok (codeOf ws).funcs := by
  induction h with
  | nil => exact ⟨[], rfl, by simp, rfl, rfl, rfl, rfl⟩
  | cons h _ ih =>
    rename_i t x ts xs _
    obtain ⟨ws, h1, h2, h3, h4, h5, h6⟩ := ih
    obtain ⟨fs, rs, g1, g2, g3, g4⟩ := data_gen h.data
    have hd := h.data
    cases hx : x.data with
    | nil =>
      rw [hx] at hd
      have : t.data = [] := by
        cases ht : t.data with
        | nil => rfl
        | cons a l => rw [ht] at hd; cases hd
      refine ⟨ws, ?_, h2, ?_, ?_, ?_, ?_⟩
      · simp [this, h1]
      · simp only [DGTDSitraversal, hx, h3]
      · simp only [DGTDUitraversal, hx, h4]
      · simp only [DGTDGitraversal, hx, h5]
      · simp only [DGTDCitraversal, hx, h6]
    | cons y ys =>
      have ht : t.data ≠ [] := by
        intro e
        rw [e, hx] at hd
        cases hd
      rw [hx] at g1 g2
      refine ⟨⟨t, fs, rs⟩ :: ws, ?_, ?_, ?_, ?_, ?_, ?_⟩
      · rw [List.map_cons, h1, List.filter_cons_of_pos (by simpa using ht)]
      · intro w hw
        rcases List.mem_cons.1 hw with rfl | hw
        · exact ⟨g3, g4⟩
        · exact h2 w hw
      · simp only [DGTDSitraversal, hx, g1, h3, Res.bind_ok, h.uid, lower_id, codeOf, List.map_cons, tag_eq]
      · simp only [DGTDUitraversal, hx, h4, h.uid, h.name, lower_id, codeOf, List.map_cons, tag_eq]
      · simp only [DGTDGitraversal, hx, h5, h.uid, h.name, lower_id, upper_id, codeOf, List.map_cons, getter_eq]
      · simp only [DGTDCitraversal, hx, g2, h6, Res.bind_ok, h.uid, h.name, lower_id, upper_id, codeOf, List.flatMap_cons, tag_eq, init_eq, fini_eq]
        rfl

/-! ### Compilation -/

theorem pairwise_of_inj {α β : Type} {l : List α} {f : α → β} (h : ∀ (i j : Nat) a b, l[i]? = some a → l[j]? = some b → f a = f b → i = j) :
    (l.map f).Pairwise (· ≠ ·) := by
  rw [List.pairwise_map, List.pairwise_iff_getElem]
  intro i j hi hj hij e
  have := h i j _ _ (List.getElem?_eq_getElem hi) (List.getElem?_eq_getElem hj) e
  omega

theorem pairwise_filter {α β : Type} {l : List α} {p : α → Bool} {f : α → β} (h : (l.map f).Pairwise (· ≠ ·)) :
    ((l.filter p).map f).Pairwise (· ≠ ·) := h.sublist ((List.filter_sublist).map f)

theorem tag_inj {t u : Parse.Traversal} : tag t = tag u ↔ SameName t.uid.orig u.uid.orig := by
  rw [tag, tag, List.append_cancel_left_eq]
  rfl

theorem upper_same {a b : Parse.Name} : a.orig.map upperB = b.orig.map upperB ↔ SameName a.orig b.orig := Compiled.upr_iff

theorem getter_inj {t u : Parse.Traversal} : getter t = getter u ↔ SameName t.uid.orig u.uid.orig := by
  rw [getter, getter, List.append_cancel_right_eq, List.append_cancel_left_eq, upper_same]

/-- Names of the traversals with data are different. -/
structure Different (A : Parse.Ast) : Prop where
  tags : ((withData A).map tag).Pairwise (· ≠ ·)
  names : ((withData A).map fun t => t.name.orig.map lowerB).Pairwise (· ≠ ·)
  getters : ((withData A).map getter).Pairwise (· ≠ ·)

theorem different (hr : Right A tab) : Different A :=
  ⟨pairwise_filter (pairwise_of_inj fun _ _ _ _ ha hb e => Compiled.uid_inj hr ha hb (tag_inj.1 e)),
    pairwise_filter (pairwise_of_inj fun _ _ _ _ ha hb e => Compiled.trav_inj hr ha hb e),
    pairwise_filter (pairwise_of_inj fun _ _ _ _ ha hb e => Compiled.uid_inj hr ha hb (getter_inj.1 e))⟩

theorem union_eq : "TRAV_DATA".toUTF8.toList = sUnion := by decide +kernel

theorem tag_head (t : Parse.Traversal) : ∃ l, tag t = 100 :: l := ⟨_, (tag_eq t).symm⟩

theorem tag_union (t : Parse.Traversal) : tag t ≠ sUnion := by
  obtain ⟨l, h⟩ := tag_head t
  rw [h]
  exact fun e => by injection e with e _; revert e; decide

theorem tag_own (t : Parse.Traversal) : tag t ∉ Spec.EnumHeader.ownTags := by
  obtain ⟨l, h⟩ := tag_head t
  rw [h]
  intro hm
  simp [Spec.EnumHeader.ownTags] at hm

theorem getter_head (t : Parse.Traversal) : ∃ l, getter t = 68 :: l := ⟨_, (getter_eq t).symm⟩

theorem base_head : ∀ m ∈ NodeGen.baseMacros, ∃ l, m.name = 78 :: l := by
  simp [NodeGen.baseMacros]

theorem macro_name (n : Id) (a : NodeGen.Attr) : (NodeGen.DGNMattribute n a).name = n.upr ++ 95 :: a.name.upr := by
  unfold NodeGen.DGNMattribute
  split <;> simp [NodeGen.sU]

/-- The macros of `ast.h` that can be those of a traversal. -/
theorem macro_mem {o : Out} (kn : Described.Known A o) (t : Parse.Traversal) :
    getter t ∈ (NodeGen.macros (Described.nodeProg A o)).map (·.name) ↔
      (∃ n ∈ A.nodes, ∃ c ∈ n.children, access n.name c.name = getter t) ∨
      (∃ (k : Nat) (n : Parse.Node), A.nodes[k]? = some n ∧ ∃ a, NodeAttr A k a ∧ access n.name a.name = getter t) ∨
      (∃ (k : Nat) (s : Parse.NodeSet), A.nodesets[k]? = some s ∧ ∃ a, SetAttr A k a ∧ access s.name a.name = getter t) := by
  simp only [NodeGen.macros, List.map_append, List.mem_append, List.mem_map, List.mem_flatMap]
  constructor
  · rintro ((⟨m, ⟨x, hx, hm⟩, e⟩ | ⟨m, ⟨x, hx, hm⟩, e⟩) | ⟨m, hm, e⟩)
    · obtain ⟨k, n, hn, rfl⟩ := Described.at_node hx
      simp only [NodeGen.DGNMinode, List.mem_append, List.mem_map] at hm
      rcases hm with ⟨c, hc, rfl⟩ | ⟨y, hy, rfl⟩
      · obtain ⟨c, hcm, rfl⟩ := List.mem_map.1 hc
        refine Or.inl ⟨n, List.mem_of_getElem? hn, c, hcm, ?_⟩
        rw [← e, access]
        simp [NodeGen.DGNMchild, NodeGen.sU, Described.nodeGen, upper_id]
      · obtain ⟨b, hb, rfl⟩ := List.mem_map.1 hy
        obtain ⟨a, hna, hf⟩ := Described.from_node kn hn hb
        refine Or.inr (Or.inl ⟨k, n, hn, a, hna, ?_⟩)
        rw [← e, macro_name, Described.gen_name hf]
        rfl
    · obtain ⟨k, n, hn, rfl⟩ := Described.at_set hx
      simp only [NodeGen.DGNMinodeset, List.mem_map] at hm
      obtain ⟨y, hy, rfl⟩ := hm
      obtain ⟨b, hb, rfl⟩ := List.mem_map.1 hy
      obtain ⟨a, hna, hf⟩ := Described.from_set kn hn hb
      refine Or.inr (Or.inr ⟨k, n, hn, a, hna, ?_⟩)
      rw [← e, macro_name, Described.gen_name hf]
      rfl
    · obtain ⟨l, hl⟩ := base_head m hm
      obtain ⟨l', hl'⟩ := getter_head t
      rw [hl, hl'] at e
      injection e with e _
      exact absurd e (by decide)
  · rintro (⟨n, hn, c, hc, e⟩ | ⟨k, n, hn, a, hna, e⟩ | ⟨k, n, hn, a, hna, e⟩)
    · obtain ⟨k, hk⟩ := List.getElem?_of_mem hn
      refine Or.inl (Or.inl ⟨_, ⟨_, List.mem_of_getElem? (Described.node_at (o := o) hk), List.mem_append_left _
        (List.mem_map.2 ⟨_, List.mem_map.2 ⟨c, hc, rfl⟩, rfl⟩)⟩, ?_⟩)
      rw [← e, access]
      simp [NodeGen.DGNMchild, NodeGen.sU, Described.nodeGen, upper_id]
    · obtain ⟨b, hb, hl⟩ := kn.nodeAttrs k (List.getElem?_eq_some_iff.1 hn).1 a hna
      obtain ⟨a', _, hf⟩ := Described.from_node kn hn hb
      refine Or.inl (Or.inl ⟨_, ⟨_, List.mem_of_getElem? (Described.node_at (o := o) hn), List.mem_append_right _
        (List.mem_map.2 ⟨_, List.mem_map.2 ⟨b, hb, rfl⟩, rfl⟩)⟩, ?_⟩)
      rw [macro_name, ← e, access, ← Described.upper_of_same (Described.gen_same hf hl), Described.gen_name hf]
      rfl
    · obtain ⟨b, hb, hl⟩ := kn.setAttrs k (List.getElem?_eq_some_iff.1 hn).1 a hna
      obtain ⟨a', _, hf⟩ := Described.from_set kn hn hb
      refine Or.inl (Or.inr ⟨_, ⟨_, List.mem_of_getElem? (Described.set_at (o := o) hn),
        (List.mem_map.2 ⟨_, List.mem_map.2 ⟨b, hb, rfl⟩, rfl⟩)⟩, ?_⟩)
      rw [macro_name, ← e, access, ← Described.upper_of_same (Described.gen_same hf hl), Described.gen_name hf]
      rfl

/-- The names of the fields of a row. -/
theorem row_fields {w : Row} (h : RowOk A w) : w.fields.map (·.2) = w.t.data.map (·.name.orig) :=
  h.fields.map_eq _ _ fun _ _ h => h.2

theorem data_distinct (hr : Right A tab) {t : Parse.Traversal} (ht : t ∈ A.traversals) :
    (t.data.map (·.name.orig)).Pairwise (· ≠ ·) := by
  have := (hr.sound.travData _ (List.mem_map.2 ⟨t, ht, rfl⟩)).1
  simp only [Spec.CheckExist.Distinct, List.map_map, List.pairwise_map] at this
  rw [List.pairwise_map]
  exact this.imp fun h e => h (by
    show SameName _ _
    simp only [Function.comp, dataOf, idOf, e]
    rfl)

theorem any_false {l : List CStr} {m : List CStr} : l.any m.contains = false ↔ ∀ x ∈ l, x ∉ m := by
  simp [List.any_eq_false]

theorem mem_rows {ws : List Row} (hw : ws.map (·.t) = withData A) {w : Row} (h : w ∈ ws) : w.t ∈ withData A := by
  rw [← hw]
  exact List.mem_map.2 ⟨w, h, rfl⟩

theorem mem_data {t : Parse.Traversal} (h : t ∈ withData A) : t ∈ A.traversals ∧ t.data ≠ [] := by
  simpa [withData] using h

theorem compile_iff {o : Out} (kn : Described.Known A o) {ws : List Row} (hw : ws.map (·.t) = withData A) (hok : ∀ w ∈ ws, RowOk A w) :
    (∃ c, compile ((EnumHeader.header A).map (·.1)) ((NodeGen.macros (Described.nodeProg A o)).map (·.name)) (codeOf ws) = .ok c) ↔
      Spec.TravData.Clear A := by
  have df := different kn.facts.right
  have e1 : (codeOf ws).structs.map (·.tag) = (withData A).map tag := by
    rw [← hw]; simp [codeOf, List.map_map, Function.comp_def]
  have e2 : (codeOf ws).union.map (·.name) = (withData A).map fun t => t.name.orig.map lowerB := by
    rw [← hw]; simp [codeOf, List.map_map, Function.comp_def]
  have e3 : (codeOf ws).getters.map (·.name) = (withData A).map getter := by
    rw [← hw]; simp [codeOf, List.map_map, Function.comp_def]
  have t1 : twice ((codeOf ws).structs.map (·.tag) ++ [sUnion]) = false := by
    rw [Verif.Spec.NodeGen.twice_false, e1, List.pairwise_append]
    refine ⟨df.tags, List.pairwise_singleton .., ?_⟩
    intro a ha b hb
    obtain ⟨t, _, rfl⟩ := List.mem_map.1 ha
    rw [List.mem_singleton.1 hb]
    exact tag_union t
  have t2 : twice ((codeOf ws).union.map (·.name)) = false := by rw [Verif.Spec.NodeGen.twice_false, e2]; exact df.names
  have t3 : twice ((codeOf ws).getters.map (·.name)) = false := by rw [Verif.Spec.NodeGen.twice_false, e3]; exact df.getters
  have c1 : ((codeOf ws).structs.map (·.tag) ++ [sUnion]).any ((EnumHeader.header A).map (·.1)).contains = false ↔
      (∀ e ∈ A.enums, e.name.orig ≠ "TRAV_DATA".toUTF8.toList) ∧ ∀ e ∈ A.enums, ∀ t ∈ withData A, e.name.orig ≠ tag t := by
    rw [any_false, EnumHeader.header_tags, e1, union_eq]
    simp only [List.mem_append, List.mem_singleton, List.mem_map]
    constructor
    · intro h
      refine ⟨fun e he hh => h sUnion (Or.inr rfl) (Or.inr ⟨e, he, hh⟩), fun e he t ht hh => h _ (Or.inl ⟨t, ht, rfl⟩) (Or.inr ⟨e, he, hh⟩)⟩
    · rintro ⟨h1, h2⟩ x (⟨t, ht, rfl⟩ | rfl) (hx | ⟨e, he, hx⟩)
      · exact tag_own t hx
      · exact h2 e he t ht hx
      · revert hx; decide
      · exact h1 e he hx
  have c2 : (codeOf ws).structs.all (structOk ((EnumHeader.header A).map (·.1))) = true ↔ ∀ t ∈ withData A, ∀ d ∈ t.data, d.name.orig ∉ cWords := by
    have one : ∀ w ∈ ws, structOk ((EnumHeader.header A).map (·.1)) ⟨tag w.t, w.fields⟩ = true ↔ ∀ d ∈ w.t.data, d.name.orig ∉ cWords := by
      intro w hmw
      have hr := hok w hmw
      have hty : w.fields.all (fun f => typeKnown ((EnumHeader.header A).map (·.1)) f.1) = true := by
        rw [List.all_eq_true]
        intro f hf
        obtain ⟨d, _, hd, _⟩ := hr.fields.mem_right hf
        generalize f.1 = ty at hd ⊢
        cases hd with
        | link => rfl
        | enum e he =>
          show List.contains _ _ = true
          rw [EnumHeader.header_tags]
          obtain ⟨_, _, _, he, _⟩ := he
          simp only [List.contains_iff_mem, List.mem_append, List.mem_map]
          exact Or.inr ⟨e, he, rfl⟩
        | user => rfl
        | basic => rfl
      have htw : twice (w.t.data.map (·.name.orig)) = false := by
        rw [Verif.Spec.NodeGen.twice_false]
        exact data_distinct kn.facts.right (mem_data (mem_rows hw hmw)).1
      rw [structOk, row_fields hr, htw, hty]
      simp only [Bool.not_false, Bool.true_and, Bool.and_true, Bool.not_eq_true', any_false, ← Verif.Spec.NodeGen.cWords_eq]
      simp
    simp only [List.all_eq_true, codeOf, List.mem_map]
    constructor
    · intro h t ht
      rw [← hw] at ht
      obtain ⟨w, hmw, rfl⟩ := List.mem_map.1 ht
      exact (one w hmw).1 (h _ ⟨w, hmw, rfl⟩)
    · rintro h _ ⟨w, hmw, rfl⟩
      exact (one w hmw).2 (h _ (mem_rows hw hmw))
  have c3 : ((codeOf ws).union.map (·.name)).any keywords.contains = false ↔ ∀ t ∈ withData A, t.name.orig.map lowerB ∉ cWords := by
    rw [any_false, e2, Verif.Spec.NodeGen.cWords_eq]
    simp
  have c4 : ((codeOf ws).getters.map (·.name)).any ((NodeGen.macros (Described.nodeProg A o)).map (·.name)).contains = false ↔
      ∀ t ∈ withData A, getter t ∉ (NodeGen.macros (Described.nodeProg A o)).map (·.name) := by
    rw [any_false, e3]
    simp
  constructor
  · rintro ⟨c, hc⟩
    unfold compile at hc
    rw [t1, t2, t3] at hc
    simp only [Bool.false_or] at hc
    split at hc
    · cases hc
    · rename_i h1
      split at hc
      · cases hc
      · rename_i h2
        split at hc
        · cases hc
        · rename_i h3
          split at hc
          · cases hc
          · rename_i h4
            obtain ⟨x1, x2⟩ := c1.1 h1
            have x4 := c4.1 h4
            refine ⟨x1, x2, c2.1 h2, c3.1 h3, ?_, ?_, ?_⟩
            · exact fun n hn c hc t ht e => x4 t ht ((macro_mem kn t).2 (Or.inl ⟨n, hn, c, hc, e⟩))
            · exact fun k n hn a ha t ht e => x4 t ht ((macro_mem kn t).2 (Or.inr (Or.inl ⟨k, n, hn, a, ha, e⟩)))
            · exact fun k n hn a ha t ht e => x4 t ht ((macro_mem kn t).2 (Or.inr (Or.inr ⟨k, n, hn, a, ha, e⟩)))
  · intro h
    refine ⟨codeOf ws, ?_⟩
    unfold compile
    rw [t1, t2, t3, c1.2 ⟨h.union, h.tags⟩, c2.2 h.fields, c3.2 h.names, c4.2 ?_]
    · rfl
    · intro t ht hm
      rcases (macro_mem kn t).1 hm with ⟨n, hn, c, hc, e⟩ | ⟨k, n, hn, a, ha, e⟩ | ⟨k, n, hn, a, ha, e⟩
      · exact h.children n hn c hc t ht e
      · exact h.attrs k n hn a ha t ht e
      · exact h.sattrs k n hn a ha t ht e

theorem compile_same {tags macros : List CStr} {c d : Code} (h : compile tags macros c = .ok d) : d = c := by
  unfold compile at h
  repeat' split at h
  all_goals first | cases h; rfl | cases h

/-- The rows behind the code of a description. -/
theorem rows_of {addr : Loc → Nat} {o : Out} {fuel : Nat} (ha : Spec.Semantic.Apart addr) (hp : TypesNamed A) (he : Spec.Semantic.Earlier A)
    (hu : UserNamed A) (h : checks addr fuel A = .ok o) (h0 : o.errors = 0) :
    ∃ ws : List Row, ws.map (·.t) = withData A ∧ (∀ w ∈ ws, RowOk A w) ∧
      travData A o = compile ((EnumHeader.header A).map (·.1)) ((NodeGen.macros (Described.nodeProg A o)).map (·.name)) (codeOf ws) := by
  have kn := Described.known_of ha hp he h h0
  have h' := h
  unfold checks at h'
  obtain ⟨tab, hb, h'⟩ := Res.bind_eq_ok.1 h'
  obtain ⟨q, hc, _⟩ := Res.bind_eq_ok.1 h'
  have hb2 := kn.facts.right.bst
  rw [hb] at hb2
  cases hb2
  obtain ⟨_, hf, _⟩ := exist_ok hp hb hc
  obtain ⟨ws, g1, g2, g3, g4, g5, g6⟩ := rows_gen (zip_travs kn.facts.right hp hu hf)
  refine ⟨ws, g1, g2, ?_⟩
  unfold travData
  rw [hc, Res.bind_ok]
  unfold generate
  rw [g3, g4, g5, g6]
  rfl

end

end Verif.TravData
