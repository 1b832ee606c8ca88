import Verif.Lemmas.GenFilesFlow

/-!
# All generated headers and sources work out
-/

namespace Verif.GenFiles
open Verif.Str Verif.Ids Verif.Semantic
open Verif.Spec.Str (lowerB upperB SameName)
open Verif.Spec.GenFiles (Place At find findPath findLib Covers Flow UserType SetTypesSeen EnumsAsDeclared NoLinks NoStrings NoSlash
  UsersNamed Refers IsLink Translates)

section
variable {A : Parse.Ast} {v : Words} {u : Bool} {hs ts : List Block} {w : Spec.GenFiles.World} {l : List CStr} {user : Option (List CStr)}

/-! ### Words -/

theorem cov_dec {uk : List Cls} {us : List Sym} (h : ∀ s ∈ us, Cls.sym s ∈ uk) : Cov A u l uk us :=
  fun x hx => ⟨.sym x, h x hx, List.mem_singleton.2 rfl⟩

theorem cov_append {uk : List Cls} {a b : List Sym} (ha : Cov A u l uk a) (hb : Cov A u l uk b) : Cov A u l uk (a ++ b) :=
  fun x hx => (List.mem_append.1 hx).elim (ha x) (hb x)

theorem Cov.mono {uk vk : List Cls} {us : List Sym} (h : Cov A u l uk us) (hk : ∀ k ∈ uk, k ∈ vk) : Cov A u l vk us := by
  intro x hx
  obtain ⟨k, h1, h2⟩ := h x hx
  exact ⟨k, hk k h1, h2⟩

theorem tag_enums {e : Parse.Enum} (he : e ∈ A.enums) : Sym.tag e.name.orig ∈ enumDecls A := by
  refine List.mem_append_left _ ?_
  have : e.name.orig ∈ (EnumHeader.header A).map (·.1) := by
    rw [EnumHeader.header_tags]
    exact List.mem_append_right _ (List.mem_map_of_mem he)
  obtain ⟨x, hx, h⟩ := List.mem_map.1 this
  exact List.mem_map.2 ⟨x, hx, by rw [h]⟩

theorem own_tag {x : CStr} (h : x ∈ Spec.EnumHeader.ownTags) : Sym.tag x ∈ enumDecls A := by
  refine List.mem_append_left _ ?_
  have : x ∈ (EnumHeader.header A).map (·.1) := by
    rw [EnumHeader.header_tags]
    exact List.mem_append_left _ h
  obtain ⟨y, hy, h⟩ := List.mem_map.1 this
  exact List.mem_map.2 ⟨y, hy, by rw [h]⟩

theorem size_word {g : CStr × List CStr × List CStr} (hg : g ∈ EnumHeader.groups A) {x : CStr} (hx : x = 95 :: g.1 ++ Tables.sSIZE) :
    Sym.word x ∈ enumDecls A := by
  refine List.mem_append_right _ ?_
  have : x ∈ (EnumHeader.header A).flatMap (·.2) := by
    rw [EnumHeader.header_entries]
    refine List.mem_append_left _ (List.mem_flatMap.2 ⟨g, hg, ?_⟩)
    rw [hx]
    simp [EnumHeader.group]
  obtain ⟨e, he, h⟩ := List.mem_flatMap.1 this
  exact List.mem_flatMap.2 ⟨e, he, List.mem_map_of_mem h⟩

theorem cov_types {w : Spec.GenFiles.World} (U : User A u user l w) {ws : List Sym} (h : ∀ x ∈ ws, TypeWord A (u = true) x) : Cov A u l types ws := by
  intro x hx
  cases h x hx with
  | node => exact ⟨.sym (.word b!"node_st"), by decide, List.mem_singleton.2 rfl⟩
  | basic hb => exact ⟨.sym x, List.mem_cons_of_mem _ (List.mem_append_left _ (List.mem_map_of_mem hb)), List.mem_singleton.2 rfl⟩
  | enum he => exact ⟨.enums, by decide, tag_enums he⟩
  | user h1 h2 =>
    refine ⟨.user, by decide, ?_⟩
    have := U.types _ h2 h1
    subst h1
    exact List.mem_map_of_mem this

theorem cov_plain (U : User A u user l w) {ws : List Sym} (h : ∀ x ∈ ws, PlainWord A (u = true) x) : Cov A u l plainTypes ws := by
  intro x hx
  cases h x hx with
  | basic hb => exact ⟨.sym x, List.mem_append_left _ (List.mem_map_of_mem hb), List.mem_singleton.2 rfl⟩
  | enum he => exact ⟨.enums, by decide, tag_enums he⟩
  | user h1 h2 =>
    refine ⟨.user, by decide, ?_⟩
    have := U.types _ h2 h1
    subst h1
    exact List.mem_map_of_mem this

/-! ### Lines -/

theorem Abs.uses {is : List Item} {as : List AItem} {us : List Sym} {uk : List Cls} (h : Cov A u l uk us) (hr : Abs A u l is as) :
    Abs A u l (.text [] us :: is) (.text [] uk :: as) :=
  .text (fun _ h => by cases h) h (fun _ h => by cases h) hr

/-- Words of the libraries. -/
theorem Abs.libs {is : List Item} {as : List AItem} {ds us : List CStr} (hr : Abs A u l is as) :
    Abs A u l (.text (words ds) (words us) :: is) (.text (syms ds) (syms us) :: as) := by
  refine .text (fine_words u ds) (cov_dec fun s hs => ?_) (fun k hk x hx => ?_) hr
  · obtain ⟨c, hc, rfl⟩ := List.mem_map.1 hs
    exact List.mem_map_of_mem hc
  · obtain ⟨c, hc, rfl⟩ := List.mem_map.1 hk
    rw [List.mem_singleton.1 hx]
    exact List.mem_map_of_mem hc

/-- The same, with tags among the uses. -/
theorem Abs.mixed {is : List Item} {as : List AItem} {ds : List CStr} {us : List Sym} (hr : Abs A u l is as) :
    Abs A u l (.text (words ds) us :: is) (.text (syms ds) (us.map .sym) :: as) := by
  refine .text (fine_words u ds) (cov_dec fun s hs => List.mem_map_of_mem hs) (fun k hk x hx => ?_) hr
  obtain ⟨c, hc, rfl⟩ := List.mem_map.1 hk
  rw [List.mem_singleton.1 hx]
  exact List.mem_map_of_mem hc

theorem Abs.typed {is : List Item} {as : List AItem} {us ws : List Sym} (U : User A u user l w) (hw : ∀ x ∈ ws, TypeWord A (u = true) x)
    (hr : Abs A u l is as) : Abs A u l (.text [] (us ++ ws) :: is) (.text [] (us.map .sym ++ types) :: as) :=
  .uses (cov_append (cov_dec fun s hs => List.mem_append_left _ (List.mem_map_of_mem hs))
    ((cov_types U hw).mono fun k hk => List.mem_append_right _ hk)) hr

/-- The result of the check has the classes. -/
def passes (dir : Option CStr) (r : Nat) (av : List Cls) (as : List AItem) (ks : List Cls) : Bool :=
  (chk dir r av as).any fun fin => decide (∀ k ∈ ks, k ∈ fin)

theorem passes_flow (S : Set A v u hs ts user w) (U : User A u user l w) {dir : Option CStr} {r : Nat} {av ks : List Cls} {is : List Item}
    {as : List AItem} (h : Abs A u l is as) (hc : passes dir r av as ks = true) :
    ∃ fin, Flows A u l w dir r av is fin ∧ ∀ k ∈ ks, k ∈ fin := by
  unfold passes at hc
  cases he : chk dir r av as with
  | none => rw [he] at hc; cases hc
  | some fin =>
    rw [he] at hc
    exact ⟨fin, chk_flow S U h he, of_decide_eq_true hc⟩

theorem good_of (S : Set A v u hs ts user w) (U : User A u user l w) {p : Place} {is : List Item} {as : List AItem} (h : Abs A u l is as)
    (hc : passes p.dir (rank p) (need p) as (prov p) = true) : Spec.GenFiles.Good w rank (cover A u l) need prov (Fine u) p is :=
  passes_flow S U h hc

theorem flow_append {dir : Option CStr} {r : Nat} {av mid fin : List Cls} {a b : List Item} (h1 : Flows A u l w dir r av a mid)
    (h2 : Flows A u l w dir r mid b fin) : Flows A u l w dir r av (a ++ b) fin := by
  induction h1 with
  | nil => exact h2
  | once _ ih => exact .once (ih h2)
  | incl a b c d _ ih => exact .incl a b c d (ih h2)
  | on a b c d e _ ih => exact .on a b c d e (ih h2)
  | off a b _ ih => exact .off a b (ih h2)
  | text a b c _ ih => exact .text a b c (ih h2)
  | also k a _ ih => exact .also k a (ih h2)

theorem flow_texts {dir : Option CStr} {r : Nat} {av : List Cls} : ∀ {is : List Item},
    (∀ i ∈ is, ∃ us, i = .text [] us ∧ Cov A u l av us) → Flows A u l w dir r av is av
  | [], _ => .nil
  | i :: is, h => by
    obtain ⟨us, rfl, hc⟩ := h i List.mem_cons_self
    refine .text (l := []) (fun _ h => by cases h) hc (fun _ h => by cases h) ?_
    rw [List.append_nil]
    exact flow_texts fun j hj => h j (List.mem_cons_of_mem _ hj)

/-! ### Headers of the libraries -/

theorem lib_good (S : Set A v u hs ts user w) (U : User A u user l w) {n : CStr} (hn : n ∈ libInfo.map (·.1)) {c : List Item}
    (hc : (library Option.none).lookup n = some c) : Spec.GenFiles.Good w rank (cover A u l) need prov (Fine u) (.lib n) c := by
  simp only [libInfo, List.map_cons, List.map_nil, List.mem_cons, List.not_mem_nil, or_false] at hn
  rcases hn with rfl | rfl | rfl | rfl | rfl | rfl | rfl | rfl | rfl | rfl | rfl | rfl | rfl | rfl | rfl <;> cases hc
  · exact good_of S U (.once (.libs (us := []) .nil)) (by decide +kernel)
  · exact good_of S U (.once (.libs (us := []) .nil)) (by decide +kernel)
  · exact good_of S U (.once (.libs (us := []) .nil)) (by decide +kernel)
  · exact good_of S U (.once .nil) (by decide +kernel)
  · exact good_of S U (.once (.libs (us := []) .nil)) (by decide +kernel)
  · exact good_of S U (.once (.libs (us := []) .nil)) (by decide +kernel)
  · exact good_of S U (.once (.incl (.incl (.incl (.libs .nil))))) (by decide +kernel)
  · exact good_of S U (.once (.incl (.incl (.incl (.mixed .nil))))) (by decide +kernel)
  · exact good_of S U (.once (.incl (.incl (.incl (.libs .nil))))) (by decide +kernel)
  · exact good_of S U (.once (.incl (.incl .nil))) (by decide +kernel)
  · exact good_of S U (.once (.incl (.incl (.incl (.mixed .nil))))) (by decide +kernel)
  · exact good_of S U (.once (.incl (.libs .nil))) (by decide +kernel)
  · exact good_of S U (.once (.incl (.libs (us := []) .nil))) (by decide +kernel)
  · exact good_of S U (.once (.incl (.incl (.libs .nil)))) (by decide +kernel)
  · exact good_of S U (.once (.incl (.incl (.libs .nil)))) (by decide +kernel)

/-! ### Generated headers -/

/-- The words of types are of the description. -/
structure Typed (A : Parse.Ast) (v : Words) (u : Bool) : Prop where
  nodes : ∀ x ∈ v.nodes, TypeWord A (u = true) x
  sets : ∀ x ∈ v.sets, TypeWord A (u = true) x
  ctors : ∀ x ∈ v.ctors, TypeWord A (u = true) x
  fields : ∀ x ∈ v.fields, TypeWord A (u = true) x

theorem ast_good (S : Set A v u hs ts user w) (U : User A u user l w) (T : Typed A v u) :
    Spec.GenFiles.Good w rank (cover A u l) need prov (Fine u) (.made b!"ccngen/ast.h") (astH v) :=
  good_of S U (.once (.incl (.incl (.incl (.incl (.cond (.libs (us := []) (.typed U T.nodes (.typed U T.ctors (.mixed (ds := [])
    (.typed U T.nodes (.typed U T.sets .nil)))))))))))) (by decide +kernel)

theorem enum_good (S : Set A v u hs ts user w) (U : User A u user l w) :
    Spec.GenFiles.Good w rank (cover A u l) need prov (Fine u) (.made b!"ccngen/enum.h") (enumH A) := by
  have hf : ∀ x ∈ enumDecls A, Fine u x := by
    intro x hx
    rcases List.mem_append.1 hx with hx | hx
    · obtain ⟨e, _, rfl⟩ := List.mem_map.1 hx
      exact fun h => by cases h
    · obtain ⟨e, _, hx⟩ := List.mem_flatMap.1 hx
      exact fine_words u _ x hx
  refine good_of S U (as := [.once, .text enumCls []]) (.once (.text hf (fun _ h => by cases h) (fun k hk x hx => ?_) .nil)) (by decide +kernel)
  simp only [enumCls, List.mem_append, List.mem_cons, List.not_mem_nil, or_false, syms, List.map_cons, List.map_nil] at hk
  rcases hk with (rfl | rfl | rfl | rfl) | rfl | rfl | rfl
  · exact hx
  · rw [List.mem_singleton.1 hx]; exact own_tag (by decide)
  · rw [List.mem_singleton.1 hx]; exact own_tag (by decide)
  · rw [List.mem_singleton.1 hx]; exact own_tag (by decide)
  · rw [List.mem_singleton.1 hx]
    exact size_word (A := A) (g := (Tables.sNT, A.nodes.map fun n => (idOf n.name).upr, [])) (by simp [EnumHeader.groups]) rfl
  · rw [List.mem_singleton.1 hx]
    exact size_word (A := A) (g := (Tables.sTRAV, A.traversals.map fun t => (idOf t.uid).upr, [Tables.sFree, Tables.sCheck, Tables.sCpy]))
      (by simp [EnumHeader.groups]) rfl
  · rw [List.mem_singleton.1 hx]
    exact size_word (A := A) (g := (Tables.sPASS, A.passes.map fun p => (idOf p.name).upr, [])) (by simp [EnumHeader.groups]) rfl

theorem data_good (S : Set A v u hs ts user w) (U : User A u user l w) (T : Typed A v u) :
    Spec.GenFiles.Good w rank (cover A u l) need prov (Fine u) (.made b!"ccngen/trav_data.h") (travDataH v) :=
  good_of S U (.once (.incl (.incl (.cond (.incl (.typed U T.fields .nil)))))) (by decide +kernel)

theorem actions_good (S : Set A v u hs ts user w) (U : User A u user l w) :
    Spec.GenFiles.Good w rank (cover A u l) need prov (Fine u) (.made b!"ccngen/actions.h") actionsH :=
  good_of S U (.once (.libs (us := []) .nil)) (by decide +kernel)

theorem visit_good (S : Set A v u hs ts user w) (U : User A u user l w) (T : Typed A v u) :
    Spec.GenFiles.Good w rank (cover A u l) need prov (Fine u) (.made b!"ccngen/visit.h") (visitH v) :=
  good_of S U (.once (.incl (.incl (.incl (.incl (.cond (.typed U (fun x hx => (List.mem_append.1 hx).elim (T.nodes x) (T.sets x)) .nil)))))))
    (by decide +kernel)

theorem ag_good (S : Set A v u hs ts user w) (U : User A u user l w) :
    Spec.GenFiles.Good w rank (cover A u l) need prov (Fine u) (.made b!"ccngen/ag.h") agH :=
  good_of S U (.once (.incl (.libs (ds := []) .nil))) (by decide +kernel)

theorem trav_good (S : Set A v u hs ts user w) (U : User A u user l w) :
    Spec.GenFiles.Good w rank (cover A u l) need prov (Fine u) (.made b!"ccngen/trav.h") travH :=
  good_of S U (.once (.incl (.libs (ds := []) .nil))) (by decide +kernel)

theorem action_good (S : Set A v u hs ts user w) (U : User A u user l w) :
    Spec.GenFiles.Good w rank (cover A u l) need prov (Fine u) (.made b!"ccngen/action_handling.h") actionH :=
  good_of S U (as := [.once, .text [.sym (.tag b!"ccn_action_id")] []])
    (.once (.text (fun x hx h => by rw [List.mem_singleton.1 hx] at h; cases h) (fun _ h => by cases h)
      (fun k hk x hx => by rw [List.mem_singleton.1 hk] at hx; exact hx) .nil)) (by decide +kernel)

theorem defs_good (S : Set A v u hs ts user w) (U : User A u user l w) :
    Spec.GenFiles.Good w rank (cover A u l) need prov (Fine u) (.made b!"ccngen/ccn_defs.h") (defsH u) := by
  refine good_of S U (as := [.once, .text [.mac] []]) (.once ?_) (by decide +kernel)
  cases u with
  | true =>
    exact .text (fun _ _ _ => rfl) (fun _ h => by cases h) (fun k hk x hx => by
      rw [List.mem_singleton.1 hk] at hx
      rw [List.mem_singleton.1 hx]
      exact List.mem_singleton.2 (by decide +kernel)) .nil
  | false => exact .none (fun k hk => by rw [List.mem_singleton.1 hk]; rfl) .nil

theorem gates_flow {dir : Option CStr} {r : Nat} : ∀ (gs : List CStr) {av : List Cls}, Cls.sym (.word b!"bool") ∈ av →
    Flows A u l w dir r av (gs.map fun g => .text (words [g]) (words [b!"bool"])) (av ++ syms gs)
  | [], av, _ => by
    have : av ++ syms [] = av := List.append_nil _
    rw [this]
    exact .nil
  | g :: gs, av, h => by
    have e : av ++ syms (g :: gs) = (av ++ [Cls.sym (.word g)]) ++ syms gs := by simp [syms]
    rw [e]
    refine .text (l := [.sym (.word g)]) (fine_words u _) (fun x hx => ?_) (fun k hk x hx => ?_) (gates_flow gs (List.mem_append_left _ h))
    · rw [List.mem_singleton.1 hx]
      exact ⟨_, h, List.mem_singleton.2 rfl⟩
    · rw [List.mem_singleton.1 hk] at hx
      exact hx

theorem gate_good : Spec.GenFiles.Good w rank (cover A u l) need prov (Fine u) (.made b!"ccngen/gate.h") (gateH A) := by
  refine ⟨syms [b!"bool"] ++ syms (gates A) ++ [.gates], .once ?_, fun k hk => ?_⟩
  · have h1 := gates_flow (A := A) (u := u) (l := l) (w := w) (dir := some b!"ccngen/") (r := 0) (gates A) (av := syms [b!"bool"]) (by decide)
    have := flow_append h1 (.also .gates (fun x hx => ?_) .nil)
    · rw [List.append_nil] at this
      exact this
    · obtain ⟨g, hg, rfl⟩ := List.mem_map.1 hx
      exact ⟨.sym (.word g), List.mem_append_right _ (List.mem_map_of_mem hg), List.mem_singleton.2 rfl⟩
  · rw [List.mem_singleton.1 hk]
    simp

/-! ### Equations -/

theorem header_there (S : Set A v u hs ts user w) {k : Nat} {n : Parse.Node} (hn : A.nodes[k]? = some n) (he : n.equations ≠ []) :
    ∃ is, w.file (headerOf n) = some (headerTop ++ is) ∧ EqLines A k n n.equations is := by
  have : headerOf n ∈ hs.map (·.1) := by
    rw [S.written.keysH]
    exact List.mem_map_of_mem (mem_withEqs.2 ⟨List.mem_of_getElem? hn, he⟩)
  obtain ⟨b, hb, hbe⟩ := List.mem_map.1 this
  obtain ⟨j, m, is, h1, h2, h3, h4⟩ := S.written.headers b hb
  subst h3
  obtain ⟨tab, hr⟩ := S.right
  cases Compiled.node_inj hr h1 hn (header_inj hbe)
  cases h1.symm.trans hn
  exact ⟨is, S.file _ _ (by simp [blocks, hb]), h4⟩

theorem template_there (S : Set A v u hs ts user w) {k : Nat} {n : Parse.Node} (hn : A.nodes[k]? = some n) (he : n.equations ≠ []) :
    ∃ is, w.file (templateOf n) = some (includeOf n :: is) ∧ UserLines A k n n.equations is := by
  have : templateOf n ∈ ts.map (·.1) := by
    rw [S.written.keysT]
    exact List.mem_map_of_mem (mem_withEqs.2 ⟨List.mem_of_getElem? hn, he⟩)
  obtain ⟨b, hb, hbe⟩ := List.mem_map.1 this
  obtain ⟨j, m, is, h1, h2, h3, h4⟩ := S.written.templates b hb
  subst h3
  obtain ⟨tab, hr⟩ := S.right
  cases Compiled.node_inj hr h1 hn (template_inj hbe)
  cases h1.symm.trans hn
  exact ⟨is, S.file _ _ (by simp [blocks, hb]), h4⟩

/-- The conditions on the description. -/
structure Conds (A : Parse.Ast) (v : Words) (u : Bool) : Prop where
  typed : Typed A v u
  users : UsersNamed A
  seen : Spec.GenFiles.UserSeen A → u = true
  sets : SetTypesSeen A
  links : NoLinks A
  strings : NoStrings A

theorem ref_plain (C : Conds A v u) (U : User A u user l w) {k : Nat} {n : Parse.Node} (hn : A.nodes[k]? = some n) {e : Parse.Equation}
    (he : e ∈ n.equations) {ws : List Sym} (h : RefWords A k n (e.rule :: e.args) ws) : Cov A u l plainTypes ws := by
  refine cov_plain U fun x hx => ?_
  obtain ⟨r, hr, a, c, h1, h2, h3⟩ := h.from' x hx
  exact plain_words C.seen C.sets C.users h1 h2 (C.links k n hn e he r hr a h1) x h3

theorem rank_header (n : Parse.Node) : info (.made (headerOf n)) = (3, [], plainTypes ++ syms [b!"true", b!"false"]) := rfl

theorem eq_good (S : Set A v u hs ts user w) (U : User A u user l w) (C : Conds A v u) {k : Nat} {n : Parse.Node} (hn : A.nodes[k]? = some n)
    {is : List Item} (h : EqLines A k n n.equations is) :
    Spec.GenFiles.Good w rank (cover A u l) need prov (Fine u) (.made (headerOf n)) (headerTop ++ is) := by
  have hdir : Place.dir (.made (headerOf n)) = some eqDir := by
    rw [Place.dir, folder_eq, dir_header (S.slash.nodes n (List.mem_of_getElem? hn))]
  obtain ⟨fin, h1, h2⟩ := passes_flow S U (dir := some eqDir) (r := 3) (av := []) (is := headerTop)
    (ks := plainTypes ++ syms [b!"true", b!"false"]) (.once (.incl (.incl (.incl (.cond .nil))))) (by decide +kernel)
  refine ⟨fin, ?_, h2⟩
  rw [hdir]
  refine flow_append h1 (flow_texts fun i hi => ?_)
  obtain ⟨e, he, ws, rfl, hw⟩ := h.from' i hi
  exact ⟨ws, rfl, (ref_plain C U hn he hw).mono fun k hk => h2 k (List.mem_append_left _ hk)⟩

theorem include_header (n : Parse.Node) : includeOf n = .incl false (headerOf n) := by
  rw [includeOf, headerOf, List.append_assoc]

theorem header_key (n : Parse.Node) (d : CStr) (hd : d = b!"ccngen/" ∨ d = b!"user/") : isKey (d ++ headerOf n) = false := by
  rcases hd with rfl | rfl
  · rfl
  · rfl

theorem header_find (S : Set A v u hs ts user w) {k : Nat} {n : Parse.Node} (hn : A.nodes[k]? = some n) (he : n.equations ≠ []) {d : CStr}
    (hd : d = b!"ccngen/" ∨ d = b!"user/") : ∃ is, find w (some d) false (headerOf n) = some (.made (headerOf n), headerTop ++ is) ∧
      EqLines A k n n.equations is := by
  obtain ⟨is, h1, h2⟩ := header_there S hn he
  refine ⟨is, ?_, h2⟩
  unfold find
  dsimp only
  rw [S.none (header_key n d hd)]
  dsimp only
  rw [findPath, h1]

theorem equation_flow (S : Set A v u hs ts user w) : ∀ {ns : List Parse.Node} {av : List Cls}, (∀ n ∈ ns, n ∈ A.nodes ∧ n.equations ≠ []) →
    ∃ fin, Flows A u l w (some b!"ccngen/") 4 av (ns.map includeOf) fin
  | [], av, _ => ⟨av, .nil⟩
  | n :: ns, av, h => by
    obtain ⟨h1, h2⟩ := h n List.mem_cons_self
    obtain ⟨k, hk⟩ := List.getElem?_of_mem h1
    obtain ⟨is, h3, _⟩ := header_find S hk h2 (d := b!"ccngen/") (Or.inl rfl)
    obtain ⟨fin, hf⟩ := equation_flow S (ns := ns) (av := av ++ prov (.made (headerOf n))) fun m hm => h m (List.mem_cons_of_mem _ hm)
    refine ⟨fin, ?_⟩
    rw [List.map_cons, include_header]
    exact .incl h3 (by rw [rank, rank_header]; decide) List.mem_cons_self (fun k hk => by rw [need, rank_header] at hk; cases hk) hf

theorem equation_good (S : Set A v u hs ts user w) :
    Spec.GenFiles.Good w rank (cover A u l) need prov (Fine u) (.made b!"ccngen/equation.h") (equationH A) := by
  obtain ⟨fin, h⟩ := equation_flow (u := u) (l := l) S (ns := withEqs A.nodes) (av := []) fun n hn => mem_withEqs.1 hn
  exact ⟨fin, .once h, fun k hk => by cases hk⟩

/-! ### All headers -/

theorem all_good (S : Set A v u hs ts user w) (U : User A u user l w) (C : Conds A v u) : ∀ p c, At w p c → rank p < 100 → Item.once ∈ c →
    Spec.GenFiles.Good w rank (cover A u l) need prov (Fine u) p c := by
  intro p c ha hr _
  cases p with
  | lib n =>
    rw [At, S.lib] at ha
    by_cases hn : n = b!"user_types.h"
    · subst hn
      cases user with
      | none => cases ((by decide +kernel : (library Option.none).lookup b!"user_types.h" = .none).symm.trans ha)
      | some l' =>
        have e : library (some l') = library Option.none ++ [(b!"user_types.h", [.once, .text (words l') []])] := by simp [library]
        dsimp only at ha
        rw [e, lookup_append, (by decide +kernel : (library Option.none).lookup b!"user_types.h" = .none)] at ha
        cases ha
        refine ⟨[.user], .once (.text (l := [.user]) (fine_words u l') (fun _ h => by cases h) (fun k hk x hx => ?_) .nil), fun k hk => hk⟩
        rw [List.mem_singleton.1 hk] at hx
        cases u with
        | true =>
          have := U.there rfl
          cases this
          exact hx
        | false => cases hx
    · have hi : (libInfo.lookup n).isSome = true := by
        cases hl : libInfo.lookup n with
        | some i => rfl
        | none =>
          have : rank (.lib n) = 100 := by
            have hb : (n == b!"user_types.h") = false := by simpa using hn
            simp only [rank, info, hb, hl]
            rfl
          omega
      obtain ⟨c', h1, h2, _⟩ := lib_lookup (user := user) hi
      cases h2.symm.trans ha
      refine lib_good S U ?_ h1
      obtain ⟨i, hi⟩ := Option.isSome_iff_exists.1 hi
      obtain ⟨a, b, h1, _⟩ := List.lookup_eq_some_iff.1 hi
      rw [h1]
      simp
  | made p =>
    have ha : w.file p = some c := ha
    cases hl : madeInfo.lookup p with
    | some i =>
      have hm : p ∈ madeInfo.map (·.1) := by
        obtain ⟨a, b, h1, _⟩ := List.lookup_eq_some_iff.1 hl
        rw [h1]
        simp
      simp only [madeInfo, List.map_cons, List.map_nil, List.mem_cons, List.not_mem_nil, or_false] at hm
      rcases hm with rfl | rfl | rfl | rfl | rfl | rfl | rfl | rfl | rfl | rfl | rfl
      · cases (S.file _ (astH v) (by simp [blocks, first])).symm.trans ha; exact ast_good S U C.typed
      · cases (S.file _ (enumH A) (by simp [blocks, first])).symm.trans ha; exact enum_good S U
      · cases (S.file _ (travDataH v) (by simp [blocks, first])).symm.trans ha; exact data_good S U C.typed
      · cases (S.file _ actionsH (by simp [blocks, first])).symm.trans ha; exact actions_good S U
      · cases (S.file _ (equationH A) (by simp [blocks, first])).symm.trans ha; exact equation_good S
      · cases (S.file _ (visitH v) (by simp [blocks, second])).symm.trans ha; exact visit_good S U C.typed
      · cases (S.file _ agH (by simp [blocks, second])).symm.trans ha; exact ag_good S U
      · cases (S.file _ travH (by simp [blocks, third])).symm.trans ha; exact trav_good S U
      · cases (S.file _ actionH (by simp [blocks, third])).symm.trans ha; exact action_good S U
      · cases (S.file _ (gateH A) (by simp [blocks, third])).symm.trans ha; exact gate_good
      · cases (S.file _ (defsH u) (by simp [blocks, third])).symm.trans ha; exact defs_good S U
    | none =>
      cases hp : eqDir.isPrefixOf p with
      | false =>
        have : rank (.made p) = 100 := by simp only [rank, info, hl, hp]
        omega
      | true =>
        cases S.only p (by rw [ha]; exact fun h => by cases h) with
        | always h => cases (always_other h).1.symm.trans hp
        | header h1 h2 =>
          obtain ⟨k, hk⟩ := List.getElem?_of_mem h1
          obtain ⟨is, h3, h4⟩ := header_there S hk h2
          cases h3.symm.trans ha
          exact eq_good S U C hk h4
        | template => cases hp
        | trav => cases hp

/-! ### Sources -/

theorem source_of (S : Set A v u hs ts user w) (U : User A u user l w) (C : Conds A v u) {p : CStr} {is : List Item} {as : List AItem}
    (hp : w.file p = some is) (hr : rank (.made p) = 100) (h : Abs A u l is as) (hc : passes (some (dirName p)) 100 [] as [] = true) :
    Translates w p := by
  obtain ⟨fin, hf, _⟩ := passes_flow S U h hc
  exact Spec.GenFiles.translates_of (all_good S U C) hp (Nat.le_of_eq hr.symm) hf

theorem return_cov {k : Nat} {n : Parse.Node} (hn : A.nodes[k]? = some n) (C : Conds A v u) {e : Parse.Equation} (he : e ∈ n.equations)
    {us : List Sym} (h : Returns A k n e.rule us) : Cov A u l (syms [b!"true", b!"false"]) us := by
  obtain ⟨a, h1, _, h3⟩ := h
  rcases h3 (fun h => h.elim (C.strings k n hn e he a h1) (C.links k n hn e he e.rule List.mem_cons_self a h1)) with rfl | rfl
  · exact fun _ h => by cases h
  · exact cov_dec (by decide)

theorem template_source (S : Set A v u hs ts user w) (U : User A u user l w) (C : Conds A v u) {k : Nat} {n : Parse.Node}
    (hn : A.nodes[k]? = some n) (he : n.equations ≠ []) : Translates w (templateOf n) := by
  obtain ⟨is, h1, h2⟩ := template_there S hn he
  obtain ⟨js, h3, _⟩ := header_find S hn he (d := b!"user/") (Or.inr rfl)
  have hr : rank (.made (templateOf n)) = 100 := rfl
  have hdir : Spec.GenFiles.folder (templateOf n) = b!"user/" := by
    rw [folder_eq, dir_template (S.slash.nodes n (List.mem_of_getElem? hn))]
  refine Spec.GenFiles.translates_of (all_good S U C) h1 (Nat.le_of_eq hr.symm) (fin := [] ++ prov (.made (headerOf n))) ?_
  rw [include_header, hdir]
  refine .incl h3 (by rw [rank, rank_header]; decide) List.mem_cons_self (fun k hk => by rw [need, rank_header] at hk; cases hk) ?_
  refine flow_texts fun i hi => ?_
  obtain ⟨e, hee, ws, us, rfl, h5, h6⟩ := h2.from' i hi
  exact ⟨ws ++ us, rfl, cov_append ((ref_plain C U hn hee h5).mono fun k hk => List.mem_append_right [] (List.mem_append_left _ hk))
    ((return_cov hn C hee h6).mono fun k hk => List.mem_append_right [] (List.mem_append_right plainTypes hk))⟩

theorem trav_source (S : Set A v u hs ts user w) (U : User A u user l w) (C : Conds A v u) {x : Parse.Traversal} (hx : x ∈ A.traversals) :
    Translates w (travOf x) := by
  refine source_of S U C (S.file _ travLines (by simp [blocks]; exact Or.inr (Or.inr (Or.inr (Or.inl ⟨x, hx, rfl⟩))))) rfl
    (.incl (.incl (.incl (.libs (ds := []) .nil)))) ?_
  rw [dir_trav (S.slash.travs x hx)]
  decide +kernel

theorem passes_source (S : Set A v u hs ts user w) (U : User A u user l w) (C : Conds A v u) : Translates w b!"user/passes.c" := by
  obtain ⟨fin, h1, h2⟩ := passes_flow S U (dir := some b!"user/") (r := 100) (av := []) (ks := syms [b!"node_st"])
    (.incl (sys := false) (name := b!"ccn/ccn.h") (.incl (sys := false) (name := b!"ccngen/ast.h") .nil)) (by decide +kernel)
  refine Spec.GenFiles.translates_of (all_good S U C) (S.file _ (passesC A) (by simp [blocks, second])) (by decide +kernel) (fin := fin) ?_
  have hd : Spec.GenFiles.folder b!"user/passes.c" = b!"user/" := by decide +kernel
  rw [hd]
  refine flow_append (b := A.passes.map fun _ => .text [] (words [b!"node_st"])) h1 (flow_texts fun i hi => ?_)
  obtain ⟨x, _, rfl⟩ := List.mem_map.1 hi
  exact ⟨_, rfl, (cov_dec (uk := syms [b!"node_st"]) (by decide)).mono h2⟩

theorem always_source (S : Set A v u hs ts user w) (U : User A u user l w) (C : Conds A v u) {p : CStr}
    (hp : p ∈ [b!"ast.c", b!"trav_data.c", b!"vtables.c", b!"ccn_copy.c", b!"ccn_free.c", b!"ccn_check.c", b!"visit.c", b!"ag.c", b!"trav.c",
      b!"action_handling.c", b!"user/passes.c"]) : Translates w p := by
  simp only [List.mem_cons, List.not_mem_nil, or_false] at hp
  rcases hp with rfl | rfl | rfl | rfl | rfl | rfl | rfl | rfl | rfl | rfl | rfl
  · exact source_of S U C (S.file _ (astC v) (by simp [blocks, first])) (by decide +kernel)
      (.incl (.incl (.incl (.libs (ds := []) (.typed U C.typed.ctors (.libs (ds := []) (.libs (ds := []) .nil))))))) (by decide +kernel)
  · exact source_of S U C (S.file _ travDataC (by simp [blocks, first])) (by decide +kernel)
      (.incl (.incl (.incl (.incl (.libs (ds := []) .nil))))) (by decide +kernel)
  · exact source_of S U C (S.file _ vtablesC (by simp [blocks, first])) (by decide +kernel)
      (.incl (.incl (.incl (.libs (ds := []) .nil)))) (by decide +kernel)
  · exact source_of S U C (S.file _ copyC (by simp [blocks, first])) (by decide +kernel)
      (.incl (.incl (.incl (.incl (.incl (.libs (ds := []) .nil)))))) (by decide +kernel)
  · exact source_of S U C (S.file _ freeC (by simp [blocks, first])) (by decide +kernel)
      (.incl (.incl (.incl (.libs (ds := []) .nil)))) (by decide +kernel)
  · exact source_of S U C (S.file _ checkC (by simp [blocks, first])) (by decide +kernel)
      (.incl (.incl (.incl (.incl (.incl (.mixed (ds := []) .nil)))))) (by decide +kernel)
  · exact source_of S U C (S.file _ (visitC v) (by simp [blocks, second])) (by decide +kernel)
      (.incl (.incl (.incl (.typed U (fun x hx => (List.mem_append.1 hx).elim (C.typed.nodes x) (C.typed.sets x)) .nil)))) (by decide +kernel)
  · exact source_of S U C (S.file _ agC (by simp [blocks, second])) (by decide +kernel)
      (.incl (.incl (.incl (.incl (.incl (.incl (.libs (ds := []) .nil))))))) (by decide +kernel)
  · exact source_of S U C (S.file _ travC (by simp [blocks, third])) (by decide +kernel)
      (.incl (.incl (.incl (.incl (.libs (ds := []) .nil))))) (by decide +kernel)
  · refine source_of S U C (S.file _ (actionC A) (by simp [blocks, third])) (by decide +kernel)
      (as := [.incl true b!"stddef.h", .incl false b!"ccn/action_types.h", .incl false b!"ccngen/action_handling.h",
        .incl false b!"ccngen/enum.h", .incl false b!"ccngen/ast.h", .incl false b!"ccngen/gate.h", .incl false b!"ccn/phase_driver.h",
        .text [] (.gates :: .sym (.tag b!"ccn_action_id") :: syms [b!"ccn_action", b!"NULL"])])
      (.incl (.incl (.incl (.incl (.incl (.incl (.incl (.uses ?_ .nil)))))))) (by decide +kernel)
    intro x hx
    rcases List.mem_cons.1 hx with rfl | hx
    · exact ⟨_, List.mem_cons_of_mem _ List.mem_cons_self, List.mem_singleton.2 rfl⟩
    rcases List.mem_append.1 hx with hx | hx
    · obtain ⟨c, hc, rfl⟩ := List.mem_map.1 hx
      exact ⟨.sym (.word c), List.mem_cons_of_mem _ (List.mem_cons_of_mem _ (List.mem_map_of_mem hc)), List.mem_singleton.2 rfl⟩
    · exact ⟨.gates, List.mem_cons_self, hx⟩
  · exact passes_source S U C

end

end Verif.GenFiles
