import Verif.Lemmas.CopyGen
import Verif.Props.CopyFree
import Verif.Props.Described
import Verif.Props.Compiled

/-!
# Property theorems C72: copying and releasing trees of an accepted description

The theorems quantify over all descriptions that the phase `semantic` accepts, all tables that are those of the generated text, and all
trees.
-/

namespace Verif.Props
open Verif.Str Verif.Ids Verif.Semantic Verif.Described Verif.CopyGen
open Verif.Spec.Semantic (NodeAttr SetAttr TypesNamed Earlier Pairs)
open Verif.Spec.Described (Classic Simple Callable access)
open Verif.Spec.Compiled (Free)
open Verif.Spec.CopyGen (kind shape Handles Linked NoText Unmarked)
open Verif.Spec.Trav (Tree TreeAt CopyEnv FreeEnv OrOom New del need)
open Verif.Trav (Addr Mem St CCNcopy CCNfree NodeD)
open Verif.Tables (value DGEast DGTTast DGTVast DGSTast DGTDTast sTRAV sCpy sFree sCopy sCPY sDEL sCcn sVtable GenSystemTraversalVtable)

/-- The shapes of the nodes. -/
def shapes (A : Parse.Ast) (o : Out) : List NodeD := (nodeProg A o).nodes.map shape

/-- All tables of the generated text. -/
abbrev tablesOf (A : Parse.Ast) (names : Nat → Id) (rows : List (List Reach.Handler)) : List Tables.Table :=
  DGTVast names (Compiled.declsOf A).travs rows ++ DGSTast (Compiled.declsOf A).nodes

/-! ## Tables -/

theorem copyRow_eq (new : Mem → Option Addr) (Ds : List NodeD) (ty : Nat) :
    Trav.copyRow new ty Ds = Ds.mapIdx fun j D => Trav.DGCTinode new (ty + j) D := by
  induction Ds generalizing ty with
  | nil => rfl
  | cons D Ds ih =>
    rw [Trav.copyRow, ih, List.mapIdx_cons]
    congr 1
    congr 1
    funext j D
    congr 1
    omega

theorem freeRow_eq (Ds : List NodeD) (ty : Nat) : Trav.freeRow ty Ds = Ds.mapIdx fun j D => Trav.DGFTinode (ty + j) D := by
  induction Ds generalizing ty with
  | nil => rfl
  | cons D Ds ih =>
    rw [Trav.freeRow, ih, List.mapIdx_cons]
    congr 1
    congr 1
    funext j D
    congr 1
    omega

theorem pairs_get {α β : Type} {R : α → β → Prop} {l : List α} {m : List β} (h : Pairs R l m) :
    l.length = m.length ∧ ∀ (j : Nat) a b, l[j]? = some a → m[j]? = some b → R a b := by
  induction h with
  | nil => exact ⟨rfl, by simp⟩
  | cons h1 _ ih =>
    refine ⟨by simp [ih.1], fun j a b ha hb => ?_⟩
    cases j with
    | zero => cases ha; cases hb; exact h1
    | succ j => exact ih.2 j a b (by simpa using ha) (by simpa using hb)

/-- A row of the tables in memory. -/
theorem row_of {defs : List (CStr × (Addr → Trav.Prog))} {pre : CStr} {ids : List Id} {row : List (Addr → Trav.Prog)}
    (h : Pairs (Handles defs) (GenSystemTraversalVtable (some pre) sCopy ids).entries row) {H : List (Addr → Trav.Prog)} (hl : H.length = ids.length)
    (hd : ∀ (j : Nat) i g, ids[j]? = some i → H[j]? = some g → (pre ++ i.lwr, g) ∈ defs) : row = Trav.TRAVerror :: H := by
  rw [GenSystemTraversalVtable, Tables.system_map] at h
  dsimp only at h
  cases h with
  | cons h1 h2 =>
    rename_i b m
    obtain ⟨h3, h4⟩ := pairs_get h2
    rw [List.length_map] at h3
    rw [h1.error rfl]
    congr 1
    refine List.ext_getElem? fun j => ?_
    by_cases hj : j < ids.length
    · have e1 : m[j]? = some m[j] := List.getElem?_eq_getElem (by omega)
      have e2 : H[j]? = some H[j] := List.getElem?_eq_getElem (by omega)
      have e3 : ids[j]? = some ids[j] := List.getElem?_eq_getElem hj
      rw [e1, e2]
      congr 1
      exact (h4 j (.named (pre ++ ids[j].lwr)) _ (by rw [List.getElem?_map, e3]; rfl) e1).named _ rfl _ (hd j _ _ e3 e2)
    · rw [List.getElem?_eq_none (by omega), List.getElem?_eq_none (by omega)]

/-- The entry of the table of tables, the enumerator and the functions for data of a traversal of the system. -/
theorem system_row {a : Tables.Decls} (hn : Spec.Tables.Named a) {names : Nat → Id} {rows : List (List Reach.Handler)}
    (hl : rows.length = a.travs.length) {defs : List (CStr × (Addr → Trav.Prog))} {E : Trav.Env}
    (h : Linked a (DGTVast names a.travs rows ++ DGSTast a.nodes) defs E) (j : Nat) (x name pre : CStr)
    (hx : [sFree, Tables.sCheck, sCpy][j]? = some x)
    (hm : GenSystemTraversalVtable (some pre) name a.nodes ∈ DGSTast a.nodes)
    (ht : [sCcn ++ sFree ++ sVtable, sCcn ++ Tables.sCheck ++ sVtable, sCcn ++ sCopy ++ sVtable][j]? =
      some (GenSystemTraversalVtable (some pre) name a.nodes).name) :
    ∃ i, value (DGEast a).trav (sTRAV ++ x) = some i ∧ E.initTable[i]? = some .nop ∧ E.freeTable[i]? = some .nop ∧
      ∃ row, E.vtable[i]? = some row ∧ Pairs (Handles defs) (GenSystemTraversalVtable (some pre) name a.nodes).entries row := by
  have hv := trav_system hn j x hx
  refine ⟨_, hv, ?_, ?_, ?_⟩
  · obtain ⟨i, h1, h2⟩ := (C40_data_partial a hn true).2 x (by
      have := List.mem_of_getElem? hx
      simp only [List.mem_cons, List.not_mem_nil, or_false] at this ⊢
      exact .inr this)
    rw [hv] at h1
    cases h1
    exact h.init _ h2
  · obtain ⟨i, h1, h2⟩ := (C40_data_partial a hn false).2 x (by
      have := List.mem_of_getElem? hx
      simp only [List.mem_cons, List.not_mem_nil, or_false] at this ⊢
      exact .inr this)
    rw [hv] at h1
    cases h1
    exact h.fini _ h2
  · exact h.rows _ _ _ (by rw [vtable_system, ht]) (Tables.find_table (table_names_nodup hn hl) (List.mem_append_right _ hm))

/-- Fewer functions are known. -/
theorem linked_sub {a : Tables.Decls} {tables : List Tables.Table} {defs defs' : List (CStr × (Addr → Trav.Prog))} {E : Trav.Env}
    (h : Linked a tables defs E) (hs : ∀ d ∈ defs', d ∈ defs) : Linked a tables defs' E := by
  refine ⟨fun i n t h1 h2 => ?_, h.init, h.fini⟩
  obtain ⟨row, h3, h4⟩ := h.rows i n t h1 h2
  refine ⟨row, h3, ?_⟩
  clear h3 h1 h2
  generalize t.entries = es at h4
  induction h4 with
  | nil => exact .nil
  | cons h5 _ ih => exact .cons ⟨h5.error, fun x hx g hg => h5.named x hx g (hs _ hg)⟩ ih

section
variable {addr : Loc → Nat} {A : Parse.Ast} {fuel : Nat} {o : Out}

theorem setting_of (kn : Known A o) (hc : Classic A) (hf : Free A) {hd : NodeGen.Header} (hh : NodeGen.compile (nodeProg A o) = .ok hd) :
    Setting (nodeProg A o) hd (DGEast (Compiled.declsOf A)).node := by
  refine ⟨wf_prog kn hc, hh, fun k n hn => ?_⟩
  simp only [nodeProg, List.getElem?_mapIdx, Option.map_eq_some_iff] at hn
  obtain ⟨m, h1, rfl⟩ := hn
  exact node_value (Compiled.named_of kn.facts.right hf) (by simp only [Compiled.declsOf, List.getElem?_map, h1]; rfl)

theorem string_of (kn : Known A o) {k : Nat} {n : Parse.Node} (hn : A.nodes[k]? = some n) {b : Propagate.Attr} (hb : b ∈ o.attrs (.node k))
    (ht : (attrGen b).type = .string) : ∃ a, NodeAttr A k a ∧ a.type = .string ∧ (Spec.NodeGen.Computed (attrGen b) ↔ Spec.Described.Computed a) := by
  obtain ⟨a, h1, h2⟩ := from_node kn hn hb
  refine ⟨a, h1, ?_, gen_computed h2.like⟩
  unfold attrGen at ht
  dsimp only at ht
  cases hbt : b.type with
  | link => rw [hbt] at ht; cases ht
  | linkOrEnum => rw [hbt] at ht; cases ht
  | user => rw [hbt] at ht; cases ht
  | basic m =>
    rw [hbt] at ht
    obtain ⟨h3, h4, h5⟩ := h2.typed.basic m hbt
    dsimp only at ht
    rw [h3, basicOf_prim h4 h5] at ht
    revert ht
    cases a.type <;> simp [Spec.Described.cType]

theorem noText_of (kn : Known A o) (hx : NoText A) : ∀ n ∈ (nodeProg A o).nodes, noText n.attrs := by
  intro x hxm y hy ht
  obtain ⟨k, n, hn, rfl⟩ := at_node hxm
  obtain ⟨b, hb, rfl⟩ := List.mem_map.1 hy
  obtain ⟨a, h1, h2, h3⟩ := string_of kn hn hb ht
  have := hx k a h1 h2
  rw [← h3, ← Spec.NodeGen.or_iff] at this
  simpa using this

theorem unmarked_of (kn : Known A o) (hu : Unmarked A) : (NodeGen.macros (nodeProg A o)).any (·.name == sMaybe) = false := by
  have hmay : "MAYBE_UNUSED".toUTF8.toList = sMaybe := by decide +kernel
  rw [List.any_eq_false]
  intro m hm
  simp only [beq_iff_eq]
  have attr : ∀ (i : Id) (y : NodeGen.Attr), (NodeGen.DGNMattribute i y).name = i.upr ++ NodeGen.sU ++ y.name.upr := Spec.NodeGen.macroAttr_name
  unfold NodeGen.macros at hm
  rcases List.mem_append.1 hm with hm | hm
  · rcases List.mem_append.1 hm with hm | hm
    · obtain ⟨x, hxm, hm⟩ := List.mem_flatMap.1 hm
      obtain ⟨k, n, hn, rfl⟩ := at_node hxm
      rcases List.mem_append.1 hm with hm | hm
      · obtain ⟨c', hc', rfl⟩ := List.mem_map.1 hm
        obtain ⟨c, hc, rfl⟩ := List.mem_map.1 hc'
        have := hu.child n (List.mem_of_getElem? hn) c hc
        rw [hmay] at this
        intro e
        apply this
        rw [← e, access, NodeGen.DGNMchild]
        simp only [nodeGen, NodeGen.sU, List.append_assoc, List.cons_append, List.nil_append]
        rfl
      · obtain ⟨y, hy, rfl⟩ := List.mem_map.1 hm
        obtain ⟨b, hb, rfl⟩ := List.mem_map.1 hy
        obtain ⟨a, h1, h2⟩ := from_node kn hn hb
        have := hu.attr k n a hn h1
        rw [hmay] at this
        intro e
        apply this
        rw [attr] at e
        rw [← e, access, ← upper_of_same (gen_same h2 h2.like)]
        simp only [nodeGen, NodeGen.sU, List.append_assoc, List.cons_append, List.nil_append]
        rfl
    · obtain ⟨x, hxm, hm⟩ := List.mem_flatMap.1 hm
      obtain ⟨k, n, hn, rfl⟩ := at_set hxm
      obtain ⟨y, hy, rfl⟩ := List.mem_map.1 hm
      obtain ⟨b, hb, rfl⟩ := List.mem_map.1 hy
      obtain ⟨a, h1, h2⟩ := from_set kn hn hb
      have := hu.sets k n a hn h1
      rw [hmay] at this
      intro e
      apply this
      rw [attr] at e
      rw [← e, access, ← upper_of_same (gen_same h2 h2.like)]
      simp only [setGen, NodeGen.sU, List.append_assoc, List.cons_append, List.nil_append]
      rfl
  · have base : ∀ m ∈ NodeGen.baseMacros, ¬ m.name = sMaybe := by decide +kernel
    exact base m hm

/-- What is known about the functions of the copy traversal. -/
theorem copy_defs (kn : Known A o) (hc : Classic A) (hs : Simple A) (hf : Free A) (hu : Unmarked A)
    (hok : ∀ (k : Nat) (n : Parse.Node), A.nodes[k]? = some n → Callable A k n) :
    ∃ cs, ccn_copy (nodeProg A o) (DGEast (Compiled.declsOf A)).node = .ok cs ∧ ∀ (j : Nat) n, (nodeProg A o).nodes[j]? = some n →
      ∃ c, cs[j]? = some (sCPY ++ n.name.lwr, c) ∧ ∀ new, c new = Trav.DGCTinode new (1 + j) (shape n) := by
  obtain ⟨hd, hh⟩ := C53_header_partial _ (wf_prog kn hc) (plain_prog kn hs)
  have S := setting_of kn hc hf hh
  obtain ⟨cs, h1, h2⟩ := S.copies (nodeProg A o).nodes [] rfl fun n hn => by
    obtain ⟨k, m, hm, rfl⟩ := at_node hn
    exact ctor_prog kn hm (hok k m hm)
  refine ⟨cs, ?_, fun j n hn => ?_⟩
  · unfold ccn_copy
    rw [hh, Res.bind_ok, (Spec.NodeGen.compiled hh).macros, unmarked_of kn hu]
    exact h1
  · obtain ⟨c, h3, h4⟩ := h2 j n hn
    refine ⟨c, h3, fun new => ?_⟩
    rw [h4 new]
    congr 1
    simp only [List.length_nil]
    omega

theorem free_defs (kn : Known A o) (hc : Classic A) (hf : Free A) {hd : NodeGen.Header} (hh : NodeGen.compile (nodeProg A o) = .ok hd) (hx : NoText A) :
    ∃ cs, ccn_free (nodeProg A o) (DGEast (Compiled.declsOf A)).node = .ok cs ∧ ∀ (j : Nat) n, (nodeProg A o).nodes[j]? = some n →
      ∃ c, cs[j]? = some (sDEL ++ n.name.lwr, c) ∧ ∀ new, c new = Trav.DGFTinode (1 + j) (shape n) := by
  have S := setting_of kn hc hf hh
  obtain ⟨cs, h1, h2⟩ := (S.frees (nodeProg A o).nodes [] rfl).1 (noText_of kn hx)
  refine ⟨cs, ?_, fun j n hn => ?_⟩
  · unfold ccn_free
    rw [hh, Res.bind_ok]
    exact h1
  · obtain ⟨c, h3, h4⟩ := h2 j n hn
    refine ⟨c, h3, fun new => ?_⟩
    rw [h4 new]
    congr 1
    simp only [List.length_nil]
    omega

theorem names_eq : (Compiled.declsOf A).nodes = (nodeProg A o).nodes.map (·.name) := by
  refine List.ext_getElem? fun j => ?_
  simp only [Compiled.declsOf, nodeProg, List.getElem?_map, List.getElem?_mapIdx, Option.map_map]
  rfl

theorem copy_env (kn : Known A o) (hf : Free A) {cs : List (CStr × Code)} (hcs : ∀ (j : Nat) n, (nodeProg A o).nodes[j]? = some n →
      ∃ c, cs[j]? = some (sCPY ++ n.name.lwr, c) ∧ ∀ new, c new = Trav.DGCTinode new (1 + j) (shape n))
    {names : Nat → Id} {rows : List (List Reach.Handler)} (hl : rows.length = A.traversals.length) {new : Mem → Option Addr} {E : Trav.Env}
    (hE : Linked (Compiled.declsOf A) (tablesOf A names rows) (cs.map fun d => (d.1, d.2 new)) E)
    (hw : ∀ s a, E.newFrame s = some a → s.frames a = none) (hnew : ∀ m a, new m = some a → m a = none) :
    ∃ cpy, value (DGEast (Compiled.declsOf A)).trav (sTRAV ++ sCpy) = some cpy ∧ CopyEnv E new (shapes A o) cpy := by
  have hn := Compiled.named_of kn.facts.right hf
  obtain ⟨i, h1, h2, h3, row, h4, h5⟩ := system_row hn (by simpa [Compiled.declsOf] using hl) hE 2 sCpy sCopy sCPY rfl (by simp [DGSTast]) rfl
  refine ⟨i, h1, ?_, h2, h3, hw, hnew⟩
  rw [h4, Trav.ccn_copy_vtable, copyRow_eq]
  congr 1
  rw [names_eq (o := o)] at h5
  refine row_of h5 (by simp [shapes]) fun j d g hi hg => ?_
  rw [List.getElem?_map, Option.map_eq_some_iff] at hi
  obtain ⟨n, hn, rfl⟩ := hi
  rw [List.getElem?_mapIdx, shapes, List.getElem?_map, hn] at hg
  simp only [Option.map_some, Option.some.injEq] at hg
  obtain ⟨c, hc1, hc2⟩ := hcs j n hn
  exact List.mem_map.2 ⟨_, List.mem_of_getElem? hc1, by rw [← hg, ← hc2]⟩

theorem free_env (kn : Known A o) (hf : Free A) {cs : List (CStr × Code)} (hcs : ∀ (j : Nat) n, (nodeProg A o).nodes[j]? = some n →
      ∃ c, cs[j]? = some (sDEL ++ n.name.lwr, c) ∧ ∀ new, c new = Trav.DGFTinode (1 + j) (shape n))
    {names : Nat → Id} {rows : List (List Reach.Handler)} (hl : rows.length = A.traversals.length) {new : Mem → Option Addr} {E : Trav.Env}
    (hE : Linked (Compiled.declsOf A) (tablesOf A names rows) (cs.map fun d => (d.1, d.2 new)) E)
    (hw : ∀ s a, E.newFrame s = some a → s.frames a = none) :
    ∃ free, value (DGEast (Compiled.declsOf A)).trav (sTRAV ++ sFree) = some free ∧ FreeEnv E (shapes A o) free := by
  have hn := Compiled.named_of kn.facts.right hf
  obtain ⟨i, h1, h2, h3, row, h4, h5⟩ := system_row hn (by simpa [Compiled.declsOf] using hl) hE 0 sFree sFree sDEL rfl (by simp [DGSTast]) rfl
  refine ⟨i, h1, ?_, h2, h3, hw⟩
  rw [h4, Trav.ccn_free_vtable, freeRow_eq]
  congr 1
  rw [names_eq (o := o)] at h5
  refine row_of h5 (by simp [shapes]) fun j d g hi hg => ?_
  rw [List.getElem?_map, Option.map_eq_some_iff] at hi
  obtain ⟨n, hn, rfl⟩ := hi
  rw [List.getElem?_mapIdx, shapes, List.getElem?_map, hn] at hg
  simp only [Option.map_some, Option.some.injEq] at hg
  obtain ⟨c, hc1, hc2⟩ := hcs j n hn
  exact List.mem_map.2 ⟨_, List.mem_of_getElem? hc1, by rw [← hg, ← hc2 new]⟩

theorem builds_of (kn : Known A o) (hx : NoText A) : Trav.freeBuilds (shapes A o) = true := by
  unfold Trav.freeBuilds shapes
  simp only [List.all_eq_true]
  intro D hD a ha
  obtain ⟨n, hn, rfl⟩ := List.mem_map.1 hD
  obtain ⟨y, hy, rfl⟩ := List.mem_map.1 ha
  have := noText_of kn hx n hn y hy
  dsimp only
  split
  · rename_i e
    rw [this (kind_string.1 e)]
    rfl
  · rfl

theorem few_of (h : ∀ n ∈ A.nodes, n.children.length ≤ 2147483647) : ∀ D ∈ shapes A o, D.kids.length ≤ 2147483647 := by
  intro D hD
  obtain ⟨x, hx, rfl⟩ := List.mem_map.1 hD
  obtain ⟨k, n, hn, rfl⟩ := at_node hx
  simpa [shape, nodeGen] using h n (List.mem_of_getElem? hn)

end

/-! ## C72 -/

/-- C72: the functions of the copy traversal that are generated for an accepted description compile, and with them `CCNcopy` returns a tree
that is equal, in new memory.  Missing: computed attributes in a constructor, names that do not work as such, a field with the macro
`MAYBE_UNUSED` (`C72_unused_false`), and the values of computed attributes (`C37_inherited_false`). -/
theorem C72_copy_partial (addr : Loc → Nat) (A : Parse.Ast) (ha : Spec.Semantic.Apart addr) (hp : TypesNamed A) (he : Earlier A) (fuel : Nat) (o : Out)
    (h : checks addr fuel A = .ok o) (h0 : o.errors = 0) (hc : Classic A) (hs : Simple A) (hf : Free A) (hu : Unmarked A)
    (hok : ∀ (k : Nat) (n : Parse.Node), A.nodes[k]? = some n → Callable A k n) :
    ∃ cs, ccn_copy (nodeProg A o) (DGEast (Compiled.declsOf A)).node = .ok cs ∧
      ∀ (names : Nat → Id) (rows : List (List Reach.Handler)), rows.length = A.traversals.length →
      ∀ (new : Mem → Option Addr) (E : Trav.Env),
        Linked (Compiled.declsOf A) (tablesOf A names rows) (cs.map fun d => (d.1, d.2 new)) E →
        (∀ s a, E.newFrame s = some a → s.frames a = none) → (∀ m a, new m = some a → m a = none) →
        ∃ cpy, value (DGEast (Compiled.declsOf A)).trav (sTRAV ++ sCpy) = some cpy ∧
          ∀ (t : Tree) (a : Addr) (fp : List Addr) (s : St) (n : Nat), TreeAt (shapes A o) s.mem t a fp → need t < n →
            OrOom (CCNcopy E cpy n (some a) s) fun r => ∃ q fp', r.1 = some q ∧ TreeAt (shapes A o) r.2.mem t q fp' ∧
              New s.mem r.2.mem fp' ∧ r.2.cur = s.cur ∧ r.2.frames = s.frames ∧ r.2.dmem = s.dmem := by
  have kn := known_of ha hp he h h0
  obtain ⟨cs, h1, h2⟩ := copy_defs kn hc hs hf hu hok
  refine ⟨cs, h1, fun names rows hl new E hE hw hn => ?_⟩
  obtain ⟨cpy, h3, h4⟩ := copy_env kn hf h2 hl hE hw hn
  exact ⟨cpy, h3, fun t a fp s n ht hlt => C37_copy_partial h4 ht hlt⟩

/-- C72: if `ast.h` compiles and no string is computed, the functions of the free traversal compile, and with them `CCNfree` releases
exactly the tree. -/
theorem C72_free_partial (addr : Loc → Nat) (A : Parse.Ast) (ha : Spec.Semantic.Apart addr) (hp : TypesNamed A) (he : Earlier A) (fuel : Nat) (o : Out)
    (h : checks addr fuel A = .ok o) (h0 : o.errors = 0) (hc : Classic A) (hd : NodeGen.Header) (hh : NodeGen.compile (nodeProg A o) = .ok hd)
    (hf : Free A) (hx : NoText A) (hk : ∀ n ∈ A.nodes, n.children.length ≤ 2147483647) :
    ∃ cs, ccn_free (nodeProg A o) (DGEast (Compiled.declsOf A)).node = .ok cs ∧
      ∀ (names : Nat → Id) (rows : List (List Reach.Handler)), rows.length = A.traversals.length →
      ∀ (new : Mem → Option Addr) (E : Trav.Env),
        Linked (Compiled.declsOf A) (tablesOf A names rows) (cs.map fun d => (d.1, d.2 new)) E →
        (∀ s a, E.newFrame s = some a → s.frames a = none) →
        ∃ free, value (DGEast (Compiled.declsOf A)).trav (sTRAV ++ sFree) = some free ∧
          ∀ (t : Tree) (a : Addr) (fp : List Addr) (s : St) (n : Nat), TreeAt (shapes A o) s.mem t a fp → fp.Nodup → need t < n →
            OrOom (CCNfree E free n (some a) s) fun r => r.1 = none ∧ r.2.mem = del fp s.mem ∧ r.2.cur = s.cur ∧
              r.2.frames = s.frames ∧ r.2.dmem = s.dmem := by
  have kn := known_of ha hp he h h0
  obtain ⟨cs, h1, h2⟩ := free_defs kn hc hf hh hx
  refine ⟨cs, h1, fun names rows hl new E hE hw => ?_⟩
  obtain ⟨free, h3, h4⟩ := free_env kn hf h2 hl hE hw
  exact ⟨free, h3, fun t a fp s n ht hnd hlt => C38_free_partial h4 (builds_of kn hx) (few_of hk) ht hnd hlt⟩

/-- C72: if `ast.h` compiles, the functions of the free traversal compile exactly if no node has a string that is computed. -/
theorem C72_builds_partial (addr : Loc → Nat) (A : Parse.Ast) (ha : Spec.Semantic.Apart addr) (hp : TypesNamed A) (he : Earlier A) (fuel : Nat) (o : Out)
    (h : checks addr fuel A = .ok o) (h0 : o.errors = 0) (hc : Classic A) (hd : NodeGen.Header) (hh : NodeGen.compile (nodeProg A o) = .ok hd)
    (hf : Free A) :
    ((∃ cs, ccn_free (nodeProg A o) (DGEast (Compiled.declsOf A)).node = .ok cs) ↔
      ∀ x ∈ (nodeProg A o).nodes, ∀ y ∈ x.attrs, y.type = .string → ¬ Spec.NodeGen.Computed y) ∧
    (NoText A → ∃ cs, ccn_free (nodeProg A o) (DGEast (Compiled.declsOf A)).node = .ok cs) := by
  have kn := known_of ha hp he h h0
  have S := setting_of kn hc hf hh
  have F := S.frees (nodeProg A o).nodes [] rfl
  have e : ccn_free (nodeProg A o) (DGEast (Compiled.declsOf A)).node = freeCodes hd (DGEast (Compiled.declsOf A)).node (nodeProg A o).nodes := by
    unfold ccn_free
    rw [hh, Res.bind_ok]
  have same : (∀ x ∈ (nodeProg A o).nodes, noText x.attrs) ↔
      ∀ x ∈ (nodeProg A o).nodes, ∀ y ∈ x.attrs, y.type = .string → ¬ Spec.NodeGen.Computed y := by
    unfold noText
    simp only [← Spec.NodeGen.or_iff, Bool.not_eq_true]
  refine ⟨⟨fun hok => ?_, fun hno => ?_⟩, fun hx => ?_⟩
  · obtain ⟨cs, hcs⟩ := hok
    rw [← same]
    refine Classical.byContradiction fun hno => ?_
    rw [e, F.2 hno] at hcs
    cases hcs
  · obtain ⟨cs, hcs, _⟩ := F.1 (same.2 hno)
    exact ⟨cs, by rw [e]; exact hcs⟩
  · obtain ⟨cs, hcs, _⟩ := F.1 (noText_of kn hx)
    exact ⟨cs, by rw [e]; exact hcs⟩

/-- C72: copying a tree and releasing the copy, both with the generated functions, leaves memory as it was. -/
theorem C72_roundtrip_partial (addr : Loc → Nat) (A : Parse.Ast) (ha : Spec.Semantic.Apart addr) (hp : TypesNamed A) (he : Earlier A) (fuel : Nat)
    (o : Out) (h : checks addr fuel A = .ok o) (h0 : o.errors = 0) (hc : Classic A) (hs : Simple A) (hf : Free A) (hu : Unmarked A) (hx : NoText A)
    (hok : ∀ (k : Nat) (n : Parse.Node), A.nodes[k]? = some n → Callable A k n) (hk : ∀ n ∈ A.nodes, n.children.length ≤ 2147483647) :
    ∃ cs fs, ccn_copy (nodeProg A o) (DGEast (Compiled.declsOf A)).node = .ok cs ∧ ccn_free (nodeProg A o) (DGEast (Compiled.declsOf A)).node = .ok fs ∧
      ∀ (names : Nat → Id) (rows : List (List Reach.Handler)), rows.length = A.traversals.length →
      ∀ (new : Mem → Option Addr) (E : Trav.Env),
        Linked (Compiled.declsOf A) (tablesOf A names rows) ((cs ++ fs).map fun d => (d.1, d.2 new)) E →
        (∀ s a, E.newFrame s = some a → s.frames a = none) → (∀ m a, new m = some a → m a = none) →
        ∃ cpy free, value (DGEast (Compiled.declsOf A)).trav (sTRAV ++ sCpy) = some cpy ∧
          value (DGEast (Compiled.declsOf A)).trav (sTRAV ++ sFree) = some free ∧
          ∀ (t : Tree) (a : Addr) (fp : List Addr) (s : St) (n : Nat), TreeAt (shapes A o) s.mem t a fp → need t < n →
            OrOom (do
              let r ← CCNcopy E cpy n (some a) s
              CCNfree E free n r.1 r.2) fun r => r.1 = none ∧ r.2.mem = s.mem := by
  have kn := known_of ha hp he h h0
  obtain ⟨hd, hh⟩ := C53_header_partial _ (wf_prog kn hc) (plain_prog kn hs)
  obtain ⟨cs, h1, h2⟩ := copy_defs kn hc hs hf hu hok
  obtain ⟨fs, h3, h4⟩ := free_defs kn hc hf hh hx
  refine ⟨cs, fs, h1, h3, fun names rows hl new E hE hw hn => ?_⟩
  rw [List.map_append] at hE
  obtain ⟨cpy, h5, h6⟩ := copy_env kn hf h2 hl (linked_sub hE fun d hd => List.mem_append_left _ hd) hw hn
  obtain ⟨free, h7, h8⟩ := free_env kn hf h4 hl (linked_sub hE fun d hd => List.mem_append_right _ hd) hw
  exact ⟨cpy, free, h5, h7, fun t a fp s n ht hlt => C38_copy_free_partial h6 h8 (builds_of kn hx) (few_of hk) ht hlt⟩

/-! ## Examples -/

/-- The function for an entry. -/
def pick (defs : List (CStr × (Addr → Trav.Prog))) : Tables.Fun → Addr → Trav.Prog
  | .named x => ((defs.find? (·.1 == x)).map (·.2)).getD Trav.TRAVerror
  | _ => Trav.TRAVerror

/-- Tables in memory. -/
def linkEnv (a : Tables.Decls) (tables : List Tables.Table) (defs : List (CStr × (Addr → Trav.Prog))) : Trav.Env where
  vtable := (DGTTast a).map fun n => ((tables.find? (fun t => decide (t.name = n))).map fun t => t.entries.map (pick defs)).getD []
  initTable := (DGTDTast true a).map fun _ => .nop
  freeTable := (DGTDTast false a).map fun _ => .nop
  passes := []
  newFrame s := tNew s.frames
  newData s := tNew s.dmem

/-- Functions with different names can be linked with all tables. -/
theorem linkEnv_linked (a : Tables.Decls) (tables : List Tables.Table) (defs : List (CStr × (Addr → Trav.Prog))) (hd : (defs.map (·.1)).Nodup) :
    Linked a tables defs (linkEnv a tables defs) := by
  have pairs : ∀ es : List Tables.Fun, Pairs (Handles defs) es (es.map (pick defs)) := by
    intro es
    induction es with
    | nil => exact .nil
    | cons e es ih =>
      refine .cons ⟨fun he => by rw [he]; rfl, fun x hx g hg => ?_⟩ ih
      rw [hx, pick, find_map (fun d : CStr × (Addr → Trav.Prog) => d.1) defs (List.pairwise_map.1 hd) hg]
      rfl
  refine ⟨fun i n t h1 h2 => ⟨t.entries.map (pick defs), ?_, pairs _⟩, fun i hi => ?_, fun i hi => ?_⟩
  · simp only [linkEnv, List.getElem?_map, h1, Option.map_some, h2, Option.getD_some]
  · simp only [linkEnv, List.getElem?_map, hi, Option.map_some]
  · simp only [linkEnv, List.getElem?_map, hi, Option.map_some]

/-- `root node Prog { children { Item first { constructor }, Item last }, attributes { string title { constructor }, Item best, int size { constructor },
int val { synthesized } }, equations { val = {} } }  node Item { attributes { string text } }  traversal Scan …` -/
def copyFile : List Spec.Syntax.Entry :=
  [.node ⟨true, nm "Prog" 0, [⟨nm "Item" 0, nm "first" 0, some (true, [])⟩, ⟨nm "Item" 0, nm "last" 0, none⟩],
      [⟨.prim .string, nm "title" 0, some [.constructor]⟩, ⟨.named (nm "Item" 0), nm "best" 0, none⟩, intAttr "size" [.constructor],
        intAttr "val" [.synthesized]], [eqn none "val" []], [], false⟩,
    .node ⟨false, nm "Item" 0, [], [⟨.prim .string, nm "text" 0, none⟩], [], [], false⟩,
    .traversal ⟨nm "Scan" 0, none, nm "SC" 0, none, []⟩]

theorem unmarked_of_names {A : Parse.Ast} (h : ((A.nodes.map (·.name) ++ A.nodesets.map (·.name)).all fun n =>
    n.orig.map Spec.Str.upperB != "MAYBE".toUTF8.toList && decide ((95 : UInt8) ∉ n.orig)) = true) : Unmarked A := by
  have key : ∀ n : Parse.Name, n.orig.map Spec.Str.upperB ≠ "MAYBE".toUTF8.toList → (95 : UInt8) ∉ n.orig →
      ∀ c, access n c ≠ "MAYBE_UNUSED".toUTF8.toList := by
    intro n h1 h2 c e
    have e2 : "MAYBE_UNUSED".toUTF8.toList = "MAYBE".toUTF8.toList ++ 95 :: "UNUSED".toUTF8.toList := by decide +kernel
    rw [access, e2] at e
    have no1 : (95 : UInt8) ∉ n.orig.map Spec.Str.upperB := by
      intro hm
      obtain ⟨x, hx, h95⟩ := List.mem_map.1 hm
      rw [Spec.NodeGen.upperB_under x h95] at hx
      exact h2 hx
    have no2 : (95 : UInt8) ∉ "MAYBE".toUTF8.toList := by decide +kernel
    generalize n.orig.map Spec.Str.upperB = u at e h1 no1
    generalize "MAYBE".toUTF8.toList = v at e h1 no2
    apply h1
    clear h1 h2 e2
    induction u generalizing v with
    | nil =>
      cases v with
      | nil => rfl
      | cons y v =>
        simp only [List.nil_append, List.cons_append, List.cons.injEq] at e
        exact absurd (by rw [← e.1]; simp) no2
    | cons x u ih =>
      cases v with
      | nil =>
        simp only [List.nil_append, List.cons_append, List.cons.injEq] at e
        exact absurd (by rw [e.1]; simp) no1
      | cons y v =>
        simp only [List.cons_append, List.cons.injEq] at e
        rw [e.1, ih (fun h => no1 (List.mem_cons_of_mem _ h)) v e.2 (fun h => no2 (List.mem_cons_of_mem _ h))]
  simp only [List.all_eq_true, Bool.and_eq_true, bne_iff_ne, ne_eq, decide_eq_true_eq] at h
  have node : ∀ n ∈ A.nodes, ∀ c, access n.name c ≠ "MAYBE_UNUSED".toUTF8.toList := fun n hn c =>
    key n.name (h _ (List.mem_append_left _ (List.mem_map.2 ⟨n, hn, rfl⟩))).1 (h _ (List.mem_append_left _ (List.mem_map.2 ⟨n, hn, rfl⟩))).2 c
  refine ⟨fun n hn c _ => node n hn _, fun k n a hn _ => node n (List.mem_of_getElem? hn) _, fun i s a hs _ => ?_⟩
  have hm := h _ (List.mem_append_right _ (List.mem_map.2 ⟨s, List.mem_of_getElem? hs, rfl⟩))
  exact key s.name hm.1 hm.2 _

theorem noText_of_names {A : Parse.Ast} (h : attrsB (fun a => !(decide (a.type = .string) && (a.inherited || a.synthesized))) A = true) : NoText A := by
  intro k a hna ht hcm
  have := attrsB_node h hna
  unfold Spec.Described.Computed at hcm
  rcases hcm with e | e <;> simp [ht, e] at this

/-- A tree of the description: a program with an item as its first child, which is also the best one. -/
def copyTree : Tree := .mk 2 (1, 2, 3, 4) (some [102]) (.some (.mk 1 (1, 1, 1, 1) none .nil [.str none]) (.none .nil))
  [.str (some [115]), .link (some 12), .plain 8, .hidden]

def copyMem : Mem := fun a =>
  if a = 10 then some (.node ⟨2, some 11, some 11, some 16, 2, 1, 2, 3, 4⟩)
  else if a = 11 then some (.data ⟨2, [some 12, none], [.plain (.ptr (some 15)), .plain (.ptr (some 12)), .plain (.word 8),
    .nested (.word 1) (.word 5)]⟩)
  else if a = 12 then some (.node ⟨1, some 13, none, none, 0, 1, 1, 1, 1⟩)
  else if a = 13 then some (.data ⟨1, [], [.plain (.ptr none)]⟩)
  else if a = 15 then some (.str [115])
  else if a = 16 then some (.str [102])
  else none

def copyShapes : List NodeD :=
  [⟨[], [⟨.string, false, false, false⟩]⟩,
   ⟨[true, false], [⟨.string, false, false, true⟩, ⟨.link, false, false, false⟩, ⟨.plain, false, false, true⟩, ⟨.plain, false, true, false⟩]⟩]

theorem copyTree_at : TreeAt copyShapes copyMem copyTree 10 [10, 11, 16, 12, 13, 15] := by
  have h3 : TreeAt copyShapes copyMem (.mk 1 (1, 1, 1, 1) none .nil [.str none]) 12 [12, 13] := by
    unfold TreeAt
    refine ⟨_, _, [], [.plain (.ptr none)], [13], [], [], [], rfl, rfl, rfl, rfl, rfl, rfl,
      Or.inr ⟨by simp, 13, rfl, rfl, rfl, fun h => absurd rfl h, rfl⟩, by simp [Spec.Trav.KidsAt], ?_, rfl⟩
    exact ⟨[], [], ⟨none, none, rfl, rfl, rfl⟩, rfl, rfl⟩
  unfold copyTree TreeAt
  refine ⟨_, _, [some 12, none], [.plain (.ptr (some 15)), .plain (.ptr (some 12)), .plain (.word 8), .nested (.word 1) (.word 5)],
    [11], [16], [12, 13], [15], rfl, rfl, rfl, rfl, rfl, ⟨rfl, rfl⟩,
      Or.inr ⟨by simp, 11, rfl, rfl, rfl, fun _ => rfl, rfl⟩, ?_, ?_, rfl⟩
  · unfold Spec.Trav.KidsAt
    refine ⟨12, [none], [12, 13], [], rfl, h3, ?_, rfl⟩
    simp [Spec.Trav.KidsAt]
  · refine ⟨[15], [], ⟨some 15, some [115], rfl, rfl, rfl, rfl⟩, ?_, rfl⟩
    refine ⟨[], [], ⟨some 12, rfl, rfl, rfl⟩, ?_, rfl⟩
    refine ⟨[], [], ⟨8, rfl, rfl, rfl⟩, ?_, rfl⟩
    exact ⟨[], [], ⟨⟨_, _, rfl⟩, rfl, rfl⟩, rfl, rfl⟩

/-- The theorems about C72 apply to the sample: it is accepted, the functions are linked with the tables, and there is a tree. -/
example : Spec.Semantic.Apart sampleAddr ∧ TypesNamed (ast copyFile) ∧ Earlier (ast copyFile) ∧ Classic (ast copyFile) ∧ Simple (ast copyFile) ∧
    Free (ast copyFile) ∧ Unmarked (ast copyFile) ∧ NoText (ast copyFile) ∧
    (∀ (k : Nat) (n : Parse.Node), (ast copyFile).nodes[k]? = some n → Callable (ast copyFile) k n) ∧
    (∀ n ∈ (ast copyFile).nodes, n.children.length ≤ 2147483647) ∧
    ∃ o cs fs, checks sampleAddr 60 (ast copyFile) = .ok o ∧ o.errors = 0 ∧
      ccn_copy (nodeProg (ast copyFile) o) (DGEast (Compiled.declsOf (ast copyFile))).node = .ok cs ∧
      ccn_free (nodeProg (ast copyFile) o) (DGEast (Compiled.declsOf (ast copyFile))).node = .ok fs ∧
      (∀ (names : Nat → Id) (rows : List (List Reach.Handler)) (new : Mem → Option Addr), ∃ E,
        Linked (Compiled.declsOf (ast copyFile)) (tablesOf (ast copyFile) names rows) ((cs ++ fs).map fun d => (d.1, d.2 new)) E ∧
        ∀ s a, E.newFrame s = some a → s.frames a = none) ∧
      TreeAt (shapes (ast copyFile) o) copyMem copyTree 10 [10, 11, 16, 12, 13, 15] ∧ need copyTree < 20 := by
  refine ⟨sampleAddr_apart, named_of_plain (by decide +kernel), earlier_of_flat (by decide +kernel), classic_of (by decide +kernel),
    simple_of (by decide +kernel), free_of (by unfold Spec.Compiled.Null; decide +kernel), unmarked_of_names (by decide +kernel),
    noText_of_names (by decide +kernel), fun k n hn => callable_of hn (by decide +kernel), by decide +kernel, ?_⟩
  generalize hr : checks sampleAddr 60 (ast copyFile) = r
  have key : (match checks sampleAddr 60 (ast copyFile) with
    | .ok o =>
      match ccn_copy (nodeProg (ast copyFile) o) (DGEast (Compiled.declsOf (ast copyFile))).node,
          ccn_free (nodeProg (ast copyFile) o) (DGEast (Compiled.declsOf (ast copyFile))).node with
      | .ok cs, .ok fs => o.errors == 0 && decide (((cs ++ fs).map (·.1)).Nodup) && decide (shapes (ast copyFile) o = copyShapes)
      | _, _ => false
    | _ => false) = true := by decide +kernel
  rw [hr] at key
  cases r with
  | ok o =>
    dsimp only at key
    split at key
    · rename_i cs fs h1 h2
      simp only [Bool.and_eq_true, beq_iff_eq, decide_eq_true_eq] at key
      refine ⟨o, cs, fs, rfl, key.1.1, h1, h2, fun names rows new => ⟨linkEnv _ _ _, linkEnv_linked _ _ _ ?_, fun _ _ h => tNew_none h⟩, ?_, by decide⟩
      · rw [List.map_map]
        exact key.1.2
      · rw [key.2]
        exact copyTree_at
    · cases key
  | _ => cases key

/-! ## Where the claim is false -/

/-- C72 is false for a string that is computed: the description is accepted and `ast.h` compiles, but `DELx` uses a member that the struct does
not have. -/
theorem C72_string_false : ∃ f, Classic (ast f) ∧ Simple (ast f) ∧ Free (ast f) ∧ Unmarked (ast f) ∧
    (∀ (k : Nat) (n : Parse.Node), (ast f).nodes[k]? = some n → Callable (ast f) k n) ∧
    Yields f fun p => ccn_free p (DGEast (Compiled.declsOf (ast f))).node = .abort "no such member" :=
  ⟨oneFile [] [⟨.prim .string, nm "s" 0, some [.synthesized]⟩] [eqn none "s" []], classic_of (by decide +kernel), simple_of (by decide +kernel),
    free_of (by unfold Spec.Compiled.Null; decide +kernel), unmarked_of_names (by decide +kernel), fun k n hn => callable_of hn (by decide +kernel),
    yields_of (fun _ h => endsWith_eq h) (by decide +kernel) (by decide +kernel)⟩

/-- C72 is false for a node `Maybe` with a field `unused`: the file with the copy traversal defines the macro of this field in another way. -/
theorem C72_unused_false : ∃ f, Classic (ast f) ∧ Simple (ast f) ∧ Free (ast f) ∧ NoText (ast f) ∧
    (∀ (k : Nat) (n : Parse.Node), (ast f).nodes[k]? = some n → Callable (ast f) k n) ∧
    Yields f fun p => ccn_copy p (DGEast (Compiled.declsOf (ast f))).node = .abort "macro redefined" :=
  ⟨[.node ⟨true, nm "Maybe" 0, [], [intAttr "unused" []], [], [], false⟩], classic_of (by decide +kernel), simple_of (by decide +kernel),
    free_of (by unfold Spec.Compiled.Null; decide +kernel), noText_of_names (by decide +kernel), fun k n hn => callable_of hn (by decide +kernel),
    yields_of (fun _ h => endsWith_eq h) (by decide +kernel) (by decide +kernel)⟩

end Verif.Props
