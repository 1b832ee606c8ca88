import Verif.Lemmas.Declared

/-!
# Lemmas about the generated files
-/

namespace Verif.Declared
open Verif.Str Verif.Ids Verif.Tables Verif.Semantic Verif.Spec.Declared
open Verif.Spec.Str (lowerB upperB SameName)
open Verif.Spec.Targets (Target handler Aimed Numbered)
open Verif.Spec.Compiled (passFunction)
open Verif.Spec.Semantic (Pairs Earlier)
open Verif.Targets (unwrap_sets tables_ok)

variable {A : Parse.Ast} {tab : List (Ste Decl)}

/-! ### Pairs of traversals and sets -/

/-- The traversals with their sets. -/
def zipped (ts : List Parse.Traversal) (xs : List Sets.Tree) : List (Trav × Sets.Tree) := (ts.map travOf).zip xs

theorem zipped_mem {R : Parse.Traversal → Sets.Tree → Prop} {ts : List Parse.Traversal} {xs : List Sets.Tree} (h : Pairs R ts xs)
    {y : Trav × Sets.Tree} (hy : y ∈ zipped ts xs) : ∃ t ∈ ts, ∃ x, y = (travOf t, x) ∧ R t x := by
  induction h with
  | nil => cases hy
  | @cons t x ts xs r _ ih =>
    rcases List.mem_cons.1 (by simpa [zipped] using hy : y ∈ (travOf t, x) :: zipped ts xs) with rfl | hy
    · exact ⟨t, by simp, x, rfl, r⟩
    · obtain ⟨t', h1, h2⟩ := ih hy
      exact ⟨t', by simp [h1], h2⟩

theorem zipped_of {R : Parse.Traversal → Sets.Tree → Prop} {ts : List Parse.Traversal} {xs : List Sets.Tree} (h : Pairs R ts xs)
    {t : Parse.Traversal} (ht : t ∈ ts) : ∃ x, (travOf t, x) ∈ zipped ts xs ∧ R t x := by
  induction h with
  | nil => cases ht
  | @cons t' x ts xs r _ ih =>
    rcases List.mem_cons.1 ht with rfl | ht
    · exact ⟨x, by simp [zipped], r⟩
    · obtain ⟨x', h1, h2⟩ := ih ht
      exact ⟨x', by simp only [zipped, List.map_cons, List.zip_cons_cons, List.mem_cons]; exact .inr h1, h2⟩

theorem zipped_pairwise {R : Parse.Traversal → Sets.Tree → Prop} {ts : List Parse.Traversal} {xs : List Sets.Tree} (h : Pairs R ts xs)
    (hp : ts.Pairwise fun a b => ¬ SameName a.uid.orig b.uid.orig) :
    (zipped ts xs).Pairwise fun y z => y.1.iprefix.upr ≠ z.1.iprefix.upr := by
  induction h with
  | nil => exact .nil
  | @cons t x ts xs r hr ih =>
    obtain ⟨h1, h2⟩ := List.pairwise_cons.1 hp
    refine List.pairwise_cons.2 ⟨fun z hz e => ?_, ih h2⟩
    obtain ⟨t', h3, x', rfl, _⟩ := zipped_mem hr hz
    exact h1 t' h3 (Compiled.upr_iff.1 e)

theorem uids_pairwise (h : Right A tab) : A.traversals.Pairwise fun a b => ¬ SameName a.uid.orig b.uid.orig := by
  rw [List.pairwise_iff_getElem]
  intro i j hi hj hij e
  have := Compiled.uid_inj h (List.getElem?_eq_getElem hi) (List.getElem?_eq_getElem hj) e
  omega

theorem names_pairwise (h : Right A tab) : A.traversals.Pairwise fun a b => a.name.orig ≠ b.name.orig := by
  rw [List.pairwise_iff_getElem]
  intro i j hi hj hij e
  have := Compiled.trav_inj h (List.getElem?_eq_getElem hi) (List.getElem?_eq_getElem hj) (by rw [SameName, e])
  omega

/-! ### Membership -/

theorem data_iff (t : Parse.Traversal) : (travOf t).data = true ↔ t.data ≠ [] := by
  simp only [travOf]
  cases t.data <;> simp

theorem dataOf2_mem {t : Parse.Traversal} {f : Fn} : f ∈ dataOf2 (travOf t) ↔ t.data ≠ [] ∧ ∃ x ∈ dataNames, f = (x ++ t.name.orig, .data) := by
  rw [← data_iff]
  cases hd : (travOf t).data with
  | false => simp [dataOf2, hd]
  | true =>
    simp only [dataOf2, hd, dataNames, List.mem_cons, List.not_mem_nil, or_false, true_and, exists_eq_or_imp, exists_eq_left]
    rfl

theorem userOf2_mem {t : Parse.Traversal} {f : Fn} :
    f ∈ userOf2 (travOf t) ↔ t.data ≠ [] ∧ ∃ x ∈ userNames, f = (t.uid.orig.map upperB ++ x, .plain) := by
  rw [← data_iff]
  cases hd : (travOf t).data with
  | false => simp [userOf2, hd]
  | true =>
    simp only [userOf2, hd, userNames, List.mem_cons, List.not_mem_nil, or_false, true_and, exists_eq_or_imp, exists_eq_left]
    rfl

theorem system_mem {p : CStr} {f : Fn} : f ∈ systemInode p (A.nodes.map fun n => idOf n.name) ↔
    ∃ n ∈ A.nodes, f = (p ++ n.name.orig.map lowerB, .node) := by
  rw [system_eq, List.map_map, List.mem_map]
  exact exists_congr fun n => and_congr_right fun _ => eq_comm

theorem pass_fun (p : Parse.Pass) : DGHpassFuncName ⟨idOf p.name, p.uid.map idOf, p.func.map idOf⟩ = passFunction p := by
  obtain ⟨n, i, u, f⟩ := p
  cases u <;> cases f <;> rfl

theorem pass_decl (p : Parse.Pass) : passDecl ⟨idOf p.name, p.uid.map idOf, p.func.map idOf⟩ = passName p := by
  obtain ⟨n, i, u, f⟩ := p
  cases u <;> rfl

theorem passes_mem {f : Fn} : f ∈ DUGPipass (Compiled.declsOf A).passes ↔ ∃ p ∈ A.passes, f = (passFunction p, .node) := by
  simp only [passes_eq, Compiled.declsOf, List.map_map, List.mem_map, Function.comp_apply, pass_fun]
  exact exists_congr fun n => and_congr_right fun _ => eq_comm

theorem passDecls_mem {f : Fn} : f ∈ DGAHipass (Compiled.declsOf A).passes ↔ ∃ p ∈ A.passes, f = (passName p, .node) := by
  simp only [passDecls_eq, Compiled.declsOf, List.map_map, List.mem_map, Function.comp_apply, pass_decl]
  exact exists_congr fun n => and_congr_right fun _ => eq_comm

theorem inode_mem {f : Fn} : f ∈ DGAHinode (A.nodes.map fun n => idOf n.name) ↔
    ∃ x ∈ systemUids, ∃ n ∈ A.nodes, f = (x ++ n.name.orig.map lowerB, .node) := by
  have key : ∀ l : List Parse.Node, f ∈ DGAHinode (l.map fun n => idOf n.name) ↔
      ∃ x ∈ systemUids, ∃ n ∈ l, f = (x ++ n.name.orig.map lowerB, .node) := by
    intro l
    induction l with
    | nil => simp [DGAHinode]
    | cons n l ih =>
      simp only [List.map_cons, DGAHinode, List.mem_cons, ih]
      constructor
      · rintro (h | h | h | ⟨x, h1, m, h2, h3⟩)
        · exact ⟨sCPY, by decide, n, .inl rfl, h⟩
        · exact ⟨sDEL, by decide, n, .inl rfl, h⟩
        · exact ⟨sCHK, by decide, n, .inl rfl, h⟩
        · exact ⟨x, h1, m, .inr h2, h3⟩
      · rintro ⟨x, h1, m, rfl | h2, h3⟩
        · simp only [systemUids, List.mem_cons, List.not_mem_nil, or_false] at h1
          rcases h1 with rfl | rfl | rfl
          · exact .inl h3
          · exact .inr (.inl h3)
          · exact .inr (.inr (.inl h3))
        · exact .inr (.inr (.inr ⟨x, h1, m, h2, h3⟩))
  exact key A.nodes

/-- What is known of the sets after resolution. -/
abbrev Trees (A : Parse.Ast) (trees : List Sets.Tree) : Prop := Pairs (fun t x => Written A t x) A.traversals trees

theorem trees_of (h : Right A tab) (hm : Aimed A) {trees : List Sets.Tree} (ht : Pairs (Inodes A) A.traversals trees) : Trees A trees := by
  have key : ∀ {l : List Parse.Traversal} {m : List Sets.Tree}, Pairs (Inodes A) l m → (∀ t ∈ l, t ∈ A.traversals) →
      Pairs (fun t x => Written A t x) l m := by
    intro l m hp
    induction hp with
    | nil => exact fun _ => .nil
    | cons r _ ih => exact fun hs => .cons (written_of h hm (hs _ (by simp)) r) (ih fun t ht => hs t (by simp [ht]))
  exact key ht fun _ h => h

theorem travs_eq : (Compiled.declsOf A).travs = A.traversals.map travOf := rfl

theorem nodes_eq : (Compiled.declsOf A).nodes = A.nodes.map fun n => idOf n.name := rfl

theorem defs_mem {ts : List Table} {sets trees : List Sets.Tree} (ht : Trees A trees) {f : Fn} :
    f ∈ (filesOf (Compiled.declsOf A) ts sets trees).defs ↔ Function A f := by
  simp only [filesOf, List.mem_append, dgtdc_eq, files_eq, travs_eq, nodes_eq, system_mem, passes_mem, List.mem_flatMap]
  constructor
  · rintro (⟨t, h1, h2⟩ | ⟨n, h1, h2⟩ | ⟨n, h1, h2⟩ | ⟨n, h1, h2⟩ | h | ⟨y, h1, h2⟩)
    · obtain ⟨t, h3, rfl⟩ := List.mem_map.1 h1
      obtain ⟨h4, x, h5, rfl⟩ := dataOf2_mem.1 h2
      exact .inl (.data h5 h3 h4)
    · exact .inl (h2 ▸ .system (x := sCPY) (by decide) h1)
    · exact .inl (h2 ▸ .system (x := sDEL) (by decide) h1)
    · exact .inl (h2 ▸ .system (x := sCHK) (by decide) h1)
    · exact .inr h
    · obtain ⟨t, h3, x, rfl, h4⟩ := zipped_mem ht h1
      rcases h2 with h2 | h2
      · obtain ⟨h5, x, h6, rfl⟩ := userOf2_mem.1 h2
        exact .inl (.user h6 h3 h5)
      · obtain ⟨n, h5, h6, rfl⟩ := (h4.stubs f).1 h2
        exact .inl (.handler h3 h5 h6)
  · rintro (h | h)
    · cases h with
      | @handler t n h1 h2 h3 =>
        obtain ⟨x, h4, h5⟩ := zipped_of ht h1
        exact .inr (.inr (.inr (.inr (.inr ⟨_, h4, .inr ((h5.stubs _).2 ⟨n, h2, h3, rfl⟩)⟩))))
      | @system x n h1 h2 =>
        simp only [systemUids, List.mem_cons, List.not_mem_nil, or_false] at h1
        rcases h1 with rfl | rfl | rfl
        · exact .inr (.inl ⟨n, h2, rfl⟩)
        · exact .inr (.inr (.inl ⟨n, h2, rfl⟩))
        · exact .inr (.inr (.inr (.inl ⟨n, h2, rfl⟩)))
      | @data x t h1 h2 h3 => exact .inl ⟨_, List.mem_map.2 ⟨t, h2, rfl⟩, dataOf2_mem.2 ⟨h3, x, h1, rfl⟩⟩
      | @user x t h1 h2 h3 =>
        obtain ⟨y, h4, _⟩ := zipped_of ht h2
        exact .inr (.inr (.inr (.inr (.inr ⟨_, h4, .inl (userOf2_mem.2 ⟨h3, x, h1, rfl⟩)⟩))))
    · exact .inr (.inr (.inr (.inr (.inl h))))

theorem decls_mem {ts : List Table} {sets trees : List Sets.Tree} (ht : Trees A trees) {f : Fn} :
    f ∈ (filesOf (Compiled.declsOf A) ts sets trees).decls ↔
      (Other A f ∧ f.2 ≠ .plain) ∨ ∃ p ∈ A.passes, f = (passName p, .node) := by
  have hnone : sets.flatMap (DGAHsetliteral none) = [] := by
    rw [List.flatMap_eq_nil_iff]
    exact fun t _ => setliteral_none t
  simp only [filesOf, DGAHast, hnone, List.append_nil, List.mem_append, dgtdch_eq, heads_eq, travs_eq, nodes_eq, inode_mem, passDecls_mem,
    List.mem_flatMap]
  constructor
  · rintro ((⟨y, h1, h2⟩ | h | ⟨x, h1, n, h2, h3⟩) | ⟨t, h1, h2⟩)
    · obtain ⟨t, h3, x, rfl, h4⟩ := zipped_mem ht h1
      obtain ⟨n, h5, h6, rfl⟩ := (h4.heads f).1 h2
      exact .inl ⟨.handler h3 h5 h6, by simp⟩
    · exact .inr h
    · exact .inl (h3 ▸ ⟨.system h1 h2, by simp⟩)
    · obtain ⟨t, h3, rfl⟩ := List.mem_map.1 h1
      obtain ⟨h4, x, h5, rfl⟩ := dataOf2_mem.1 h2
      exact .inl ⟨.data h5 h3 h4, by simp⟩
  · rintro (⟨h, hp⟩ | h)
    · cases h with
      | @handler t n h1 h2 h3 =>
        obtain ⟨x, h4, h5⟩ := zipped_of ht h1
        exact .inl (.inl ⟨_, h4, (h5.heads _).2 ⟨n, h2, h3, rfl⟩⟩)
      | @system x n h1 h2 => exact .inl (.inr (.inr ⟨x, h1, n, h2, rfl⟩))
      | @data x t h1 h2 h3 => exact .inr ⟨_, List.mem_map.2 ⟨t, h2, rfl⟩, dataOf2_mem.2 ⟨h3, x, h1, rfl⟩⟩
      | user => exact absurd rfl hp
    · exact .inl (.inr (.inl h))

theorem calls_mem {ts : List Table} {sets trees : List Sets.Tree} {f : Fn} :
    f ∈ (filesOf (Compiled.declsOf A) ts sets trees).calls ↔ Other A f ∧ f.2 = .plain := by
  simp only [filesOf, calls_eq, travs_eq, List.mem_flatMap]
  constructor
  · rintro ⟨t, h1, h2⟩
    obtain ⟨t, h3, rfl⟩ := List.mem_map.1 h1
    obtain ⟨h4, x, h5, rfl⟩ := userOf2_mem.1 h2
    exact ⟨.user h5 h3 h4, rfl⟩
  · rintro ⟨h, hp⟩
    cases h with
    | @user x t h1 h2 h3 => exact ⟨_, List.mem_map.2 ⟨t, h2, rfl⟩, userOf2_mem.2 ⟨h3, x, h1, rfl⟩⟩
    | handler => cases hp
    | system => cases hp
    | data => cases hp

/-! ### What the tables refer to -/

theorem named_mem {s : Sig} {l : List Fun} {f : Fn} : f ∈ l.filterMap (ref s) ↔ f.2 = s ∧ Fun.named f.1 ∈ l := by
  rw [List.mem_filterMap]
  constructor
  · rintro ⟨g, h1, h2⟩
    cases g <;> simp only [ref, reduceCtorEq, Option.some.injEq] at h2
    subst h2
    exact ⟨rfl, h1⟩
  · rintro ⟨rfl, h⟩
    exact ⟨_, h, rfl⟩

theorem passTable_mem {g : CStr} : Fun.named g ∈ DGPTast (Compiled.declsOf A) ↔ ∃ p ∈ A.passes, g = passFunction p := by
  have key : ∀ l : List Parse.Pass, Fun.named g ∈ DGPTipass (l.map fun p => ⟨idOf p.name, p.uid.map idOf, p.func.map idOf⟩) ↔
      ∃ p ∈ l, g = passFunction p := by
    intro l
    induction l with
    | nil => simp [DGPTipass]
    | cons p l ih => simp [DGPTipass, ih, pass_fun]
  simp only [DGPTast, List.mem_cons, reduceCtorEq, false_or]
  exact key A.passes

theorem dataTable_mem {b : Bool} {g : CStr} : Fun.named g ∈ DGTDTast b (Compiled.declsOf A) ↔
    ∃ t ∈ A.traversals, t.data ≠ [] ∧ g = sData b ++ t.name.orig := by
  have key : ∀ l : List Parse.Traversal, Fun.named g ∈ DGTDTitraversal b (l.map travOf) ↔
      ∃ t ∈ l, t.data ≠ [] ∧ g = sData b ++ t.name.orig := by
    intro l
    induction l with
    | nil => simp [DGTDTitraversal]
    | cons t l ih =>
      simp only [List.map_cons, DGTDTitraversal, List.mem_cons, ih, exists_eq_or_imp, ← data_iff t]
      cases hd : (travOf t).data with
      | false => simp
      | true =>
        simp only [Fun.named.injEq, true_and]
        rfl
  simp only [DGTDTast, List.mem_append, List.mem_cons, List.not_mem_nil, or_false, reduceCtorEq, false_or]
  exact key A.traversals

theorem systemTable_mem {g : CStr} : (∃ T ∈ DGSTast (Compiled.declsOf A).nodes, Fun.named g ∈ T.entries) ↔
    ∃ x ∈ systemUids, ∃ n ∈ A.nodes, g = x ++ n.name.orig.map lowerB := by
  have some' : ∀ (p : CStr) (l : List Parse.Node), Fun.named g ∈ DGSTinode (some p) (l.map fun n => idOf n.name) ↔
      ∃ n ∈ l, g = p ++ n.name.orig.map lowerB := by
    intro p l
    induction l with
    | nil => simp [DGSTinode]
    | cons n l ih =>
      simp only [List.map_cons, DGSTinode, List.mem_cons, ih, exists_eq_or_imp, Fun.named.injEq]
      rfl
  have none' : ∀ l : List Parse.Node, Fun.named g ∉ DGSTinode none (l.map fun n => idOf n.name) := by
    intro l
    induction l with
    | nil => simp [DGSTinode]
    | cons n l ih => simpa [DGSTinode] using ih
  simp only [DGSTast, GenSystemTraversalVtable, List.mem_cons, List.not_mem_nil, or_false, exists_eq_or_imp, exists_eq_left, reduceCtorEq,
    false_or, nodes_eq, some', none', systemUids]
  constructor
  · rintro (h | h | h)
    · exact .inl h
    · exact .inr (.inr h)
    · exact .inr (.inl h)
  · rintro (h | h | h)
    · exact .inl h
    · exact .inr (.inr h)
    · exact .inr (.inl h)

theorem userTables_mem (names : Nat → Id) {g : CStr} : ∀ (ts : List Parse.Traversal) (hs : List (List Reach.Handler)),
    (∃ T ∈ DGTVast names (ts.map travOf) hs, Fun.named g ∈ T.entries) ↔
      ∃ (j : Nat) (t : Parse.Traversal) (es : List Reach.Handler), ts[j]? = some t ∧ hs[j]? = some es ∧ Fun.named g ∈ es.map (render (idOf t.uid).upr names)
  | [], hs => by simp [DGTVast]
  | t :: ts, [] => by simp [DGTVast]
  | t :: ts, h :: hs => by
    simp only [List.map_cons, DGTVast, List.mem_cons, exists_eq_or_imp, userTables_mem names ts hs]
    constructor
    · rintro (h1 | ⟨j, t', es, h1, h2, h3⟩)
      · exact ⟨0, t, h, rfl, rfl, h1⟩
      · exact ⟨j + 1, t', es, h1, h2, h3⟩
    · rintro ⟨j, t', es, h1, h2, h3⟩
      cases j with
      | zero =>
        cases h1
        cases h2
        exact .inl h3
      | succ j => exact .inr ⟨j, t', es, h1, h2, h3⟩

/-- What is known of the tables. -/
theorem refs_of {hs : List (List Reach.Handler)} (h4 : ∀ (j : Nat) t, A.traversals[j]? = some t → ∃ es, hs[j]? = some (.error :: es) ∧ es.length = A.nodes.length ∧
        ∀ (k : Nat) n, A.nodes[k]? = some n → ∃ f, es[k]? = some f ∧
          Spec.Targets.Entry A t k n (render (idOf t.uid).upr (Targets.nameOf A) f)) {sets trees : List Sets.Tree} {f : Fn} :
    f ∈ (filesOf (Compiled.declsOf A) (DGTVast (Targets.nameOf A) (Compiled.declsOf A).travs hs ++ DGSTast (Compiled.declsOf A).nodes) sets trees).refs ↔
      Function A f ∧ f.2 ≠ .plain := by
  have user : ∀ g, (∃ T ∈ DGTVast (Targets.nameOf A) (Compiled.declsOf A).travs hs, Fun.named g ∈ T.entries) ↔
      ∃ t ∈ A.traversals, ∃ n ∈ A.nodes, Target t A n ∧ g = handler t n := by
    intro g
    rw [travs_eq, userTables_mem]
    constructor
    · rintro ⟨j, t, es, h1, h2, h3⟩
      obtain ⟨es', h5, h6, h7⟩ := h4 j t h1
      rw [h2] at h5
      cases h5
      simp only [List.map_cons, render, List.mem_cons, reduceCtorEq, false_or, List.mem_map] at h3
      obtain ⟨y, h8, h9⟩ := h3
      change render (idOf t.uid).upr (Targets.nameOf A) y = _ at h9
      obtain ⟨k, h8⟩ := List.getElem?_of_mem h8
      have hk : k < A.nodes.length := by
        rw [← h6]
        exact (List.getElem?_eq_some_iff.1 h8).1
      obtain ⟨y', h10, h11⟩ := h7 k _ (List.getElem?_eq_getElem hk)
      rw [h8] at h10
      cases h10
      refine ⟨t, List.mem_of_getElem? h1, _, List.getElem_mem hk, ?_⟩
      cases Classical.em (Target t A A.nodes[k]) with
      | inl ht =>
        have := h11.user ht
        rw [h9] at this
        cases this
        exact ⟨ht, rfl⟩
      | inr ht =>
        rw [h9] at h11
        rcases h11.other ht with h | h <;> cases h
    · rintro ⟨t, h1, n, h2, h3, rfl⟩
      obtain ⟨j, h1⟩ := List.getElem?_of_mem h1
      obtain ⟨k, h2⟩ := List.getElem?_of_mem h2
      obtain ⟨es, h5, _, h7⟩ := h4 j t h1
      obtain ⟨y, h8, h9⟩ := h7 k n h2
      refine ⟨j, t, _, h1, h5, List.mem_map.2 ⟨y, ?_, h9.user h3⟩⟩
      exact List.mem_cons_of_mem _ (List.mem_of_getElem? h8)
  simp only [filesOf, List.mem_append, named_mem, passTable_mem, dataTable_mem, List.mem_flatMap]
  have split : ∀ g, (∃ T, (T ∈ DGTVast (Targets.nameOf A) (Compiled.declsOf A).travs hs ∨ T ∈ DGSTast (Compiled.declsOf A).nodes) ∧
      Fun.named g ∈ T.entries) ↔ (∃ t ∈ A.traversals, ∃ n ∈ A.nodes, Target t A n ∧ g = handler t n) ∨
        ∃ x ∈ systemUids, ∃ n ∈ A.nodes, g = x ++ n.name.orig.map lowerB := by
    intro g
    rw [← user, ← systemTable_mem]
    constructor
    · rintro ⟨T, h | h, h'⟩
      · exact .inl ⟨T, h, h'⟩
      · exact .inr ⟨T, h, h'⟩
    · rintro (⟨T, h, h'⟩ | ⟨T, h, h'⟩)
      · exact ⟨T, .inl h, h'⟩
      · exact ⟨T, .inr h, h'⟩
  rw [split]
  obtain ⟨g, s⟩ := f
  simp only
  constructor
  · rintro (⟨rfl, ⟨t, h1, n, h2, h3, rfl⟩ | ⟨x, h1, n, h2, rfl⟩⟩ | ⟨rfl, p, h1, rfl⟩ | ⟨rfl, t, h1, h2, rfl⟩ | ⟨rfl, t, h1, h2, rfl⟩)
    · exact ⟨.inl (.handler h1 h2 h3), by simp⟩
    · exact ⟨.inl (.system h1 h2), by simp⟩
    · exact ⟨.inr ⟨p, h1, rfl⟩, by simp⟩
    · exact ⟨.inl (.data (x := sData true) (by decide) h1 h2), by simp⟩
    · exact ⟨.inl (.data (x := sData false) (by decide) h1 h2), by simp⟩
  · rintro ⟨h | ⟨p, h1, h2⟩, hp⟩
    · generalize hf : (g, s) = f at h
      cases h with
      | @handler t n h1 h2 h3 => cases hf; exact .inl ⟨rfl, .inl ⟨t, h1, n, h2, h3, rfl⟩⟩
      | @system x n h1 h2 => cases hf; exact .inl ⟨rfl, .inr ⟨x, h1, n, h2, rfl⟩⟩
      | @data x t h1 h2 h3 =>
        cases hf
        simp only [dataNames, List.mem_cons, List.not_mem_nil, or_false] at h1
        rcases h1 with rfl | rfl
        · exact .inr (.inr (.inl ⟨rfl, t, h2, h3, rfl⟩))
        · exact .inr (.inr (.inr ⟨rfl, t, h2, h3, rfl⟩))
      | user => cases hf; exact absurd rfl hp
    · cases h2
      exact .inr (.inl ⟨rfl, p, h1, rfl⟩)

/-! ### No function twice -/

/-- The part of `Clear` that is about definitions. -/
def Once (A : Parse.Ast) : Prop :=
  (∀ t ∈ A.traversals, t.data ≠ [] → ∀ n ∈ A.nodes, Target t A n → ∀ x ∈ userNames, ¬ SameName n.name.orig x) ∧
  (A.passes.map passFunction).Nodup ∧ ∀ p ∈ A.passes, ∀ f, Other A f → passFunction p ≠ f.1

theorem system_single (h : Right A tab) (p : CStr) : Single (systemInode p (A.nodes.map fun n => idOf n.name)) := by
  rw [system_eq, single_map, List.map_map]
  have := nodup_prefix (p := p) (nodes_nodup h)
  rwa [List.map_map] at this

theorem fix_system {x : CStr} (hx : x ∈ systemUids) : x.map upperB = x := by
  simp only [systemUids, List.mem_cons, List.not_mem_nil, or_false] at hx
  rcases hx with rfl | rfl | rfl <;> rfl

theorem fix_user {x : CStr} (hx : x ∈ userNames) : x.map lowerB = x := by
  simp only [userNames, List.mem_cons, List.not_mem_nil, or_false] at hx
  rcases hx with rfl | rfl <;> rfl

/-- The phase `semantic` sees to unique ids. -/
theorem uids_of (h : Right A tab) : ∀ t ∈ A.traversals, ∀ x ∈ systemUids, ¬ SameName t.uid.orig x := by
  intro t ht x hx e
  refine h.sound.travUids _ (List.mem_map.2 ⟨t, ht, rfl⟩) (idOf t.uid) rfl ⟨x, ?_, (upper_fix (fix_system hx)).1 e⟩
  revert x
  intro x hx _
  have : systemUids.all (fun x => Spec.CheckExist.uidWords.contains x) = true := by decide +kernel
  exact List.contains_iff_mem.1 (List.all_eq_true.1 this x hx)

theorem defs_single (h : Right A tab) (hl : Lettered A) {ts : List Table} {sets trees : List Sets.Tree}
    (ht : Trees A trees) : Single (filesOf (Compiled.declsOf A) ts sets trees).defs ↔ Once A := by
  have data : ∀ {f : Fn}, f ∈ (A.traversals.map travOf).flatMap dataOf2 ↔ ∃ t ∈ A.traversals, t.data ≠ [] ∧ ∃ x ∈ dataNames, f = (x ++ t.name.orig, .data) := by
    intro f
    simp only [List.mem_flatMap, List.mem_map]
    constructor
    · rintro ⟨_, ⟨t, h1, rfl⟩, h2⟩
      exact ⟨t, h1, dataOf2_mem.1 h2⟩
    · rintro ⟨t, h1, h2⟩
      exact ⟨_, ⟨t, h1, rfl⟩, dataOf2_mem.2 h2⟩
  have stub : ∀ {f : Fn}, f ∈ (zipped A.traversals trees).flatMap (fun x => userOf2 x.1 ++ stubsOf (A.nodes.map fun n => idOf n.name) x) ↔
      ∃ t ∈ A.traversals, (t.data ≠ [] ∧ ∃ x ∈ userNames, f = (t.uid.orig.map upperB ++ x, .plain)) ∨
        ∃ n ∈ A.nodes, Target t A n ∧ f = (handler t n, .node) := by
    intro f
    simp only [List.mem_flatMap, List.mem_append]
    constructor
    · rintro ⟨y, h1, h2⟩
      obtain ⟨t, h3, x, rfl, h4⟩ := zipped_mem ht h1
      rw [userOf2_mem, h4.stubs] at h2
      exact ⟨t, h3, h2⟩
    · rintro ⟨t, h1, h2⟩
      obtain ⟨x, h3, h4⟩ := zipped_of ht h1
      rw [← userOf2_mem, ← h4.stubs] at h2
      exact ⟨_, h3, h2⟩
  have low1 : ∀ {n : Parse.Node}, n ∈ A.nodes → Low (n.name.orig.map lowerB) := fun hn => low_node hl hn
  have up1 : ∀ (t : Parse.Traversal), Up (t.uid.orig.map upperB) := fun t => up_upper _
  have passMem : ∀ {f : Fn}, f ∈ DUGPipass (Compiled.declsOf A).passes ↔ ∃ p ∈ A.passes, f = (passFunction p, .node) := passes_mem
  simp only [filesOf, travs_eq, nodes_eq, dgtdc_eq, files_eq]
  constructor
  · intro hs
    obtain ⟨_, s1, d1⟩ := single_append.1 hs
    obtain ⟨_, s2, d2⟩ := single_append.1 s1
    obtain ⟨_, s3, d3⟩ := single_append.1 s2
    obtain ⟨_, s4, d4⟩ := single_append.1 s3
    obtain ⟨s5, s6, d5⟩ := single_append.1 s4
    refine ⟨fun t h1 hd n h2 h3 x hx e => ?_, ?_, fun p hp f hf e => ?_⟩
    · obtain ⟨y, h4, h5⟩ := zipped_of ht h1
      have := (List.pairwise_flatMap.1 s6).1 _ h4
      obtain ⟨_, _, h6⟩ := single_append.1 this
      refine h6 _ (userOf2_mem.2 ⟨hd, x, hx, rfl⟩) _ ((h5.stubs _).2 ⟨n, h2, h3, rfl⟩) ?_
      rw [(lower_fix (fix_user hx)).1 e |> fun e => show handler t n = t.uid.orig.map upperB ++ x by rw [handler, e]]
    · rw [passes_eq, single_map] at s5
      simp only [Compiled.declsOf, List.map_map, Function.comp_def, pass_fun] at s5
      exact s5
    · have hp' : (passFunction p, Sig.node) ∈ DUGPipass (Compiled.declsOf A).passes := passMem.2 ⟨p, hp, rfl⟩
      cases hf with
      | @handler t n h1 h2 h3 => exact d5 _ hp' _ (stub.2 ⟨t, h1, .inr ⟨n, h2, h3, rfl⟩⟩) e
      | @system x n h1 h2 =>
        simp only [systemUids, List.mem_cons, List.not_mem_nil, or_false] at h1
        rcases h1 with rfl | rfl | rfl
        · exact d2 _ (system_mem.2 ⟨n, h2, rfl⟩) _ (List.mem_append_right _ (List.mem_append_right _ (List.mem_append_left _ hp'))) (Eq.symm e)
        · exact d3 _ (system_mem.2 ⟨n, h2, rfl⟩) _ (List.mem_append_right _ (List.mem_append_left _ hp')) (Eq.symm e)
        · exact d4 _ (system_mem.2 ⟨n, h2, rfl⟩) _ (List.mem_append_left _ hp') (Eq.symm e)
      | @data x t h1 h2 h3 =>
        exact d1 _ (data.2 ⟨t, h2, h3, x, h1, rfl⟩) _ (List.mem_append_right _ (List.mem_append_right _ (List.mem_append_right _
          (List.mem_append_left _ hp')))) (Eq.symm e)
      | @user x t h1 h2 h3 => exact d5 _ hp' _ (stub.2 ⟨t, h2, .inl ⟨h3, x, h1, rfl⟩⟩) e
  · rintro ⟨c2, c3, c4⟩
    have c1 := uids_of h
    have sysNe : ∀ {x y : CStr}, x ∈ systemUids → y ∈ systemUids → x ≠ y → ∀ f ∈ systemInode x (A.nodes.map fun n => idOf n.name),
        ∀ g ∈ systemInode y (A.nodes.map fun n => idOf n.name), f.1 ≠ g.1 := by
      intro x y hx hy hxy f hf g hg e
      obtain ⟨n, h1, rfl⟩ := system_mem.1 hf
      obtain ⟨m, h2, rfl⟩ := system_mem.1 hg
      exact hxy (split_eq (up_system hx) (up_system hy) (low1 h1) (low1 h2) e).1
    have sysPass : ∀ {x : CStr}, x ∈ systemUids → ∀ f ∈ systemInode x (A.nodes.map fun n => idOf n.name),
        ∀ g ∈ DUGPipass (Compiled.declsOf A).passes, f.1 ≠ g.1 := by
      intro x hx f hf g hg e
      obtain ⟨n, h1, rfl⟩ := system_mem.1 hf
      obtain ⟨p, h2, rfl⟩ := passMem.1 hg
      exact c4 p h2 _ (.system hx h1) (Eq.symm e)
    have sysStub : ∀ {x : CStr}, x ∈ systemUids → ∀ f ∈ systemInode x (A.nodes.map fun n => idOf n.name),
        ∀ g ∈ (zipped A.traversals trees).flatMap (fun x => userOf2 x.1 ++ stubsOf (A.nodes.map fun n => idOf n.name) x), f.1 ≠ g.1 := by
      intro x hx f hf g hg e
      obtain ⟨n, h1, rfl⟩ := system_mem.1 hf
      obtain ⟨t, h2, ⟨_, z, h3, rfl⟩ | ⟨m, h3, _, rfl⟩⟩ := stub.1 hg
      · exact c1 t h2 x hx (same_of_upper (split_eq (up_system hx) (up1 t) (low1 h1) (low_user h3) e).1.symm)
      · exact c1 t h2 x hx (same_of_upper (split_eq (up_system hx) (up1 t) (low1 h1) (low1 h3) e).1.symm)
    have s6 : Single ((zipped A.traversals trees).flatMap (fun x => userOf2 x.1 ++ stubsOf (A.nodes.map fun n => idOf n.name) x)) := by
      refine List.pairwise_flatMap.2 ⟨fun y hy => ?_, ?_⟩
      · obtain ⟨t, h3, x, rfl, h4⟩ := zipped_mem ht hy
        refine single_append.2 ⟨?_, h4.once, fun f hf g hg e => ?_⟩
        · show Single (userOf2 (travOf t))
          cases hd : (travOf t).data with
          | false => simp [userOf2, hd, Single]
          | true =>
            simp only [userOf2, hd, Single, List.pairwise_cons, List.mem_singleton, forall_eq, List.not_mem_nil, false_implies, implies_true,
              List.Pairwise.nil, and_true]
            intro e
            have := List.append_cancel_left e
            revert this
            decide
        · obtain ⟨hd, z, hz, rfl⟩ := userOf2_mem.1 hf
          obtain ⟨n, h5, h6, rfl⟩ := (h4.stubs g).1 hg
          refine c2 t h3 hd n h5 h6 z hz ((lower_fix (fix_user hz)).2 ?_)
          exact (split_eq (up1 t) (up1 t) (low_user hz) (low1 h5) e).2.symm
      · refine (zipped_pairwise ht (uids_pairwise h)).imp_of_mem fun {y z} hy hz hne f hf g hg e => hne ?_
        obtain ⟨t, _, x, rfl, h4⟩ := zipped_mem ht hy
        obtain ⟨t', _, x', rfl, h4'⟩ := zipped_mem ht hz
        have form : ∀ {t : Parse.Traversal} {x : Sets.Tree} {f : Fn}, Written A t x →
            f ∈ userOf2 (travOf t) ++ stubsOf (A.nodes.map fun n => idOf n.name) (travOf t, x) →
            ∃ a, Low a ∧ f.1 = t.uid.orig.map upperB ++ a := by
          intro t x f hw hf
          rcases List.mem_append.1 hf with hf | hf
          · obtain ⟨_, z, hz, rfl⟩ := userOf2_mem.1 hf
            exact ⟨z, low_user hz, rfl⟩
          · obtain ⟨n, h5, _, rfl⟩ := (hw.stubs f).1 hf
            exact ⟨_, low1 h5, rfl⟩
        obtain ⟨a, ha, ea⟩ := form h4 hf
        obtain ⟨b, hb, eb⟩ := form h4' hg
        rw [ea, eb] at e
        exact (split_eq (up1 t) (up1 t') ha hb e).1
    have s5 : Single (DUGPipass (Compiled.declsOf A).passes) := by
      rw [passes_eq, single_map]
      simp only [Compiled.declsOf, List.map_map, Function.comp_def, pass_fun]
      exact c3
    have s0 : Single ((A.traversals.map travOf).flatMap dataOf2) := by
      refine List.pairwise_flatMap.2 ⟨fun y hy => ?_, ?_⟩
      · obtain ⟨t, _, rfl⟩ := List.mem_map.1 hy
        cases hd : (travOf t).data with
        | false => simp [dataOf2, hd]
        | true =>
          simp only [dataOf2, hd, List.pairwise_cons, List.mem_singleton, forall_eq, List.not_mem_nil, false_implies, implies_true,
            List.Pairwise.nil, and_true]
          intro e
          have := (data_data (x := sData true) (y := sData false) (by decide) (by decide) e).1
          revert this
          decide
      · rw [List.pairwise_map]
        refine (names_pairwise h).imp fun {a b} hne f hf g hg e => hne ?_
        obtain ⟨_, x, hx, rfl⟩ := dataOf2_mem.1 hf
        obtain ⟨_, y, hy, rfl⟩ := dataOf2_mem.1 hg
        exact (data_data hx hy e).2
    refine single_append.2 ⟨s0, single_append.2 ⟨system_single h _, single_append.2 ⟨system_single h _, single_append.2 ⟨system_single h _,
      single_append.2 ⟨s5, s6, ?_⟩, ?_⟩, ?_⟩, ?_⟩, ?_⟩
    · intro f hf g hg e
      obtain ⟨p, h1, rfl⟩ := passMem.1 hf
      obtain ⟨t, h2, ⟨h4, z, h3, rfl⟩ | ⟨m, h3, h4, rfl⟩⟩ := stub.1 hg
      · exact c4 p h1 _ (.user h3 h2 h4) e
      · exact c4 p h1 _ (.handler h2 h3 h4) e
    · intro f hf g hg
      rcases List.mem_append.1 hg with hg | hg
      · exact sysPass (by decide) f hf g hg
      · exact sysStub (by decide) f hf g hg
    · intro f hf g hg
      rcases List.mem_append.1 hg with hg | hg
      · exact sysNe (by decide) (by decide) (by decide) f hf g hg
      rcases List.mem_append.1 hg with hg | hg
      · exact sysPass (by decide) f hf g hg
      · exact sysStub (by decide) f hf g hg
    · intro f hf g hg
      rcases List.mem_append.1 hg with hg | hg
      · exact sysNe (by decide) (by decide) (by decide) f hf g hg
      rcases List.mem_append.1 hg with hg | hg
      · exact sysNe (by decide) (by decide) (by decide) f hf g hg
      rcases List.mem_append.1 hg with hg | hg
      · exact sysPass (by decide) f hf g hg
      · exact sysStub (by decide) f hf g hg
    · intro f hf g hg e
      obtain ⟨t, h1, h2, x, hx, rfl⟩ := data.1 hf
      have sys : ∀ {y : CStr}, y ∈ systemUids → g ∉ systemInode y (A.nodes.map fun n => idOf n.name) := by
        intro y hy hg
        obtain ⟨n, h3, rfl⟩ := system_mem.1 hg
        exact data_node hl hx (up_system hy) h3 e
      rcases List.mem_append.1 hg with hg | hg
      · exact sys (by decide) hg
      rcases List.mem_append.1 hg with hg | hg
      · exact sys (by decide) hg
      rcases List.mem_append.1 hg with hg | hg
      · exact sys (by decide) hg
      rcases List.mem_append.1 hg with hg | hg
      · obtain ⟨p, h3, rfl⟩ := passMem.1 hg
        exact c4 p h3 _ (.data hx h1 h2) (Eq.symm e)
      · obtain ⟨t', h3, ⟨_, z, h4, rfl⟩ | ⟨m, h4, _, rfl⟩⟩ := stub.1 hg
        · exact data_user hx (up1 t') h4 e
        · exact data_node hl hx (up1 t') h4 e

/-! ### Compiling and linking -/

/-- What the files have. -/
structure Content (A : Parse.Ast) (F : Files) : Prop where
  refs : ∀ f, f ∈ F.refs ↔ Function A f ∧ f.2 ≠ .plain
  decls : ∀ f, f ∈ F.decls ↔ (Other A f ∧ f.2 ≠ .plain) ∨ ∃ p ∈ A.passes, f = (passName p, .node)
  calls : ∀ f, f ∈ F.calls ↔ Other A f ∧ f.2 = .plain
  defs : ∀ f, f ∈ F.defs ↔ Function A f
  single : Lettered A → (Single F.defs ↔ Once A)

theorem files_ok (h : Right A tab) (he : Earlier A) (hn : Numbered A) (hm : Aimed A) :
    ∃ N, ∀ fuel, N ≤ fuel → ∃ F, files fuel A tab = .ok F ∧ Content A F := by
  obtain ⟨qs, st, sets, N, h1, h2, _, h3⟩ := unwrap_sets h he
  obtain ⟨trees, h4, h5⟩ := inodesOf_ok A.traversals qs h3
  have ht := trees_of h hm h5
  obtain ⟨N', h6⟩ := Targets.tables_ok h he hn hm
  refine ⟨max N N', fun fuel hf => ?_⟩
  obtain ⟨hs, h7, _, h8⟩ := h6 fuel (Nat.le_trans (Nat.le_max_right _ _) hf)
  refine ⟨_, ?_, fun f => refs_of h8 (sets := sets) (trees := trees), fun f => decls_mem ht, fun f => calls_mem, fun f => defs_mem ht,
    fun hl => defs_single h hl ht⟩
  rw [files, h1 fuel (Nat.le_trans (Nat.le_max_left _ _) hf)]
  simp only [Res.bind_ok, h2, h4, h7]

theorem refs_calls {F : Files} (c : Content A F) (f : Fn) : f ∈ F.refs ++ F.calls ↔ f ∈ F.defs := by
  rw [List.mem_append, c.refs, c.calls, c.defs]
  constructor
  · rintro (h | h)
    · exact h.1
    · exact .inl h.1
  · intro h
    by_cases hp : f.2 = .plain
    · rcases h with h | ⟨p, _, rfl⟩
      · exact .inr ⟨h, hp⟩
      · cases hp
    · exact .inl ⟨h, hp⟩

/-- What has no repetition, and is among no more than as many, is all of them. -/
theorem mem_of_nodup {α : Type} [DecidableEq α] : ∀ {l m : List α}, l.Nodup → (∀ x ∈ l, x ∈ m) → m.length ≤ l.length → ∀ x ∈ m, x ∈ l
  | [], m, _, _, h, x, hx => by
    have : m = [] := List.length_eq_zero_iff.1 (by simpa using h)
    rw [this] at hx
    exact hx
  | a :: l, m, hn, hs, h, x, hx => by
    obtain ⟨h1, h2⟩ := List.nodup_cons.1 hn
    have hm := hs a (by simp)
    have h3 : (m.erase a).length = m.length - 1 := List.length_erase_of_mem hm
    have h4 : ∀ y ∈ l, y ∈ m.erase a := fun y hy =>
      (List.mem_erase_of_ne (by rintro rfl; exact h1 hy)).2 (hs y (by simp [hy]))
    by_cases e : x = a
    · simp [e]
    · have := mem_of_nodup h2 h4 (by rw [h3]; simp only [List.length_cons] at h; omega) x ((List.mem_erase_of_ne e).2 hx)
      exact List.mem_cons_of_mem _ this

/-- There are as many names of passes as functions. -/
theorem clear_names (h : Clear A) {p : Parse.Pass} (hp : p ∈ A.passes) : ∃ q ∈ A.passes, passFunction q = passName p := by
  have := mem_of_nodup (m := A.passes.map passName) h.passes (fun x hx => by
    obtain ⟨q, hq, rfl⟩ := List.mem_map.1 hx
    obtain ⟨r, hr, e⟩ := h.named q hq
    exact List.mem_map.2 ⟨r, hr, e.symm⟩) (by simp) (passName p) (List.mem_map.2 ⟨p, hp, rfl⟩)
  exact List.mem_map.1 this

theorem links_iff {F : Files} (c : Content A F) (hl : Lettered A) : Links F ↔ Clear A := by
  constructor
  · intro h
    have hs : Single F.defs := single_filter fun r hr => h.defined r ((refs_calls c r).2 hr)
    obtain ⟨c2, c3, c4⟩ := (c.single hl).1 hs
    refine ⟨c2, c3, c4, fun p hp => ?_⟩
    rcases (c.decls _).1 (h.declared (passFunction p, .node) ((c.refs _).2 ⟨.inr ⟨p, hp, rfl⟩, by simp⟩)) with h' | ⟨q, hq, h'⟩
    · exact absurd rfl (c4 p hp _ h'.1)
    · exact ⟨q, hq, congrArg Prod.fst h'⟩
  · intro h
    have hs : Single F.defs := (c.single hl).2 ⟨h.nodes, h.passes, h.others⟩
    have form : ∀ f, f ∈ F.decls → f.2 = .node ∨ (f.2 = .data ∧ ∃ t ∈ A.traversals, t.data ≠ [] ∧ ∃ x ∈ dataNames, f.1 = x ++ t.name.orig) := by
      intro f hf
      rcases (c.decls f).1 hf with ⟨h', hp⟩ | ⟨p, _, rfl⟩
      · cases h' with
        | handler => exact .inl rfl
        | system => exact .inl rfl
        | @data x t h1 h2 h3 => exact .inr ⟨rfl, t, h2, h3, x, h1, rfl⟩
        | user => exact absurd rfl hp
      · exact .inl rfl
    have apart : ∀ f, f ∈ F.decls → f.2 = .node → ∀ t ∈ A.traversals, t.data ≠ [] → ∀ x ∈ dataNames, f.1 ≠ x ++ t.name.orig := by
      intro f hf hnode t ht hd x hx e
      rcases (c.decls f).1 hf with ⟨h', _⟩ | ⟨p, hp, rfl⟩
      · cases h' with
        | handler h1 h2 h3 => exact data_node hl hx (up_upper _) h2 e.symm
        | system h1 h2 => exact data_node hl hx (up_system h1) h2 e.symm
        | data => cases hnode
        | user => cases hnode
      · obtain ⟨q, hq, e'⟩ := clear_names h hp
        exact h.others q hq _ (.data hx ht hd) (e'.trans e)
    refine ⟨fun r hr' => ?_, fun d hd d' hd' e => ?_, fun r hr' => filter_single hs ((refs_calls c r).1 hr')⟩
    · rw [c.decls]
      obtain ⟨h1 | ⟨p, hp, rfl⟩, h2⟩ := (c.refs r).1 hr'
      · exact .inl ⟨h1, h2⟩
      · obtain ⟨q, hq, e⟩ := h.named p hp
        exact .inr ⟨q, hq, by rw [e]⟩
    · rcases form d hd with h1 | ⟨h1, t, ht, hdt, x, hx, e1⟩
      · rcases form d' hd' with h2 | ⟨h2, t, ht, hdt, x, hx, e1⟩
        · exact Prod.ext e (h1.trans h2.symm)
        · exact absurd (e.trans e1) (apart d hd h1 t ht hdt x hx)
      · rcases form d' hd' with h2 | ⟨h2, _⟩
        · exact absurd (e.symm.trans e1) (apart d' hd' h2 t ht hdt x hx)
        · exact Prod.ext e (h1.trans h2.symm)

end Verif.Declared
