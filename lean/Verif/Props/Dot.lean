import Verif.Lemmas.Dot
import Verif.Props.GenFiles

/-!
# Property theorems C75: the diagram of a description

The theorems quantify over all descriptions that the phase `semantic` accepts.
-/

namespace Verif.Props
open Verif.Str Verif.Ids Verif.Semantic Verif.Described Verif.Dot
open Verif.Spec.Dot
open Verif.Spec.Str (lowerB SameName)
open Verif.Spec.Semantic (NodeAttr SetAttr Member TypesNamed Earlier)

/-- The edge of a line. -/
def edgeOf (x : Line) : Option Edge := match x.stmt with | .edge e => some e | .vertex .. => none

theorem edges_lines (l : List Line) : edges (l.map Line.stmt) = l.filterMap edgeOf := by
  rw [edges, List.filterMap_map]
  rfl

theorem mem_edges {l : List Line} {e : Edge} : e ∈ edges (l.map Line.stmt) ↔ ∃ x ∈ l, edgeOf x = some e := by
  rw [edges_lines, List.mem_filterMap]

section
variable {A : Parse.Ast} {o : Out}

theorem mem_nodeLines {k : Nat} {n : Parse.Node} {x : Line} : x ∈ nodeLines o k n ↔ x = .vertex n.name.orig ∨
    (∃ c ∈ n.children, x = .child n.name.orig c.type.orig c.name.orig) ∨
    ∃ b ∈ o.attrs (.node k), b.type = .link ∧ x = .link n.name.orig (decode b.ref) (decode b.orig) := by
  rw [nodeLines, List.cons_append, List.mem_cons, List.mem_append, List.mem_map, List.mem_filterMap]
  refine or_congr Iff.rfl (or_congr ⟨?_, ?_⟩ ⟨?_, ?_⟩)
  · rintro ⟨c, h1, h2⟩; exact ⟨c, h1, h2.symm⟩
  · rintro ⟨c, h1, h2⟩; exact ⟨c, h1, h2.symm⟩
  · rintro ⟨b, h1, h2⟩
    split at h2
    · rename_i hb
      cases h2
      exact ⟨b, h1, hb, rfl⟩
    · cases h2
  · rintro ⟨b, h1, h2, rfl⟩
    exact ⟨b, h1, by rw [h2]⟩

theorem mem_setLines {s : CStr} {u : Sets.Tree} {x : Line} : x ∈ setLines s u ↔ x = .vertex s ∨ ∃ i ∈ printed u, x = .member s i.orig := by
  rw [setLines, List.mem_cons, List.mem_map]
  refine or_congr Iff.rfl ⟨?_, ?_⟩
  · rintro ⟨c, h1, h2⟩; exact ⟨c, h1, h2.symm⟩
  · rintro ⟨c, h1, h2⟩; exact ⟨c, h1, h2.symm⟩

theorem mem_lines {trees : List Sets.Tree} {x : Line} : x ∈ lines A o trees ↔
    (∃ (k : Nat) (n : Parse.Node), A.nodes[k]? = some n ∧ x ∈ nodeLines o k n) ∨
    ∃ (i : Nat) (s : Parse.NodeSet) (u : Sets.Tree), A.nodesets[i]? = some s ∧ trees[i]? = some u ∧ x ∈ setLines s.name.orig u := by
  rw [lines, List.mem_append, List.mem_flatten, List.mem_flatten]
  refine or_congr ⟨?_, ?_⟩ ⟨?_, ?_⟩
  · rintro ⟨l, hl, hx⟩
    obtain ⟨k, hk⟩ := List.getElem?_of_mem hl
    rw [List.getElem?_mapIdx, Option.map_eq_some_iff] at hk
    obtain ⟨n, h1, rfl⟩ := hk
    exact ⟨k, n, h1, hx⟩
  · rintro ⟨k, n, h1, hx⟩
    refine ⟨nodeLines o k n, List.mem_of_getElem? (i := k) ?_, hx⟩
    rw [List.getElem?_mapIdx, h1]
    rfl
  · rintro ⟨l, hl, hx⟩
    obtain ⟨p, hp, rfl⟩ := List.mem_map.1 hl
    obtain ⟨i, hi⟩ := List.getElem?_of_mem hp
    rw [List.getElem?_zip_eq_some] at hi
    exact ⟨i, p.1, p.2, hi.1, hi.2, hx⟩
  · rintro ⟨i, s, u, h1, h2, hx⟩
    refine ⟨_, List.mem_map.2 ⟨(s, u), List.mem_of_getElem? (i := i) ?_, rfl⟩, hx⟩
    rw [List.getElem?_zip_eq_some]
    exact ⟨h1, h2⟩

/-- The lines are those of a diagram. -/
theorem lines_ok (kn : Known A o) (hw : Worded A) (hs : Spelled A) {trees : List Sets.Tree}
    (ht : ∀ i s u, A.nodesets[i]? = some s → trees[i]? = some u → Lit A i u) : ∀ x ∈ lines A o trees, x.Ok := by
  intro x hx
  rcases mem_lines.1 hx with ⟨k, n, hn, hx⟩ | ⟨i, s, u, h1, h2, hx⟩
  · have hm := List.mem_of_getElem? hn
    rcases mem_nodeLines.1 hx with rfl | ⟨c, hc, rfl⟩ | ⟨b, hb, hl, rfl⟩
    · exact hw.nodes n hm
    · exact ⟨hw.nodes n hm, name_declared hw (child_target kn.facts.right hs hm hc), hw.children n hm c hc⟩
    · obtain ⟨a, ha, hr, ho, _⟩ := attr_line kn hs hn hb hl
      exact ⟨hw.nodes n hm, name_declared hw hr.2.1, by rw [ho]; exact worded_attr hw ha⟩
  · rcases mem_setLines.1 hx with rfl | ⟨y, hy, rfl⟩
    · exact hw.sets s (List.mem_of_getElem? h1)
    · obtain ⟨k, n, hn, _, he⟩ := (ht i s u h1 h2).mem y hy
      exact ⟨hw.sets s (List.mem_of_getElem? h1), by rw [he]; exact hw.nodes n (List.mem_of_getElem? hn)⟩

/-- What a line stands for. -/
theorem lines_only (kn : Known A o) (hs : Spelled A) {trees : List Sets.Tree}
    (ht : ∀ i s u, A.nodesets[i]? = some s → trees[i]? = some u → Lit A i u) {e : Edge} (he : e ∈ edges ((lines A o trees).map Line.stmt)) :
    ChildEdge A e ∨ LinkEdge A e ∨ MemberEdge A e := by
  obtain ⟨x, hx, he⟩ := mem_edges.1 he
  rcases mem_lines.1 hx with ⟨k, n, hn, hx⟩ | ⟨i, s, u, h1, h2, hx⟩
  · have hm := List.mem_of_getElem? hn
    rcases mem_nodeLines.1 hx with rfl | ⟨c, hc, rfl⟩ | ⟨b, hb, hl, rfl⟩
    · cases he
    · cases he
      exact .inl ⟨n, hm, c, hc, _, child_target kn.facts.right hs hm hc, rfl, rfl⟩
    · cases he
      obtain ⟨a, ha, hr, ho, _⟩ := attr_line kn hs hn hb hl
      exact .inr (.inl ⟨k, n, a, _, hn, ha, hr, by rw [ho]⟩)
  · rcases mem_setLines.1 hx with rfl | ⟨y, hy, rfl⟩
    · cases he
    · cases he
      obtain ⟨k, n, hn, hk, e⟩ := (ht i s u h1 h2).mem y hy
      exact .inr (.inr ⟨i, k, s, n, h1, hn, hk, by rw [e]⟩)

/-- Lines of different vertices. -/
theorem src_node {k : Nat} {n : Parse.Node} {x : Line} (hx : x ∈ nodeLines o k n) {e : Edge} (he : edgeOf x = some e) : e.src = n.name.orig := by
  rcases mem_nodeLines.1 hx with rfl | ⟨c, hc, rfl⟩ | ⟨b, hb, hl, rfl⟩ <;> cases he <;> rfl

theorem src_set {s : CStr} {u : Sets.Tree} {x : Line} (hx : x ∈ setLines s u) {e : Edge} (he : edgeOf x = some e) : e.src = s := by
  rcases mem_setLines.1 hx with rfl | ⟨y, hy, rfl⟩ <;> cases he <;> rfl

theorem lines_once (kn : Known A o) (hs : Spelled A) {trees : List Sets.Tree}
    (ht : ∀ i s u, A.nodesets[i]? = some s → trees[i]? = some u → Lit A i u) : (edges ((lines A o trees).map Line.stmt)).Nodup := by
  have hr := kn.facts.right
  rw [edges_lines, List.Nodup, List.pairwise_filterMap, lines, List.pairwise_append]
  refine ⟨List.pairwise_flatten.2 ⟨?_, ?_⟩, List.pairwise_flatten.2 ⟨?_, ?_⟩, ?_⟩
  · intro l hl
    obtain ⟨k, hk⟩ := List.getElem?_of_mem hl
    rw [List.getElem?_mapIdx, Option.map_eq_some_iff] at hk
    obtain ⟨n, hn, rfl⟩ := hk
    have hm := List.mem_of_getElem? hn
    rw [nodeLines, List.cons_append, List.pairwise_cons]
    refine ⟨(fun x _ e he => by cases he), List.pairwise_append.2 ⟨?_, ?_, ?_⟩⟩
    · rw [List.pairwise_map]
      refine (child_names hr hm).imp fun h e he e' he' => ?_
      cases he; cases he'
      intro h'
      simp only [Edge.mk.injEq, List.cons.injEq, Prod.mk.injEq] at h'
      exact h h'.2.2.1.2
    · rw [List.pairwise_filterMap]
      have hn' := kn.nodeNames k (List.getElem?_eq_some_iff.1 hn).1
      rw [List.Nodup, List.pairwise_map] at hn'
      refine List.Pairwise.imp_of_mem ?_ hn'
      intro b b' hb hb' hne x hx x' hx' e he e' he'
      split at hx
      · rename_i h1
        split at hx'
        · rename_i h2
          cases hx; cases hx'; cases he; cases he'
          intro h'
          simp only [Edge.mk.injEq, List.cons.injEq, Prod.mk.injEq] at h'
          obtain ⟨a, _, _, ho, hc⟩ := attr_line kn hs hn hb h1
          obtain ⟨a', _, _, ho', hc'⟩ := attr_line kn hs hn hb' h2
          exact hne (by rw [hc, hc', ← ho, ← ho', h'.2.2.2.1.2])
        · cases hx'
      · cases hx
    · intro x hx y hy e he e' he'
      obtain ⟨c, _, rfl⟩ := List.mem_map.1 hx
      obtain ⟨b, _, hy⟩ := List.mem_filterMap.1 hy
      split at hy
      · cases hy; cases he; cases he'
        intro h'
        simp at h'
      · cases hy
  · rw [List.pairwise_iff_getElem]
    intro i j hi hj hij x hx y hy e he e' he' hee
    rw [List.getElem_mapIdx] at hx hy
    rw [List.length_mapIdx] at hi hj
    have h1 := src_node hx he
    have h2 := src_node hy he'
    rw [hee, h2] at h1
    exact absurd (node_inj hr (List.getElem?_eq_getElem hi) (List.getElem?_eq_getElem hj) (congrArg (List.map lowerB) h1.symm)) (Nat.ne_of_lt hij)
  · intro l hl
    obtain ⟨p, hp, rfl⟩ := List.mem_map.1 hl
    obtain ⟨i, hi⟩ := List.getElem?_of_mem hp
    rw [List.getElem?_zip_eq_some] at hi
    rw [setLines, List.pairwise_cons]
    refine ⟨(fun x _ e he => by cases he), ?_⟩
    rw [List.pairwise_map]
    refine (ht i _ _ hi.1 hi.2).once.imp fun h e he e' he' => ?_
    cases he; cases he'
    intro h'
    simp only [Edge.mk.injEq] at h'
    exact h h'.2.1
  · rw [List.pairwise_map, List.pairwise_iff_getElem]
    intro i j hi hj hij x hx y hy e he e' he' hee
    rw [List.length_zip] at hi hj
    rw [List.getElem_zip] at hx hy
    have h1 := src_set hx he
    have h2 := src_set hy he'
    rw [hee, h2] at h1
    have hi' : i < A.nodesets.length := by omega
    have hj' : j < A.nodesets.length := by omega
    exact absurd (set_inj hr (List.getElem?_eq_getElem hi') (List.getElem?_eq_getElem hj') (congrArg (List.map lowerB) h1.symm)) (Nat.ne_of_lt hij)
  · intro x hx y hy e he e' he' hee
    obtain ⟨l, hl, hx⟩ := List.mem_flatten.1 hx
    obtain ⟨k, hk⟩ := List.getElem?_of_mem hl
    rw [List.getElem?_mapIdx, Option.map_eq_some_iff] at hk
    obtain ⟨n, hn, rfl⟩ := hk
    obtain ⟨l, hl, hy⟩ := List.mem_flatten.1 hy
    obtain ⟨p, hp, rfl⟩ := List.mem_map.1 hl
    obtain ⟨i, hi⟩ := List.getElem?_of_mem hp
    rw [List.getElem?_zip_eq_some] at hi
    have h1 := src_node hx he
    have h2 := src_set hy he'
    rw [hee, h2] at h1
    have h3 := sym_set hr hi.1
    rw [h1, sym_node hr hn] at h3
    cases h3

/-- The graph of the lines. -/
theorem lines_show (kn : Known A o) (hs : Spelled A) {trees : List Sets.Tree} (hl : trees.length = A.nodesets.length)
    (ht : ∀ i s u, A.nodesets[i]? = some s → trees[i]? = some u → Lit A i u) : Shows A ((lines A o trees).map Line.stmt) := by
  have hr := kn.facts.right
  have only : ∀ e ∈ edges ((lines A o trees).map Line.stmt), _ := fun e he => lines_only kn hs ht he
  have tree : ∀ {i s}, A.nodesets[i]? = some s → ∃ u, trees[i]? = some u := fun {i s} h =>
    ⟨_, List.getElem?_eq_getElem (by rw [hl]; exact (List.getElem?_eq_some_iff.1 h).1)⟩
  have node : ∀ {k n x e}, A.nodes[k]? = some n → x ∈ nodeLines o k n → edgeOf x = some e → e ∈ edges ((lines A o trees).map Line.stmt) :=
    fun h1 h2 h3 => mem_edges.2 ⟨_, mem_lines.2 (.inl ⟨_, _, h1, h2⟩), h3⟩
  refine ⟨?_, ?_, ?_, ?_, ?_, only, lines_once kn hs ht⟩
  · intro v
    constructor
    · rintro (⟨l, h⟩ | ⟨e, he, h⟩)
      · obtain ⟨x, hx, hv⟩ := List.mem_map.1 h
        rcases mem_lines.1 hx with ⟨k, n, hn, hx⟩ | ⟨i, s, u, h1, h2, hx⟩
        · rcases mem_nodeLines.1 hx with rfl | ⟨c, hc, rfl⟩ | ⟨b, hb, hl, rfl⟩
          · cases hv; exact .inl ⟨n, List.mem_of_getElem? hn, rfl⟩
          · cases hv
          · cases hv
        · rcases mem_setLines.1 hx with rfl | ⟨y, hy, rfl⟩
          · cases hv; exact .inr ⟨s, List.mem_of_getElem? h1, rfl⟩
          · cases hv
      · rcases only e he with ⟨n, hn, c, hc, w, hw, _, rfl⟩ | ⟨k, n, a, w, hn, _, hw, rfl⟩ | ⟨i, k, s, n, h1, h2, _, rfl⟩
        · rcases h with rfl | rfl
          · exact .inl ⟨n, hn, rfl⟩
          · exact hw
        · rcases h with rfl | rfl
          · exact .inl ⟨n, List.mem_of_getElem? hn, rfl⟩
          · exact hw.2.1
        · rcases h with rfl | rfl
          · exact .inr ⟨s, List.mem_of_getElem? h1, rfl⟩
          · exact .inl ⟨n, List.mem_of_getElem? h2, rfl⟩
    · rintro (⟨n, hn, rfl⟩ | ⟨s, hs, rfl⟩)
      · obtain ⟨k, hk⟩ := List.getElem?_of_mem hn
        exact .inl ⟨[], List.mem_map.2 ⟨.vertex n.name.orig, mem_lines.2 (.inl ⟨k, n, hk, mem_nodeLines.2 (.inl rfl)⟩), rfl⟩⟩
      · obtain ⟨i, hi⟩ := List.getElem?_of_mem hs
        obtain ⟨u, hu⟩ := tree hi
        exact .inl ⟨[], List.mem_map.2 ⟨.vertex s.name.orig, mem_lines.2 (.inr ⟨i, s, u, hi, hu, mem_setLines.2 (.inl rfl)⟩), rfl⟩⟩
  · rintro e ⟨n, hn, c, hc, v, hv, h1, rfl⟩
    obtain ⟨k, hk⟩ := List.getElem?_of_mem hn
    refine node hk (mem_nodeLines.2 (.inr (.inl ⟨c, hc, rfl⟩))) ?_
    rw [hs.children n hn c hc v hv h1]
    rfl
  · rintro e ⟨i, k, s, n, h1, h2, h3, rfl⟩
    obtain ⟨u, hu⟩ := tree h1
    obtain ⟨x, hx, he⟩ := (ht i s u h1 hu).all k n h2 h3
    refine mem_edges.2 ⟨_, mem_lines.2 (.inr ⟨i, s, u, h1, hu, mem_setLines.2 (.inr ⟨x, hx, rfl⟩)⟩), ?_⟩
    rw [he]
    rfl
  · intro n hn a ha v hv
    obtain ⟨k, hk⟩ := List.getElem?_of_mem hn
    obtain ⟨b, hb, hf⟩ := own_from kn hk ha
    have hl := link_of hr hf hv
    refine node hk (mem_nodeLines.2 (.inr (.inr ⟨b, hb, hl, rfl⟩))) ?_
    obtain ⟨_, h2, r, h3, h4⟩ := hv
    rw [hf.typed.ref r h3, hf.kept.orig, decode_code, decode_code, hs.attrs n hn a ha r h3 v h2 h4]
    rfl
  · intro k n a v hn ha hv
    obtain ⟨b, hb, hl, hc⟩ : ∃ b ∈ o.attrs (.node k), b.type = .link ∧ b.name = code (a.name.orig.map lowerB) := by
      cases ha with
      | own h1 h2 =>
        obtain ⟨b, hb, hf⟩ := own_from kn h1 h2
        exact ⟨b, hb, link_of hr hf hv, hf.like.name⟩
      | member h1 h2 h3 => exact handed_from kn h1 h2 h3 hv
    obtain ⟨a', ha', hr', ho, hc'⟩ := attr_line kn hs hn hb hl
    refine ⟨_, node hn (mem_nodeLines.2 (.inr (.inr ⟨b, hb, hl, rfl⟩))) rfl, ⟨k, n, a', _, hn, ha', hr', by rw [ho]⟩, rfl, a'.name.orig,
      by rw [ho], ?_⟩
    exact code_inj (hc'.symm.trans hc)

end

/-- C75: for an accepted description whose references have the letter case of the declarations, and whose names are no words of the
language of diagrams, `ast.dot` is a text of that language.  Its vertices are the nodes and nodesets; its edges are one for each child, one for
each attribute of a node that refers to a node or nodeset, and one for each member of a nodeset, and no others.  Missing: references in other
letter case (`C75_case_false`, `C75_member_false`), and names that are words of the language (`C75_word_false`). -/
theorem C75_shows_partial (addr : Semantic.Loc → Nat) (A : Parse.Ast) (ha : Spec.Semantic.Apart addr) (hp : TypesNamed A) (he : Earlier A)
    (hw : Worded A) (hs : Spelled A) (fuel : Nat) (o : Out) (h : checks addr fuel A = .ok o) (h0 : o.errors = 0) :
    ∃ text g, diagram fuel A o = .ok text ∧ Spec.Dot.read text = some g ∧ Shows A g := by
  have kn := known_of ha hp he h h0
  obtain ⟨trees, h1, h2⟩ := literals_of h
  obtain ⟨h3, h4⟩ := lits_of kn.facts.right hs h1
  have ht : ∀ i s u, A.nodesets[i]? = some s → trees[i]? = some u → Lit A i u := by
    intro i s u hi hu
    refine lit_of kn (List.getElem?_eq_some_iff.1 hi).1 (h4 u (List.mem_of_getElem? hu)) ?_
    rw [h2 i, hu]
    rfl
  refine ⟨GDast A o trees, _, ?_, ?_, lines_show kn hs h3 ht⟩
  · unfold diagram
    rw [h1]
    rfl
  · rw [text_lines]
    exact read_lines (lines_ok kn hw hs ht)

/-! ### Samples -/

/-- The names of nodes and nodesets. -/
def declaredB (A : Parse.Ast) : List CStr := A.nodes.map (·.name.orig) ++ A.nodesets.map (·.name.orig)

theorem declared_mem {A : Parse.Ast} {v : CStr} (h : Declared A v) : v ∈ declaredB A := by
  rcases h with ⟨n, hn, rfl⟩ | ⟨s, hs, rfl⟩
  · exact List.mem_append_left _ (List.mem_map.2 ⟨n, hn, rfl⟩)
  · exact List.mem_append_right _ (List.mem_map.2 ⟨s, hs, rfl⟩)

/-- As a check. -/
def wordB : CStr → Bool
  | [] => false
  | c :: r => letter c && (c :: r).all inWord

theorem word_of {w : CStr} (h : wordB w = true) : Word w := by
  cases w with
  | nil => cases h
  | cons c r =>
    simp only [wordB, Bool.and_eq_true, List.all_eq_true] at h
    exact ⟨⟨c, r, rfl, h.1⟩, h.2⟩

/-- As a check: the names are identifiers. -/
def wordsB (A : Parse.Ast) : Bool :=
  (A.nodes.all fun n => wordB n.name.orig && (n.children.all fun c => wordB c.name.orig) && n.attrs.all fun a => wordB a.name.orig) &&
  A.nodesets.all fun s => wordB s.name.orig && s.attrs.all fun a => wordB a.name.orig

theorem worded_of {A : Parse.Ast} (h : wordsB A = true) (hk : ((declaredB A).all fun w => !keyword w) = true) : Worded A := by
  simp only [wordsB, Bool.and_eq_true, List.all_eq_true] at h
  have hk' : ∀ v, Declared A v → keyword v = false := fun v hv => by
    simpa using List.all_eq_true.1 hk v (declared_mem hv)
  exact ⟨fun n hn => ⟨word_of (h.1 n hn).1.1, hk' _ (.inl ⟨n, hn, rfl⟩)⟩, fun s hs => ⟨word_of (h.2 s hs).1, hk' _ (.inr ⟨s, hs, rfl⟩)⟩,
    fun n hn c hc => word_of ((h.1 n hn).1.2 c hc), fun n hn a ha => word_of ((h.1 n hn).2 a ha), fun s hs a ha => word_of ((h.2 s hs).2 a ha)⟩

/-- As a check: a reference has the letter case of the declaration. -/
def sameB (A : Parse.Ast) (r : Parse.Name) : Bool := (declaredB A).all fun v => v.map lowerB != r.orig.map lowerB || v == r.orig

theorem same_of {A : Parse.Ast} {r : Parse.Name} (h : sameB A r = true) (v : CStr) (hv : Declared A v) (hr : SameName v r.orig) : r.orig = v := by
  have := List.all_eq_true.1 h v (declared_mem hv)
  simp only [Bool.or_eq_true, bne_iff_ne, ne_eq, beq_iff_eq] at this
  exact (this.resolve_left (· hr)).symm

/-- As a check: all references do. -/
def spelledB (A : Parse.Ast) : Bool :=
  (A.nodes.all fun n => (n.children.all fun c => sameB A c.type) && n.attrs.all fun a => a.ref.all (sameB A)) &&
  (A.nodesets.all fun s => ((literal s.expr).all (sameB A)) && s.attrs.all fun a => a.ref.all (sameB A)) &&
  A.traversals.all fun x => x.nodes.all fun e => (literal e).all (sameB A)

theorem spelled_of {A : Parse.Ast} (h : spelledB A = true) : Spelled A := by
  simp only [spelledB, Bool.and_eq_true, List.all_eq_true, Option.all_eq_true] at h
  exact ⟨fun n hn c hc => same_of ((h.1.1 n hn).1 c hc), fun n hn a ha r hr => same_of ((h.1.1 n hn).2 a ha r hr),
    fun s hs a ha r hr => same_of ((h.1.2 s hs).2 a ha r hr), fun s hs i hi => same_of ((h.1.2 s hs).1 i hi),
    fun x hx e he i hi => same_of (h.2 x hx e he i hi)⟩

/-- The checks accept the description, and its diagram has the property. -/
def Draws (f : List Spec.Syntax.Entry) (P : CStr → Prop) : Prop :=
  TypesNamed (ast f) ∧ Earlier (ast f) ∧ ∃ o, checks sampleAddr 60 (ast f) = .ok o ∧ o.errors = 0 ∧ ∃ text, diagram 60 (ast f) o = .ok text ∧ P text

theorem draws_of {f : List Spec.Syntax.Entry} {P : CStr → Prop} {p : CStr → Bool} (hp : ∀ x, p x = true → P x)
    (h1 : (plainAst (ast f) && flatSets (ast f)) = true) (h2 : (match checks sampleAddr 60 (ast f) with
      | .ok o => o.errors == 0 && (match diagram 60 (ast f) o with | .ok k => p k | _ => false)
      | _ => false) = true) : Draws f P := by
  simp only [Bool.and_eq_true] at h1
  refine ⟨named_of_plain h1.1, earlier_of_flat h1.2, ?_⟩
  split at h2
  · rename_i o ho
    simp only [Bool.and_eq_true, beq_iff_eq] at h2
    refine ⟨o, ho, h2.1, ?_⟩
    have h3 := h2.2
    split at h3
    · rename_i k hk
      exact ⟨k, hk, hp _ h3⟩
    · cases h3
  · cases h2

/-- A node with a child, a nodeset with two members and an attribute that refers to a node; `expr` is how the child names the nodeset, `num` how
the nodeset names its member, `leaf` the name of the other member. -/
def diagramFile (expr num leaf : String) : List Spec.Syntax.Entry :=
  [.phase (.mk true false (nm "All" 0) none none none (.one (rename "RN"))),
    .node ⟨true, nm "Prog" 0, [⟨nm expr 0, nm "e" 0, none⟩], [intAttr "sum" [.constructor]], [], [], false⟩,
    .node ⟨false, nm "Num" 0, [], [⟨.named (nm "Prog" 0), nm "top" 0, none⟩], [], [], false⟩,
    .node ⟨false, nm leaf 0, [], [], [], [], false⟩,
    .nodeset (.long (nm "Expr" 0) none ⟨.lit (nm num 0) [nm leaf 0], .nil⟩ [⟨.named (nm "Expr" 0), nm "next" 0, none⟩])]

/-- The conditions of `C75_shows_partial` for a description, with its diagram. -/
example : Spec.Semantic.Apart sampleAddr ∧ Worded (ast (diagramFile "Expr" "Num" "Var")) ∧ Spelled (ast (diagramFile "Expr" "Num" "Var")) ∧
    Draws (diagramFile "Expr" "Num" "Var") fun text => ∃ g, Spec.Dot.read text = some g ∧ (edges g).length = 6 ∧
      ⟨t "Prog", t "Expr", [(t "label", t "e")]⟩ ∈ edges g ∧ ⟨t "Expr", t "Var", [(t "color", t "blue")]⟩ ∈ edges g ∧
      ⟨t "Num", t "Prog", [(t "color", t "red"), (t "label", t "top")]⟩ ∈ edges g ∧
      ⟨t "Var", t "Expr", [(t "color", t "red"), (t "label", t "next")]⟩ ∈ edges g :=
  ⟨sampleAddr_apart, worded_of (by decide +kernel) (by decide +kernel), spelled_of (by decide +kernel),
    draws_of (p := fun text => match Spec.Dot.read text with
        | some g => decide ((edges g).length = 6 ∧
          ⟨t "Prog", t "Expr", [(t "label", t "e")]⟩ ∈ edges g ∧ ⟨t "Expr", t "Var", [(t "color", t "blue")]⟩ ∈ edges g ∧
          ⟨t "Num", t "Prog", [(t "color", t "red"), (t "label", t "top")]⟩ ∈ edges g ∧
          ⟨t "Var", t "Expr", [(t "color", t "red"), (t "label", t "next")]⟩ ∈ edges g)
        | none => false)
      (fun text h => by
        split at h
        · rename_i g hg
          exact ⟨g, hg, of_decide_eq_true h⟩
        · cases h) (by decide +kernel) (by decide +kernel)⟩

/-- The graph has a vertex that is nothing of the description. -/
def strayB (A : Parse.Ast) (v : CStr) (text : CStr) : Bool :=
  (declaredB A).all (· != v) && match Spec.Dot.read text with
    | some g => (edges g).any fun e => e.dst == v
    | none => false

theorem stray_of {A : Parse.Ast} {v text : CStr} (h : strayB A v text = true) : ∃ g, Spec.Dot.read text = some g ∧ ¬ Declared A v ∧ Vertex g v ∧ ¬ Shows A g := by
  rw [strayB, Bool.and_eq_true] at h
  have hd : ¬ Declared A v := fun hv => by simpa using List.all_eq_true.1 h.1 v (declared_mem hv)
  have h2 := h.2
  split at h2
  · rename_i g hg
    obtain ⟨e, he, hv⟩ := List.any_eq_true.1 h2
    have : Vertex g v := .inr ⟨e, he, .inr (by simpa using hv : e.dst = v).symm⟩
    exact ⟨g, hg, hd, this, fun hs => hd ((hs.vertices v).1 this)⟩
  · cases h2

/-- C75 is false if a child names its nodeset in other letter case (`cocogen/dot/gen_dot.c:77-87`): the edge goes to a vertex for nothing. -/
theorem C75_case_false : ∃ f, Worded (ast f) ∧ Draws f fun text => ∃ g, Spec.Dot.read text = some g ∧
    ¬ Declared (ast f) (t "expr") ∧ Vertex g (t "expr") ∧ ¬ Shows (ast f) g :=
  ⟨diagramFile "expr" "Num" "Var", worded_of (by decide +kernel) (by decide +kernel),
    draws_of (p := strayB (ast (diagramFile "expr" "Num" "Var")) (t "expr")) (fun _ h => stray_of h) (by decide +kernel) (by decide +kernel)⟩

/-- C75 is false if a nodeset names its member in other letter case (`cocogen/dot/gen_dot.c:56-58`). -/
theorem C75_member_false : ∃ f, Worded (ast f) ∧ Draws f fun text => ∃ g, Spec.Dot.read text = some g ∧
    ¬ Declared (ast f) (t "num") ∧ Vertex g (t "num") ∧ ¬ Shows (ast f) g :=
  ⟨diagramFile "Expr" "num" "Var", worded_of (by decide +kernel) (by decide +kernel),
    draws_of (p := strayB (ast (diagramFile "Expr" "num" "Var")) (t "num")) (fun _ h => stray_of h) (by decide +kernel) (by decide +kernel)⟩

/-- C75 is false for a node with the name of a word of the language of diagrams (`cocogen/dot/gen_dot.c:36`): the text is none of that language. -/
theorem C75_word_false : ∃ f, Spelled (ast f) ∧ Draws f fun text => Spec.Dot.read text = none :=
  ⟨diagramFile "Expr" "Num" "Edge", spelled_of (by decide +kernel),
    draws_of (p := fun text => (Spec.Dot.read text).isNone) (fun _ h => Option.isNone_iff_eq_none.1 h) (by decide +kernel) (by decide +kernel)⟩

end Verif.Props
