import Verif.Model.Templates
import Verif.Spec.Templates
import Verif.Lemmas.DeclaredFiles

/-!
# Lemmas about the files for the user
-/

namespace Verif.Templates
open Verif.Str Verif.Ids Verif.Tables
open Verif.Semantic (idOf exprOf preorder)
open Verif.Compiled (declsOf)
open Verif.Spec.Templates
open Verif.Spec.Str (lowerB upperB SameName)
open Verif.Spec.Targets (Target handler Aimed)
open Verif.Spec.Compiled (passFunction)
open Verif.Spec.Declared (userNames)

/-! ### Words -/

theorem lex_cons (m : Mode) (c : UInt8) (r : CStr) : lex m (c :: r) = (step m c).1 ++ lex (step m c).2 r := rfl

theorem lex_inner (w : CStr) : ∀ (acc : CStr), (∀ c ∈ w, inWord c = true) → ∀ (c : UInt8) (r : CStr), inWord c = false →
    lex (.word acc) (w ++ c :: r) = .id (acc ++ w) :: lex (.code false) (c :: r) := by
  induction w with
  | nil =>
    intro acc _ c r hc
    simp only [List.nil_append, List.append_nil, lex_cons, step, hc]
    rfl
  | cons d w ih =>
    intro acc h c r hc
    rw [List.cons_append, lex_cons]
    simp only [step, h d List.mem_cons_self, if_true, List.nil_append]
    rw [ih _ (fun x hx => h x (List.mem_cons_of_mem _ hx)) c r hc, List.append_assoc]
    rfl

theorem lex_word {w : CStr} (hw : Word w) (b : Bool) {c : UInt8} (hc : inWord c = false) (r : CStr) :
    lex (.code b) (w ++ c :: r) = .id w :: lex (.code false) (c :: r) := by
  obtain ⟨⟨d, v, rfl, hd⟩, h⟩ := hw
  rw [List.cons_append, lex_cons]
  simp only [step, begins, hd, if_true, List.nil_append]
  exact lex_inner v [d] (fun x hx => h x (List.mem_cons_of_mem _ hx)) c r hc

/-- A name in a comment. -/
theorem block_word (b : Bool) {w : CStr} (h : ∀ c ∈ w, inWord c = true) (r : CStr) : lex (.block b) (w ++ r) = lex (.block b) r := by
  induction w with
  | nil => rfl
  | cons d w ih =>
    have hd : d ≠ 42 := by rintro rfl; exact absurd (h 42 List.mem_cons_self) (by decide)
    rw [List.cons_append, lex_cons]
    simp only [step, beq_iff_eq, hd, if_false, List.nil_append]
    exact ih fun x hx => h x (List.mem_cons_of_mem _ hx)

theorem not_beside {a b c : UInt8} {s : CStr} (h : ¬ Beside a b (c :: s)) : ¬ Beside a b s := by
  rintro ⟨x, y, rfl⟩
  exact h ⟨c :: x, y, rfl⟩

/-- A text in a comment. -/
theorem block_text (b : Bool) (z r : CStr) : ¬ Beside 42 47 z → lex (.block b) (z ++ 32 :: r) = lex (.block b) r ∧
    (z.head? ≠ some 47 → lex (.star b) (z ++ 32 :: r) = lex (.block b) r) := by
  induction z with
  | nil => intro _; exact ⟨rfl, fun _ => rfl⟩
  | cons c z ih =>
    intro h
    obtain ⟨h1, h2⟩ := ih (not_beside h)
    have h3 : c = 42 → z.head? ≠ some 47 := by
      rintro rfl hz
      cases z with
      | nil => cases hz
      | cons d z =>
        cases hz
        exact h ⟨[], z, rfl⟩
    refine ⟨?_, fun hc => ?_⟩
    · rw [List.cons_append, lex_cons]
      by_cases hc : c = 42
      · simp only [step, beq_iff_eq, hc, if_true, List.nil_append]
        exact h2 (h3 hc)
      · simp only [step, beq_iff_eq, hc, if_false, List.nil_append]
        exact h1
    · have hc' : c ≠ 47 := by rintro rfl; exact hc rfl
      rw [List.cons_append, lex_cons]
      by_cases hs : c = 42
      · subst hs
        exact h2 (h3 rfl)
      · simp only [step, beq_iff_eq, hs, hc', if_false, List.nil_append]
        exact h1

/-! ### Lines -/

/-- The text has no `\`. -/
def Clean (s : CStr) : Prop := ∀ c ∈ s, c ≠ 92

theorem Clean.append {a b : CStr} (ha : Clean a) (hb : Clean b) : Clean (a ++ b) := fun c hc =>
  (List.mem_append.1 hc).elim (ha c) (hb c)

theorem clean_word {w : CStr} (h : ∀ c ∈ w, inWord c = true) : Clean w := by
  rintro c hc rfl
  exact absurd (h 92 hc) (by decide)

theorem splice_cons {c : UInt8} (h : c ≠ 92) (r : CStr) : splice (c :: r) = c :: splice r := by
  cases r with
  | nil => rfl
  | cons d r => rw [splice, if_neg fun e => h e.1]

theorem splice_clean {x : CStr} (h : Clean x) (y : CStr) : splice (x ++ y) = x ++ splice y := by
  induction x with
  | nil => rfl
  | cons c x ih =>
    rw [List.cons_append, splice_cons (h c List.mem_cons_self), ih fun d hd => h d (List.mem_cons_of_mem _ hd)]
    rfl

theorem splice_all {x : CStr} (h : Clean x) : splice x = x := by
  have := splice_clean h []
  rw [List.append_nil] at this
  rw [this, splice, List.append_nil]

/-- The text of a line: the end of the line is spliced if it ends in `\`. -/
theorem splice_text (i y : CStr) : ¬ Beside 92 10 i → ∃ z, splice (i ++ 10 :: y) = z ++ splice y ∧ (z = i ++ [10] ∨ ∃ e, i = z ++ e) := by
  induction i with
  | nil => intro _; exact ⟨[10], splice_cons (by decide) y, .inl rfl⟩
  | cons c i ih =>
    intro h
    by_cases hc : c = 92
    · subst hc
      cases i with
      | nil => exact ⟨[], by rw [List.cons_append, List.nil_append, splice, if_pos ⟨rfl, rfl⟩]; rfl, .inr ⟨[92], rfl⟩⟩
      | cons d i =>
        have hd : d ≠ 10 := by rintro rfl; exact h ⟨[], i, rfl⟩
        obtain ⟨z, h1, h2⟩ := ih (not_beside h)
        refine ⟨92 :: z, ?_, ?_⟩
        · rw [List.cons_append, List.cons_append, splice, if_neg fun e => hd e.2]
          rw [List.cons_append] at h1
          rw [h1]
          rfl
        · rcases h2 with rfl | ⟨e, h2⟩
          · exact .inl rfl
          · exact .inr ⟨e, by rw [h2]; rfl⟩
    · obtain ⟨z, h1, h2⟩ := ih (not_beside h)
      refine ⟨c :: z, ?_, ?_⟩
      · rw [List.cons_append, splice_cons hc, h1]
        rfl
      · rcases h2 with rfl | ⟨e, h2⟩
        · exact .inl rfl
        · exact .inr ⟨e, by rw [h2]; rfl⟩

theorem beside_line {i : CStr} (h : ¬ Beside 42 47 i) : ¬ Beside 42 47 (i ++ [10]) := by
  rintro ⟨x, y, e⟩
  rcases List.eq_nil_or_concat y with rfl | ⟨y', l, rfl⟩
  · have := congrArg List.getLast? e
    simp at this
  · have e' : i ++ [10] = (x ++ 42 :: 47 :: y') ++ [l] := by rw [e]; simp
    have := List.append_inj_left' e' rfl
    exact h ⟨x, y', this⟩

theorem beside_prefix {z e : CStr} (h : ¬ Beside 42 47 (z ++ e)) : ¬ Beside 42 47 z := by
  rintro ⟨x, y, rfl⟩
  exact h ⟨x, y ++ e, by simp⟩

/-! ### Functions -/

/-- The words of a function. -/
def fnToks (f : Function) : List Tok :=
  f.type ++ (.id f.name :: .sym 40 :: (f.params ++ (.sym 41 :: .sym 123 :: (f.body ++ [.sym 125]))))

/-- The words of external declarations. -/
def extToks : Ext → List Tok
  | .directive w => [.dir w]
  | .function f => fnToks f

/-- It is read as it is. -/
def Reads (x : Ext) : Prop := (∀ r, external (extToks x ++ r) = some (x, r)) ∧ ∃ k r, extToks x = k :: r

theorem reads_dir (w : CStr) : Reads (.directive w) := ⟨fun _ => rfl, _, _, rfl⟩

theorem keyword_not {w : CStr} (h : w ∉ keywords) : keywords.contains w = false := by
  simpa using h

theorem reads_stub {w : CStr} (h : w ∉ keywords) : Reads (.function (stub w)) := by
  refine ⟨fun r => ?_, _, _, rfl⟩
  have h1 : declarator [.id (t "node_st"), .sym 42, .id w] = some ([.id (t "node_st"), .sym 42], w) := by
    show (if keywords.contains w = true then none else some _) = _
    rw [keyword_not h]
    rfl
  show (declarator [.id (t "node_st"), .sym 42, .id w]).bind _ = _
  rw [h1]
  rfl

theorem reads_hook {w : CStr} (h : w ∉ keywords) : Reads (.function (hook w)) := by
  refine ⟨fun r => ?_, _, _, rfl⟩
  have h1 : declarator [.id (t "void"), .id w] = some ([.id (t "void")], w) := by
    show (if keywords.contains w = true then none else some _) = _
    rw [keyword_not h]
    rfl
  show (declarator [.id (t "void"), .id w]).bind _ = _
  rw [h1]
  rfl

theorem reads_pass {w : CStr} (h : w ∉ keywords) : Reads (.function (passStub w)) := by
  refine ⟨fun r => ?_, _, _, rfl⟩
  have h1 : declarator [.id (t "node_st"), .sym 42, .id w] = some ([.id (t "node_st"), .sym 42], w) := by
    show (if keywords.contains w = true then none else some _) = _
    rw [keyword_not h]
    rfl
  show (declarator [.id (t "node_st"), .sym 42, .id w]).bind _ = _
  rw [h1]
  rfl

theorem unit_reads : ∀ {l : List Ext}, (∀ x ∈ l, Reads x) → ∀ n, l.length ≤ n → unit n (l.flatMap extToks) = some l
  | [], _, n, _ => by cases n <;> rfl
  | x :: l, h, 0, hn => absurd hn (by simp)
  | x :: l, h, n + 1, hn => by
    obtain ⟨h1, k, r, h2⟩ := h x List.mem_cons_self
    have h3 := h1 (l.flatMap extToks)
    have h4 := unit_reads (fun y hy => h y (List.mem_cons_of_mem _ hy)) n (by simpa using hn)
    rw [List.flatMap_cons]
    rw [h2] at h3 ⊢
    show (external (k :: (r ++ l.flatMap extToks))).bind _ = _
    rw [List.cons_append] at h3
    rw [h3]
    show (unit n (l.flatMap extToks)).bind _ = _
    rw [h4]
    rfl

theorem length_toks {l : List Ext} (h : ∀ x ∈ l, Reads x) : l.length ≤ (l.flatMap extToks).length := by
  induction l with
  | nil => exact Nat.le_refl _
  | cons x l ih =>
    obtain ⟨_, k, r, h2⟩ := h x List.mem_cons_self
    have := ih fun y hy => h y (List.mem_cons_of_mem _ hy)
    rw [List.flatMap_cons, h2]
    simp only [List.length_append, List.length_cons]
    omega

/-- A text with the words of external declarations is read. -/
theorem read_of {text : CStr} {l : List Ext} (h : ∀ x ∈ l, Reads x) (e : lex (.code true) (splice text) = l.flatMap extToks) :
    Spec.Templates.read text = some l := by
  unfold Spec.Templates.read
  rw [e]
  exact unit_reads h _ (length_toks h)

/-! ### The texts -/

theorem t_node : t "node_st" = b!"node_st" ∧ t "node" = b!"node" ∧ t "root" = b!"root" ∧ t "return" = b!"return" ∧ t "void" = b!"void" ∧
    t "TRAVchildren" = b!"TRAVchildren" := by decide +kernel

theorem stub_toks (w : CStr) : fnToks (stub w) = [.id b!"node_st", .sym 42, .id w, .sym 40, .id b!"node_st", .sym 42, .id b!"node", .sym 41, .sym 123,
    .id b!"TRAVchildren", .sym 40, .id b!"node", .sym 41, .sym 59, .id b!"return", .id b!"node", .sym 59, .sym 125] := by
  obtain ⟨h1, h2, h3, h4, h5, h6⟩ := t_node
  rw [stub, h1, h2, h4, h6]
  rfl

theorem hook_toks (w : CStr) : fnToks (hook w) = [.id b!"void", .id w, .sym 40, .sym 41, .sym 123, .id b!"return", .sym 59, .sym 125] := by
  obtain ⟨h1, h2, h3, h4, h5, h6⟩ := t_node
  rw [hook, h4, h5]
  rfl

theorem pass_toks (w : CStr) : fnToks (passStub w) = [.id b!"node_st", .sym 42, .id w, .sym 40, .id b!"node_st", .sym 42, .id b!"root", .sym 41, .sym 123,
    .id b!"return", .id b!"root", .sym 59, .sym 125] := by
  obtain ⟨h1, h2, h3, h4, h5, h6⟩ := t_node
  rw [passStub, h1, h3, h4]
  rfl

theorem lex_stub {w : CStr} (hw : Word w) (r : CStr) : lex (.code true) ((b!"/**\n" ++ (b!" * @fn " ++ (w ++ (b!"\n" ++ (b!" */\n" ++ (b!"node_st *" ++
    (w ++ b!"(node_st *node)\n{\n    TRAVchildren(node);\n    return node;\n}\n\n"))))))) ++ r) = fnToks (stub w) ++ lex (.code true) r := by
  simp only [List.append_assoc]
  show lex (.block true) (w ++ _) = _
  rw [block_word true hw.2]
  show Tok.id _ :: Tok.sym 42 :: lex (.code false) (w ++ 40 :: _) = _
  rw [lex_word hw false (by decide), stub_toks]
  rfl

theorem lex_hook {w : CStr} (y : CStr) (hw : Word (w ++ y)) (r : CStr) : lex (.code true) (b!"void " ++ (w ++ ((y ++ b!"() { return; }\n") ++ r))) =
    fnToks (hook (w ++ y)) ++ lex (.code true) r := by
  have : w ++ ((y ++ b!"() { return; }\n") ++ r) = (w ++ y) ++ (b!"() { return; }\n" ++ r) := by simp only [List.append_assoc]
  rw [this]
  show Tok.id _ :: lex (.code false) ((w ++ y) ++ 40 :: _) = _
  rw [lex_word hw false (by decide), hook_toks]
  rfl

theorem lex_pass {w : CStr} (hw : Word w) (r : CStr) : lex (.code true) ((b!"node_st *" ++ (w ++ b!"(node_st *root)\n{\n    return root;\n}\n\n")) ++ r) =
    fnToks (passStub w) ++ lex (.code true) r := by
  simp only [List.append_assoc]
  show Tok.id _ :: Tok.sym 42 :: lex (.code false) (w ++ 40 :: _) = _
  rw [lex_word hw false (by decide), pass_toks]
  rfl

/-! ### Names -/

theorem inWord_upper (c : UInt8) (h : inWord c = true) : inWord (upperB c) = true := by
  revert c; apply u8_forall; decide +kernel

theorem inWord_lower (c : UInt8) (h : inWord c = true) : inWord (lowerB c) = true := by
  revert c; apply u8_forall; decide +kernel

theorem big_upper (c : UInt8) (h : Spec.Text.isLetter c = true) : 65 ≤ upperB c ∧ upperB c ≤ 90 := by
  revert c; apply u8_forall; decide +kernel

theorem letter_big (c : UInt8) (h : 65 ≤ c ∧ c ≤ 90) : letter c = true := by
  revert c; apply u8_forall; decide +kernel

theorem keywords_small : ∀ k ∈ keywords, ∀ c ∈ k.head?, ¬ (65 ≤ c ∧ c ≤ 90) := by decide +kernel

theorem uid_name {u y : CStr} (hu : ∃ c r, u = c :: r ∧ Spec.Text.isLetter c = true ∧ ∀ d ∈ u, inWord d = true) (hy : ∀ c ∈ y, inWord c = true) :
    Word (u.map upperB ++ y) ∧ u.map upperB ++ y ∉ keywords := by
  obtain ⟨c, r, rfl, h1, h2⟩ := hu
  refine ⟨⟨⟨_, _, rfl, letter_big _ (big_upper c h1)⟩, fun d hd => ?_⟩, fun hk => ?_⟩
  · rcases List.mem_append.1 hd with hd | hd
    · obtain ⟨e, he, rfl⟩ := List.mem_map.1 hd
      exact inWord_upper e (h2 e he)
    · exact hy d hd
  · exact keywords_small _ hk _ rfl (big_upper c h1)

theorem uid_clean {u : CStr} (hu : ∃ c r, u = c :: r ∧ Spec.Text.isLetter c = true ∧ ∀ d ∈ u, inWord d = true) : ∀ c ∈ u.map upperB, inWord c = true := by
  obtain ⟨c, r, _, _, h2⟩ := hu
  intro d hd
  obtain ⟨e, he, rfl⟩ := List.mem_map.1 hd
  exact inWord_upper e (h2 e he)

/-! ### The functions of a traversal -/

/-- The names of the nodes of a traversal. -/
def idsOf (nodes : List Id) (s : Sets.Tree) : List Id :=
  match s.isNull with
  | false => preorder s
  | true => nodes.reverse

theorem stubsOf_ids (nodes : List Id) (x : Trav × Sets.Tree) :
    Declared.stubsOf nodes x = (idsOf nodes x.2).map fun i => (x.1.iprefix.upr ++ i.lwr, Declared.Sig.node) := by
  unfold Declared.stubsOf idsOf
  split
  · rename_i h
    rw [Declared.stubs_eq, h]
  · rename_i h
    rw [Declared.dugt_eq, h, List.map_reverse]

theorem literal_text (cur : CStr) (s : Sets.Tree) : DUGTsetliteral cur s = (preorder s).flatMap (DUGTid cur) := by
  induction s with
  | null => rfl
  | node a b i l r ihl ihr => rw [DUGTsetliteral, preorder, List.flatMap_cons, List.flatMap_append, ihl, ihr]

theorem inode_text (cur : CStr) (l : List Id) : DUGTinode cur l = l.reverse.flatMap (DUGTid cur) := by
  induction l with
  | nil => rfl
  | cons n l ih => rw [DUGTinode, List.reverse_cons, List.flatMap_append, ih]; simp

theorem ids_text (cur : CStr) (nodes : List Id) (s : Sets.Tree) : (match s.isNull with
    | false => DUGTsetliteral cur s
    | true => DUGTinode cur nodes) = (idsOf nodes s).flatMap (DUGTid cur) := by
  unfold idsOf
  cases s.isNull with
  | false => exact literal_text cur s
  | true => exact inode_text cur nodes

theorem lex_id {cur : CStr} {i : Id} (hw : Word (cur ++ i.lwr)) (r : CStr) :
    lex (.code true) (DUGTid cur i ++ r) = fnToks (stub (cur ++ i.lwr)) ++ lex (.code true) r := by
  rw [← lex_stub hw r, DUGTid]
  simp only [List.append_assoc]

theorem lex_ids {cur : CStr} {l : List Id} (h : ∀ i ∈ l, Word (cur ++ i.lwr)) :
    lex (.code true) (l.flatMap (DUGTid cur)) = (l.map fun i => Ext.function (stub (cur ++ i.lwr))).flatMap extToks := by
  induction l with
  | nil => rfl
  | cons i l ih =>
    rw [List.flatMap_cons, lex_id (h i List.mem_cons_self), ih fun j hj => h j (List.mem_cons_of_mem _ hj)]
    rfl

theorem clean_id {cur : CStr} {i : Id} (hw : Word (cur ++ i.lwr)) : Clean (DUGTid cur i) := by
  have h1 : Clean cur := clean_word fun c hc => hw.2 c (List.mem_append_left _ hc)
  have h2 : Clean i.lwr := clean_word fun c hc => hw.2 c (List.mem_append_right _ hc)
  refine .append (by unfold Clean; decide) (.append (by unfold Clean; decide) (.append h1 (.append h2 (.append (by unfold Clean; decide)
    (.append (by unfold Clean; decide) (.append (by unfold Clean; decide) (.append h1 (.append h2 (by unfold Clean; decide)))))))))

/-- The two functions for data. -/
def hooksOf (x : Parse.Traversal) : List Function :=
  match x.data with
  | _ :: _ => [hook (x.uid.orig.map upperB ++ b!"init"), hook (x.uid.orig.map upperB ++ b!"fini")]
  | [] => []

/-- Their text. -/
def hooksText (x : Parse.Traversal) : CStr :=
  match x.data with
  | _ :: _ => b!"void " ++ ((idOf x.uid).upr ++ (b!"init() { return; }\n" ++ (b!"void " ++ ((idOf x.uid).upr ++ (b!"fini() { return; }\n" ++ b!"\n")))))
  | [] => []

/-- The text behind the comment. -/
def rest (nodes : List Id) (x : Parse.Traversal) (s : Sets.Tree) : CStr :=
  b!"#include \"ccn/ccn.h\"\n" ++ (b!"#include \"ccngen/ast.h\"\n" ++ (b!"#include \"ccngen/trav.h\"\n" ++ (b!"\n" ++
  (hooksText x ++ (idsOf nodes s).flatMap (DUGTid (idOf x.uid).upr)))))

/-- The external declarations of the file. -/
def extsOf (nodes : List Id) (x : Parse.Traversal) (s : Sets.Tree) : List Ext :=
  [.directive b!"include \"ccn/ccn.h\"", .directive b!"include \"ccngen/ast.h\"", .directive b!"include \"ccngen/trav.h\""] ++
  ((hooksOf x).map .function ++ (idsOf nodes s).map fun i => .function (stub (x.uid.orig.map upperB ++ i.lwr)))

section
variable {nodes : List Id} {x : Parse.Traversal} {s : Sets.Tree}

theorem lex_rest (hu : ∃ c r, x.uid.orig = c :: r ∧ Spec.Text.isLetter c = true ∧ ∀ d ∈ x.uid.orig, inWord d = true)
    (hi : ∀ i ∈ idsOf nodes s, Word (x.uid.orig.map upperB ++ i.lwr)) : lex (.code true) (rest nodes x s) = (extsOf nodes x s).flatMap extToks := by
  have ids := lex_ids hi
  refine congrArg (fun z => Tok.dir b!"include \"ccn/ccn.h\"" :: Tok.dir b!"include \"ccngen/ast.h\"" :: Tok.dir b!"include \"ccngen/trav.h\"" :: z) ?_
  show lex (.code true) (hooksText x ++ (idsOf nodes s).flatMap (DUGTid (idOf x.uid).upr)) =
    ((hooksOf x).map Ext.function ++ (idsOf nodes s).map fun i => Ext.function (stub (x.uid.orig.map upperB ++ i.lwr))).flatMap extToks
  unfold hooksOf hooksText
  cases x.data with
  | nil => exact ids
  | cons d l =>
    have h1 := (uid_name hu (y := b!"init") (by decide)).1
    have h2 := (uid_name hu (y := b!"fini") (by decide)).1
    simp only [List.append_assoc]
    refine (lex_hook b!"init" h1 _).trans ?_
    refine (congrArg (fnToks _ ++ ·) (lex_hook b!"fini" h2 _)).trans ?_
    simp only [List.map_cons, List.map_nil, List.cons_append, List.nil_append, List.flatMap_cons]
    show fnToks _ ++ (fnToks _ ++ lex (.code true) ((idsOf nodes s).flatMap (DUGTid (idOf x.uid).upr))) = _
    rw [show lex (.code true) ((idsOf nodes s).flatMap (DUGTid (idOf x.uid).upr)) = _ from ids]
    rfl

theorem clean_rest (hu : ∃ c r, x.uid.orig = c :: r ∧ Spec.Text.isLetter c = true ∧ ∀ d ∈ x.uid.orig, inWord d = true)
    (hi : ∀ i ∈ idsOf nodes s, Word (x.uid.orig.map upperB ++ i.lwr)) : Clean (rest nodes x s) := by
  have h1 : Clean (idOf x.uid).upr := clean_word (uid_clean hu)
  refine .append (by unfold Clean; decide) (.append (by unfold Clean; decide) (.append (by unfold Clean; decide) (.append (by unfold Clean; decide)
    (.append ?_ ?_))))
  · unfold hooksText
    cases x.data with
    | nil => exact nofun
    | cons d l =>
      exact .append (by unfold Clean; decide) (.append h1 (.append (by unfold Clean; decide) (.append (by unfold Clean; decide) (.append h1
        (.append (by unfold Clean; decide) (by unfold Clean; decide))))))
  · intro c hc
    obtain ⟨i, h2, h3⟩ := List.mem_flatMap.1 hc
    exact clean_id (hi i h2) c h3

/-- The text before the information. -/
def top (x : Parse.Traversal) : CStr :=
  b!"/**\n" ++ (b!" * @file\n" ++ (b!" *\n" ++ (b!" * Traversal: " ++ (x.name.orig ++ (b!"\n" ++ (b!" * UID      : " ++
  (x.uid.orig.map upperB ++ (b!"\n" ++ (b!" *\n" ++ b!" *\n")))))))))

theorem text_eq : DUGTitraversal nodes x s = top x ++ ((match x.info with
    | some info => b!" * @brief " ++ (info ++ b!"\n")
    | none => []) ++ (b!" */\n\n" ++ rest nodes x s)) := by
  rw [DUGTitraversal, top, rest, ← ids_text, hooksText]
  simp only [List.append_assoc]
  rfl

theorem lex_top (hn : ∀ c ∈ x.name.orig, inWord c = true) (hu : ∀ c ∈ x.uid.orig.map upperB, inWord c = true) (r : CStr) :
    lex (.code true) (top x ++ r) = lex (.block true) r := by
  rw [top]
  simp only [List.append_assoc]
  show lex (.block true) (x.name.orig ++ _) = _
  rw [block_word true hn]
  show lex (.block true) (x.uid.orig.map upperB ++ _) = _
  rw [block_word true hu]
  rfl

/-- The words of the file of a traversal. -/
theorem lex_file (hn : Word x.name.orig) (hu : ∃ c r, x.uid.orig = c :: r ∧ Spec.Text.isLetter c = true ∧ ∀ d ∈ x.uid.orig, inWord d = true)
    (hi : ∀ i ∈ idsOf nodes s, Word (x.uid.orig.map upperB ++ i.lwr)) (h1 : ∀ i ∈ x.info, ¬ Beside 92 10 i) (h2 : ∀ i ∈ x.info, ¬ Beside 42 47 i) :
    lex (.code true) (splice (DUGTitraversal nodes x s)) = (extsOf nodes x s).flatMap extToks := by
  have hc := uid_clean hu
  have top_clean : Clean (top x) := .append (by unfold Clean; decide) (.append (by unfold Clean; decide) (.append (by unfold Clean; decide)
    (.append (by unfold Clean; decide) (.append (clean_word hn.2) (.append (by unfold Clean; decide) (.append (by unfold Clean; decide)
    (.append (clean_word hc) (.append (by unfold Clean; decide) (.append (by unfold Clean; decide) (by unfold Clean; decide))))))))))
  have rc : Clean (b!" */\n\n" ++ rest nodes x s) := .append (by unfold Clean; decide) (clean_rest hu hi)
  rw [text_eq, splice_clean top_clean, lex_top hn.2 hc, ← lex_rest hu hi]
  cases he : x.info with
  | none =>
    show lex (.block true) (splice (b!" */\n\n" ++ rest nodes x s)) = _
    rw [splice_all rc]
    rfl
  | some info =>
    obtain ⟨z, h3, h4⟩ := splice_text info (b!" */\n\n" ++ rest nodes x s) (h1 info he)
    have hz : ¬ Beside 42 47 z := by
      rcases h4 with rfl | ⟨e, h4⟩
      · exact beside_line (h2 info he)
      · exact beside_prefix (e := e) (by rw [← h4]; exact h2 info he)
    show lex (.block true) (splice ((b!" * @brief " ++ (info ++ b!"\n")) ++ (b!" */\n\n" ++ rest nodes x s))) = _
    rw [List.append_assoc, List.append_assoc, splice_clean (by unfold Clean; decide)]
    show lex (.block true) (splice (info ++ 10 :: (b!" */\n\n" ++ rest nodes x s))) = _
    rw [h3, splice_all rc]
    show lex (.block true) (z ++ 32 :: (b!"*/\n\n" ++ rest nodes x s)) = _
    rw [(block_text true z _ hz).1]
    rfl

/-! ### Passes -/

theorem lex_passes {l : List Pass} (h : ∀ p ∈ l, Word (DGHpassFuncName p)) :
    lex (.code true) (DUGPipass l) = (l.map fun p => Ext.function (passStub (DGHpassFuncName p))).flatMap extToks := by
  induction l with
  | nil => rfl
  | cons p l ih =>
    rw [DUGPipass, lex_pass (h p List.mem_cons_self), ih fun q hq => h q (List.mem_cons_of_mem _ hq)]
    rfl

theorem clean_passes {l : List Pass} (h : ∀ p ∈ l, Word (DGHpassFuncName p)) : Clean (DUGPipass l) := by
  induction l with
  | nil => exact nofun
  | cons p l ih =>
    exact .append (.append (by unfold Clean; decide) (.append (clean_word (h p List.mem_cons_self).2) (by unfold Clean; decide)))
      (ih fun q hq => h q (List.mem_cons_of_mem _ hq))

/-- The external declarations of `passes.c`. -/
def passExts (l : List Pass) : List Ext :=
  [.directive b!"include \"ccn/ccn.h\"", .directive b!"include \"ccngen/ast.h\""] ++ l.map fun p => .function (passStub (DGHpassFuncName p))

theorem lex_passFile {l : List Pass} (h : ∀ p ∈ l, Word (DGHpassFuncName p)) :
    lex (.code true) (splice (DUGPast l)) = (passExts l).flatMap extToks := by
  rw [DUGPast, splice_all (.append (by unfold Clean; decide) (.append (by unfold Clean; decide) (clean_passes h)))]
  refine (congrArg (fun z => Tok.dir b!"include \"ccn/ccn.h\"" :: Tok.dir b!"include \"ccngen/ast.h\"" :: z) (lex_passes h))

end

end Verif.Templates
