import Verif.Model.Dot
import Verif.Spec.Dot

/-!
# Lemmas about the text of the diagram
-/

namespace Verif.Dot
open Verif.Str Verif.Ids Verif.Semantic Verif.GenFiles
open Verif.Spec.Dot
open Verif.Spec.Str (lowerB SameName)

/-! ### Words -/

theorem lex_cons (m : Mode) (c : UInt8) (r : CStr) : lex m (c :: r) = (step m c).1 ++ lex (step m c).2 r := by
  cases m <;> rfl

theorem lex_inner (w : CStr) : ∀ (acc : CStr), (∀ c ∈ w, inWord c = true) → ∀ (c : UInt8) (r : CStr), inWord c = false →
    lex (.word acc) (w ++ c :: r) = .id (acc ++ w) :: lex .none (c :: r) := by
  induction w with
  | nil =>
    intro acc _ c r hc
    simp only [List.nil_append, List.append_nil, lex_cons, step, hc]
    rfl
  | cons d w ih =>
    intro acc h c r hc
    rw [List.cons_append, lex_cons]
    simp only [step, h d List.mem_cons_self, if_true, List.nil_append]
    rw [ih _ (fun x hx => h x (List.mem_cons_of_mem _ hx)) c r hc, List.append_assoc]
    rfl

theorem lex_word {w : CStr} (hw : Word w) {c : UInt8} (hc : inWord c = false) (r : CStr) :
    lex .none (w ++ c :: r) = .id w :: lex .none (c :: r) := by
  obtain ⟨⟨d, v, rfl, hd⟩, h⟩ := hw
  rw [List.cons_append, lex_cons]
  simp only [step, begins, hd, if_true, List.nil_append]
  exact lex_inner v [d] (fun x hx => h x (List.mem_cons_of_mem _ hx)) c r hc

theorem inWord_plain {c : UInt8} (h : inWord c = true) : c ≠ 34 ∧ c ≠ 92 :=
  ⟨by rintro rfl; exact absurd h (by decide), by rintro rfl; exact absurd h (by decide)⟩

theorem lex_quoted (w : CStr) : ∀ (acc : CStr), (∀ c ∈ w, inWord c = true) → ∀ (r : CStr),
    lex (.quoted acc) (w ++ 34 :: r) = .str (acc ++ w) :: lex .none r := by
  induction w with
  | nil => intro acc _ r; rw [List.nil_append, List.append_nil]; rfl
  | cons d w ih =>
    intro acc h r
    obtain ⟨h1, h2⟩ := inWord_plain (h d List.mem_cons_self)
    rw [List.cons_append, lex_cons]
    simp only [step, beq_iff_eq, h1, h2, if_false, List.nil_append]
    rw [ih _ (fun x hx => h x (List.mem_cons_of_mem _ hx)) r, List.append_assoc]
    rfl

/-! ### Lines -/

/-- The statements of the diagram. -/
inductive Line where
  | vertex (v : CStr)
  | child (a b l : CStr)
  | link (a b l : CStr)
  | member (a b : CStr)

/-- The statement of a line. -/
def Line.stmt : Line → Stmt
  | .vertex v => .vertex v []
  | .child a b l => .edge ⟨a, b, [(t "label", l)]⟩
  | .link a b l => .edge ⟨a, b, [(t "color", t "red"), (t "label", l)]⟩
  | .member a b => .edge ⟨a, b, [(t "color", t "blue")]⟩

/-- Its text. -/
def Line.text : Line → CStr
  | .vertex v => v ++ b!";\n"
  | .child a b l => a ++ (b!" -> " ++ (b ++ (b!"[label=\"" ++ (l ++ b!"\"]\n"))))
  | .link a b l => a ++ (b!" -> " ++ (b ++ (b!"[color=red, label=\"" ++ (l ++ b!"\"]\n"))))
  | .member a b => a ++ (b!" -> " ++ (b ++ b!" [color=blue]\n"))

/-- Its words. -/
def Line.toks : Line → List Tok
  | .vertex v => [.id v, .sym 59]
  | .child a b l => [.id a, .arrow, .id b, .sym 91, .id b!"label", .sym 61, .str l, .sym 93]
  | .link a b l => [.id a, .arrow, .id b, .sym 91, .id b!"color", .sym 61, .id b!"red", .sym 44, .id b!"label", .sym 61, .str l, .sym 93]
  | .member a b => [.id a, .arrow, .id b, .sym 91, .id b!"color", .sym 61, .id b!"blue", .sym 93]

/-- Names of vertices. -/
def Name (w : CStr) : Prop := Word w ∧ keyword w = false

/-- The names in a line are names. -/
def Line.Ok : Line → Prop
  | .vertex v => Name v
  | .child a b l => Name a ∧ Name b ∧ Word l
  | .link a b l => Name a ∧ Name b ∧ Word l
  | .member a b => Name a ∧ Name b

theorem lex_arrow (r : CStr) : lex .none (b!" -> " ++ r) = .arrow :: lex .none r := rfl

theorem lex_line {x : Line} (h : x.Ok) (r : CStr) : lex .none (x.text ++ r) = x.toks ++ lex .none r := by
  cases x with
  | vertex v =>
    simp only [Line.text, List.append_assoc]
    exact lex_word h.1 (by decide) _
  | child a b l =>
    obtain ⟨ha, hb, hl⟩ := h
    simp only [Line.text, List.append_assoc, Line.toks, List.cons_append, List.nil_append]
    rw [lex_word ha.1 (by decide)]
    refine congrArg (Tok.id a :: ·) ?_
    show Tok.arrow :: lex .none (b ++ 91 :: _) = _
    rw [lex_word hb.1 (by decide)]
    refine congrArg (fun z => Tok.arrow :: Tok.id b :: z) ?_
    show Tok.sym 91 :: Tok.id _ :: Tok.sym 61 :: lex (.quoted []) (l ++ 34 :: _) = _
    rw [lex_quoted l [] hl.2]
    rfl
  | link a b l =>
    obtain ⟨ha, hb, hl⟩ := h
    simp only [Line.text, List.append_assoc, Line.toks, List.cons_append, List.nil_append]
    rw [lex_word ha.1 (by decide)]
    refine congrArg (Tok.id a :: ·) ?_
    show Tok.arrow :: lex .none (b ++ 91 :: _) = _
    rw [lex_word hb.1 (by decide)]
    refine congrArg (fun z => Tok.arrow :: Tok.id b :: z) ?_
    show Tok.sym 91 :: Tok.id _ :: Tok.sym 61 :: Tok.id _ :: Tok.sym 44 :: Tok.id _ :: Tok.sym 61 :: lex (.quoted []) (l ++ 34 :: _) = _
    rw [lex_quoted l [] hl.2]
    rfl
  | member a b =>
    obtain ⟨ha, hb⟩ := h
    simp only [Line.text, List.append_assoc, Line.toks, List.cons_append, List.nil_append]
    rw [lex_word ha.1 (by decide)]
    refine congrArg (Tok.id a :: ·) ?_
    show Tok.arrow :: lex .none (b ++ 32 :: _) = _
    rw [lex_word hb.1 (by decide)]
    rfl

/-- The text of lines. -/
def textOf : List Line → CStr
  | [] => []
  | x :: l => x.text ++ textOf l

/-- Their words. -/
def toksOf : List Line → List Tok
  | [] => []
  | x :: l => x.toks ++ toksOf l

theorem textOf_append (a b : List Line) : textOf (a ++ b) = textOf a ++ textOf b := by
  induction a with
  | nil => rfl
  | cons x a ih => rw [List.cons_append, textOf, textOf, ih, List.append_assoc]

theorem lex_lines {l : List Line} (h : ∀ x ∈ l, x.Ok) (r : CStr) : lex .none (textOf l ++ r) = toksOf l ++ lex .none r := by
  induction l with
  | nil => rfl
  | cons x l ih =>
    rw [textOf, List.append_assoc, lex_line (h x List.mem_cons_self), ih fun y hy => h y (List.mem_cons_of_mem _ hy), toksOf, List.append_assoc]

/-! ### Statements -/

theorem ident_id {w : CStr} (h : keyword w = false) : ident (.id w) = some w := by
  simp [ident, h]

theorem ident_str (w : CStr) : ident (.str w) = some w := rfl

/-- What is between statements: no semicolon. -/
def Head : List Tok → Prop
  | .id _ :: _ => True
  | .sym 125 :: _ => True
  | _ => False

theorem semi_head {r : List Tok} (h : Head r) : semi r = r := by
  unfold Head at h
  split at h
  · rfl
  · rfl
  · cases h

theorem head_toks (x : Line) (r : List Tok) : Head (x.toks ++ r) := by
  cases x <;> exact True.intro

theorem head_lines (l : List Line) : Head (toksOf l ++ [.sym 125]) := by
  cases l with
  | nil => exact True.intro
  | cons x l => rw [toksOf, List.append_assoc]; exact head_toks x _

theorem kw_label : ident (.id b!"label") = some (t "label") := by decide +kernel
theorem kw_color : ident (.id b!"color") = some (t "color") := by decide +kernel
theorem kw_red : ident (.id b!"red") = some (t "red") := by decide +kernel
theorem kw_blue : ident (.id b!"blue") = some (t "blue") := by decide +kernel

theorem attrs_label (l : CStr) (r : List Tok) (h : Head r) :
    attrList (.id b!"label" :: .sym 61 :: .str l :: .sym 93 :: r) = some ([(t "label", l)], r) := by
  rw [attrList]
  · rw [attrList, kw_label, ident_str]; rfl
  · intro e; cases e
  · intro rest e; cases e

theorem stmt_line {x : Line} (h : x.Ok) {r : List Tok} (hr : Head r) :
    ∃ r', stmt (x.toks ++ r) = some (x.stmt, r') ∧ semi r' = r := by
  cases x with
  | vertex v =>
    refine ⟨.sym 59 :: r, ?_, rfl⟩
    show stmt (.id v :: .sym 59 :: r) = _
    rw [stmt]
    · rw [ident_id h.2]; rfl
    · intro b rest e; cases e
  | child a b l =>
    refine ⟨r, ?_, semi_head hr⟩
    show stmt (.id a :: .arrow :: .id b :: .sym 91 :: _) = _
    rw [stmt, ident_id h.1.2, ident_id h.2.1.2]
    show (attrList (.id b!"label" :: .sym 61 :: .str l :: .sym 93 :: r)).bind _ = _
    rw [attrs_label l r hr]
    rfl
  | link a b l =>
    refine ⟨r, ?_, semi_head hr⟩
    show stmt (.id a :: .arrow :: .id b :: .sym 91 :: _) = _
    rw [stmt, ident_id h.1.2, ident_id h.2.1.2]
    show (attrList (.id b!"color" :: .sym 61 :: .id b!"red" :: .sym 44 :: .id b!"label" :: .sym 61 :: .str l :: .sym 93 :: r)).bind _ = _
    rw [attrList]
    · rw [attrs_label l r hr, kw_color, kw_red]; rfl
    · intro e; cases e
  | member a b =>
    refine ⟨r, ?_, semi_head hr⟩
    show stmt (.id a :: .arrow :: .id b :: .sym 91 :: _) = _
    rw [stmt, ident_id h.1.2, ident_id h.2.2]
    show (attrList (.id b!"color" :: .sym 61 :: .id b!"blue" :: .sym 93 :: r)).bind _ = _
    rw [attrList]
    · rw [attrList, kw_color, kw_blue]; rfl
    · intro e; cases e
    · intro rest e; cases e

theorem stmts_succ (n : Nat) (toks : List Tok) (h : toks ≠ [.sym 125]) :
    stmts (n + 1) toks = (stmt toks).bind fun p => (stmts n (semi p.2)).bind fun l => some (p.1 :: l) := by
  rw [stmts]
  · rfl
  · exact h

theorem toks_pos (x : Line) : 1 ≤ x.toks.length := by
  cases x <;> simp [Line.toks]

theorem toks_ne (x : Line) (r : List Tok) : x.toks ++ r ≠ [.sym 125] := by
  cases x <;> (intro h; cases h)

theorem stmts_lines : ∀ (l : List Line), (∀ x ∈ l, x.Ok) → ∀ n, l.length + 1 ≤ n → stmts n (toksOf l ++ [.sym 125]) = some (l.map Line.stmt)
  | [], _, n + 1, _ => rfl
  | x :: l, h, n + 1, hn => by
    rw [toksOf, List.append_assoc, stmts_succ _ _ (toks_ne x _)]
    obtain ⟨r', h1, h2⟩ := stmt_line (h x List.mem_cons_self) (head_lines l)
    rw [h1]
    show (stmts n (semi r')).bind _ = _
    rw [h2, stmts_lines l (fun y hy => h y (List.mem_cons_of_mem _ hy)) n (by simp only [List.length_cons] at hn; omega)]
    rfl

theorem toks_length (l : List Line) : l.length ≤ (toksOf l).length := by
  induction l with
  | nil => exact Nat.le_refl _
  | cons x l ih =>
    have := toks_pos x
    simp only [toksOf, List.length_append, List.length_cons]
    omega

theorem read_lines {l : List Line} (h : ∀ x ∈ l, x.Ok) : read (b!"digraph Ast {\n" ++ (textOf l ++ b!"}\n")) = some (l.map Line.stmt) := by
  have e : lex .none (b!"digraph Ast {\n" ++ (textOf l ++ b!"}\n")) =
      .id b!"digraph" :: .id b!"Ast" :: .sym 123 :: (toksOf l ++ [.sym 125]) := by
    show Tok.id b!"digraph" :: Tok.id b!"Ast" :: Tok.sym 123 :: lex .none (textOf l ++ b!"}\n") = _
    rw [lex_lines h]
    rfl
  have hd : (b!"digraph").map lowerB = t "digraph" := by decide +kernel
  have hi : ident (.id b!"Ast") = some b!"Ast" := by decide +kernel
  rw [Spec.Dot.read, e, graph, if_pos hd, hi]
  have := toks_length l
  exact stmts_lines l h _ (by simp only [List.length_append, List.length_singleton]; omega)

/-! ### The lines of the diagram -/

/-- The lines of a node. -/
def nodeLines (o : Out) (k : Nat) (n : Parse.Node) : List Line :=
  .vertex n.name.orig :: (n.children.map fun c => .child n.name.orig c.type.orig c.name.orig) ++
    (o.attrs (.node k)).filterMap fun a => match a.type with
      | .link => some (.link n.name.orig (decode a.ref) (decode a.orig))
      | _ => none

/-- The names in a literal in the order in which they are printed. -/
def printed : Sets.Tree → List Id
  | .null => []
  | .node _ _ i l r => i :: (printed r ++ printed l)

/-- The lines of a nodeset. -/
def setLines (s : CStr) (t : Sets.Tree) : List Line := .vertex s :: (printed t).map fun i => .member s i.orig

theorem child_text (n : CStr) (l : List Parse.Child) : GDchild n l = textOf (l.map fun c => .child n c.type.orig c.name.orig) := by
  induction l with
  | nil => rfl
  | cons c l ih => rw [GDchild, ih]; rfl

theorem attr_text (n : CStr) (l : List Propagate.Attr) : GDattribute n l = textOf (l.filterMap fun a => match a.type with
      | .link => some (.link n (decode a.ref) (decode a.orig))
      | _ => none) := by
  induction l with
  | nil => rfl
  | cons a l ih =>
    rw [GDattribute, List.filterMap_cons]
    cases a.type with
    | link => simp only; rw [ih]; rfl
    | linkOrEnum => exact ih
    | user => exact ih
    | basic => exact ih

theorem lines_text (o : Out) (k : Nat) (n : Parse.Node) : textOf (nodeLines o k n) =
    (n.name.orig ++ b!";\n") ++ (GDchild n.name.orig n.children ++ GDattribute n.name.orig (o.attrs (.node k))) := by
  rw [nodeLines, List.cons_append, textOf, textOf_append, child_text, attr_text]
  rfl

theorem node_text (o : Out) : ∀ (l : List Parse.Node) (k : Nat), GDinode o k l = textOf (l.mapIdx fun i n => nodeLines o (k + i) n).flatten
  | [], _ => rfl
  | n :: l, k => by
    have e : (fun i n => nodeLines o (k + 1 + i) n) = fun i n => nodeLines o (k + (i + 1)) n := by
      funext i n
      rw [Nat.add_right_comm, Nat.add_assoc]
    rw [GDinode, node_text o l (k + 1), e, List.mapIdx_cons, List.flatten_cons, textOf_append, lines_text]
    simp only [List.append_assoc, Nat.add_zero]

theorem literal_text (s : CStr) (t : Sets.Tree) : GDsetliteral s t = textOf ((printed t).map fun i => .member s i.orig) := by
  induction t with
  | null => rfl
  | node a ia i l r ihl ihr =>
    rw [GDsetliteral, ihl, ihr, printed, List.map_cons, List.map_append, textOf, textOf_append]
    rfl

theorem set_text (l : List (Parse.NodeSet × Sets.Tree)) : GDinodeset l = textOf (l.map fun p => setLines p.1.name.orig p.2).flatten := by
  induction l with
  | nil => rfl
  | cons p l ih =>
    obtain ⟨s, t⟩ := p
    simp only [GDinodeset, ih, List.map_cons, List.flatten_cons, textOf_append, setLines, textOf, literal_text, List.append_assoc, Line.text]

/-- All lines. -/
def lines (A : Parse.Ast) (o : Out) (trees : List Sets.Tree) : List Line :=
  (A.nodes.mapIdx (nodeLines o)).flatten ++ ((A.nodesets.zip trees).map fun p => setLines p.1.name.orig p.2).flatten

theorem text_lines (A : Parse.Ast) (o : Out) (trees : List Sets.Tree) :
    GDast A o trees = b!"digraph Ast {\n" ++ (textOf (lines A o trees) ++ b!"}\n") := by
  rw [GDast, node_text, set_text, lines, textOf_append]
  simp only [Nat.zero_add, List.append_assoc]

end Verif.Dot
