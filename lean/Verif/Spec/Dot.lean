import Verif.Spec.Semantic

/-!
# Specification of the diagram of a description

A reader for a part of the DOT language (https://graphviz.org/doc/info/lang.html): directed graphs of statements for vertices and edges, with
lists of attributes.  Identifiers are words or texts in quotes without escapes.  There are no numerals, comments, ports, chains of edges,
subgraphs and defaults; the reader fails on them.  Words of the language are recognised in any letter case.
-/

namespace Verif.Spec.Dot
open Verif.Str
open Verif.Spec.Str (lowerB SameName)
open Verif.Spec.Semantic (NodeAttr Member)

/-- The bytes of a text. -/
abbrev t (s : String) : CStr := s.toUTF8.toList

/-! ### The language -/

/-- Words of a text; `bad` is what the reader does not know. -/
inductive Tok where
  | id (w : CStr)
  | str (w : CStr)
  | sym (c : UInt8)
  | arrow
  | bad
  deriving DecidableEq, Repr

/-- Where in a word the reader is: between words, in an identifier, in quotes, or after `-`. -/
inductive Mode where
  | none
  | word (w : CStr)
  | quoted (w : CStr)
  | dash
  deriving DecidableEq, Repr

/-- A letter or underscore. -/
def letter (c : UInt8) : Bool := (65 ≤ c && c ≤ 90) || (97 ≤ c && c ≤ 122) || c == 95

/-- A character of an identifier. -/
def inWord (c : UInt8) : Bool := letter c || (48 ≤ c && c ≤ 57)

/-- Blanks and line ends. -/
def blank (c : UInt8) : Bool := c == 32 || c == 9 || c == 10 || c == 13

/-- `{ } [ ] = ; ,` -/
def symbol (c : UInt8) : Bool := c == 123 || c == 125 || c == 91 || c == 93 || c == 61 || c == 59 || c == 44

/-- What a character between words means: the words before the rest, and where the rest is. -/
def begins (c : UInt8) : List Tok × Mode :=
  if letter c then ([], .word [c])
  else if blank c then ([], .none)
  else if symbol c then ([.sym c], .none)
  else if c == 34 then ([], .quoted [])
  else if c == 45 then ([], .dash)
  else ([.bad], .none)

/-- What a character means. -/
def step (m : Mode) (c : UInt8) : List Tok × Mode :=
  match m with
  | .none => begins c
  | .word w => if inWord c then ([], .word (w ++ [c])) else (.id w :: (begins c).1, (begins c).2)
  | .quoted w => if c == 34 then ([.str w], .none) else if c == 92 then ([.bad], .none) else ([], .quoted (w ++ [c]))
  | .dash => if c == 62 then ([.arrow], .none) else ([.bad], .none)

/-- The words of a text. -/
def lex : Mode → CStr → List Tok
  | .none, [] => []
  | .word w, [] => [.id w]
  | .quoted _, [] => [.bad]
  | .dash, [] => [.bad]
  | m, c :: rest => (step m c).1 ++ lex (step m c).2 rest

/-- The words of the language. -/
def keyword (w : CStr) : Bool :=
  [t "node", t "edge", t "graph", t "digraph", t "subgraph", t "strict"].contains (w.map lowerB)

/-- An edge, with its attributes. -/
structure Edge where
  src : CStr
  dst : CStr
  attrs : List (CStr × CStr)
  deriving DecidableEq, Repr

/-- A statement. -/
inductive Stmt where
  | vertex (v : CStr) (attrs : List (CStr × CStr))
  | edge (e : Edge)
  deriving DecidableEq, Repr

/-- An identifier: a word that is not of the language, or a text in quotes. -/
def ident : Tok → Option CStr
  | .id w => if keyword w then none else some w
  | .str w => some w
  | _ => none

/-- A list of attributes behind `[`, and what follows it. -/
def attrList : List Tok → Option (List (CStr × CStr) × List Tok)
  | .sym 93 :: rest => some ([], rest)
  | k :: .sym 61 :: v :: .sym 44 :: rest => do
    let k ← ident k
    let v ← ident v
    let (l, rest) ← attrList rest
    some ((k, v) :: l, rest)
  | k :: .sym 61 :: v :: rest => do
    let k ← ident k
    let v ← ident v
    let (l, rest) ← attrList rest
    some ((k, v) :: l, rest)
  | _ => none

/-- Attributes, if there are any. -/
def attrsOpt : List Tok → Option (List (CStr × CStr) × List Tok)
  | .sym 91 :: rest => attrList rest
  | rest => some ([], rest)

/-- A statement, and what follows it. -/
def stmt : List Tok → Option (Stmt × List Tok)
  | a :: .arrow :: b :: rest => do
    let a ← ident a
    let b ← ident b
    let (l, rest) ← attrsOpt rest
    some (.edge ⟨a, b, l⟩, rest)
  | a :: rest => do
    let a ← ident a
    let (l, rest) ← attrsOpt rest
    some (.vertex a l, rest)
  | [] => none

/-- A semicolon may follow a statement. -/
def semi : List Tok → List Tok
  | .sym 59 :: rest => rest
  | rest => rest

/-- The statements up to `}`, which ends the text.  The number bounds how many there are. -/
def stmts : Nat → List Tok → Option (List Stmt)
  | 0, _ => none
  | _ + 1, [.sym 125] => some []
  | n + 1, toks => do
    let (s, rest) ← stmt toks
    let l ← stmts n (semi rest)
    some (s :: l)

/-- The statements of a directed graph with a name. -/
def graph : List Tok → Option (List Stmt)
  | .id d :: name :: .sym 123 :: rest =>
    if d.map lowerB = t "digraph" then (ident name).bind fun _ => stmts rest.length rest else none
  | _ => none

/-- The graph that a text describes. -/
def read (text : CStr) : Option (List Stmt) := graph (lex .none text)

/-- The edges of a graph. -/
def edges (g : List Stmt) : List Edge := g.filterMap fun s => match s with | .edge e => some e | .vertex .. => none

/-- A vertex of a graph: it is in a statement, or at an end of an edge. -/
def Vertex (g : List Stmt) (v : CStr) : Prop :=
  (∃ l, .vertex v l ∈ g) ∨ ∃ e ∈ edges g, v = e.src ∨ v = e.dst

/-! ### The diagram -/

/-- The name of a node or nodeset, as it is declared. -/
def Declared (A : Parse.Ast) (v : CStr) : Prop := (∃ n ∈ A.nodes, n.name.orig = v) ∨ ∃ s ∈ A.nodesets, s.name.orig = v

/-- The attribute refers to the node or nodeset that was declared as `v`. -/
def Refers (A : Parse.Ast) (a : Parse.Attr) (v : CStr) : Prop :=
  a.type = .link_or_enum ∧ Declared A v ∧ ∃ r, a.ref = some r ∧ SameName v r.orig

/-- The edge for a child. -/
def ChildEdge (A : Parse.Ast) (e : Edge) : Prop :=
  ∃ n ∈ A.nodes, ∃ c ∈ n.children, ∃ v, Declared A v ∧ SameName v c.type.orig ∧ e = ⟨n.name.orig, v, [(t "label", c.name.orig)]⟩

/-- The edge for an attribute of a node, own or of a nodeset it is in, that refers to a node or nodeset. -/
def LinkEdge (A : Parse.Ast) (e : Edge) : Prop :=
  ∃ (k : Nat) (n : Parse.Node) (a : Parse.Attr) (v : CStr), A.nodes[k]? = some n ∧ NodeAttr A k a ∧ Refers A a v ∧
    e = ⟨n.name.orig, v, [(t "color", t "red"), (t "label", a.name.orig)]⟩

/-- The edge for a member of a nodeset. -/
def MemberEdge (A : Parse.Ast) (e : Edge) : Prop :=
  ∃ (i k : Nat) (s : Parse.NodeSet) (n : Parse.Node), A.nodesets[i]? = some s ∧ A.nodes[k]? = some n ∧ Member A i k ∧
    e = ⟨s.name.orig, n.name.orig, [(t "color", t "blue")]⟩

/-- The graph shows the description. -/
structure Shows (A : Parse.Ast) (g : List Stmt) : Prop where
  vertices : ∀ v, Vertex g v ↔ Declared A v
  children : ∀ e, ChildEdge A e → e ∈ edges g
  members : ∀ e, MemberEdge A e → e ∈ edges g
  /-- what a node declares itself -/
  links : ∀ n ∈ A.nodes, ∀ a ∈ n.attrs, ∀ v, Refers A a v → ⟨n.name.orig, v, [(t "color", t "red"), (t "label", a.name.orig)]⟩ ∈ edges g
  /-- what it gets from nodesets and may declare again, with the name in other letter case -/
  handed : ∀ (k : Nat) (n : Parse.Node) (a : Parse.Attr) (v : CStr), A.nodes[k]? = some n → NodeAttr A k a → Refers A a v →
    ∃ e ∈ edges g, LinkEdge A e ∧ e.src = n.name.orig ∧ ∃ l, e.attrs = [(t "color", t "red"), (t "label", l)] ∧ SameName l a.name.orig
  only : ∀ e ∈ edges g, ChildEdge A e ∨ LinkEdge A e ∨ MemberEdge A e
  once : (edges g).Nodup

/-! ### Conditions -/

/-- An identifier, as the lexer reads it (`cocogen/frontend/scanAndParse/dsl-lexer.l:166-170`). -/
def Word (w : CStr) : Prop := (∃ c r, w = c :: r ∧ letter c = true) ∧ ∀ c ∈ w, inWord c = true

/-- Names are identifiers; those of nodes and nodesets are no words of the language of the diagram. -/
structure Worded (A : Parse.Ast) : Prop where
  nodes : ∀ n ∈ A.nodes, Word n.name.orig ∧ keyword n.name.orig = false
  sets : ∀ s ∈ A.nodesets, Word s.name.orig ∧ keyword s.name.orig = false
  children : ∀ n ∈ A.nodes, ∀ c ∈ n.children, Word c.name.orig
  attrs : ∀ n ∈ A.nodes, ∀ a ∈ n.attrs, Word a.name.orig
  sattrs : ∀ s ∈ A.nodesets, ∀ a ∈ s.attrs, Word a.name.orig

/-- The names in the literals of an expression. -/
def literal : Parse.SetE → List Parse.Name
  | .lit l => l
  | .ref _ => []
  | .op _ l r => literal l ++ literal r

/-- References to nodes and nodesets have the letter case of the declaration; those in expressions to nodesets need not. -/
structure Spelled (A : Parse.Ast) : Prop where
  children : ∀ n ∈ A.nodes, ∀ c ∈ n.children, ∀ v, Declared A v → SameName v c.type.orig → c.type.orig = v
  attrs : ∀ n ∈ A.nodes, ∀ a ∈ n.attrs, ∀ r ∈ a.ref, ∀ v, Declared A v → SameName v r.orig → r.orig = v
  sattrs : ∀ s ∈ A.nodesets, ∀ a ∈ s.attrs, ∀ r ∈ a.ref, ∀ v, Declared A v → SameName v r.orig → r.orig = v
  sets : ∀ s ∈ A.nodesets, ∀ i ∈ literal s.expr, ∀ v, Declared A v → SameName v i.orig → i.orig = v
  travs : ∀ x ∈ A.traversals, ∀ e ∈ x.nodes, ∀ i ∈ literal e, ∀ v, Declared A v → SameName v i.orig → i.orig = v

end Verif.Spec.Dot
