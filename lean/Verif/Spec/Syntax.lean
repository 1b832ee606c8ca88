import Verif.Model.Parse

/-!
# The syntax of descriptions

Descriptions as the manual has them (`docs/source/dsl_syntax.rst`), how they are written, and the tree that says what they say.
Only the types of tokens and trees are shared with the parser.
-/

namespace Verif.Spec.Syntax
open Verif.Str (CStr)
open Verif.Parse (Name T SO SetE AT LT)

/-- A list, with commas between. -/
def commas : List (List T) → List T
  | [] => []
  | [x] => x
  | x :: y :: rest => x ++ .comma :: commas (y :: rest)

/-- Names with points between. -/
def dotted : List Name → List T
  | [] => []
  | [n] => [.id n]
  | n :: m :: rest => .id n :: .dot :: dotted (m :: rest)

/-- A block: a keyword and a list in braces. -/
def block (k : T) (xs : List (List T)) : List T := k :: .lbrace :: (commas xs ++ [.rbrace])

/-- A setting: a keyword, `=` and its value. -/
def setting (k v : T) : List T := [k, .eq, v]

/-- A part that may be left out. -/
def opt (f : α → List T) : Option α → List (List T)
  | none => []
  | some a => [f a]

/-- A block that is left out if there is nothing in it. -/
def blockOpt (k : T) : List (List T) → List (List T)
  | [] => []
  | x :: xs => [block k (x :: xs)]

/-! ## Set expressions -/

/-- The signs of the operations. -/
def sign : SO → T
  | .iunion => .bar
  | .intersect => .amp
  | .difference => .minus

mutual
/-- An operand: a set in braces, the name of a nodeset, or a chain of at least two operands in parentheses. -/
inductive Atom where
  | lit (n : Name) (ns : List Name)
  | ref (n : Name)
  | paren (a : Atom) (o : SO) (b : Atom) (rest : Tail)
/-- The rest of a chain: operators, each with its right operand. -/
inductive Tail where
  | nil
  | cons (o : SO) (a : Atom) (rest : Tail)
end

mutual
/-- How an operand is written. -/
def Atom.spell : Atom → List T
  | .lit n ns => .lbrace :: (commas ((n :: ns).map fun m => [.id m]) ++ [.rbrace])
  | .ref n => [.id n]
  | .paren a o b rest => .lpar :: (a.spell ++ sign o :: (b.spell ++ (rest.spell ++ [.rpar])))
/-- How the rest of a chain is written. -/
def Tail.spell : Tail → List T
  | .nil => []
  | .cons o a rest => sign o :: (a.spell ++ rest.spell)
end

mutual
/-- What an operand says. -/
def Atom.tree : Atom → SetE
  | .lit n ns => .lit (n :: ns)
  | .ref n => .ref n
  | .paren a o b rest => rest.tree (.op o a.tree b.tree)
/-- What a chain says, from left to right. -/
def Tail.tree : Tail → SetE → SetE
  | .nil, e => e
  | .cons o a rest, e => rest.tree (.op o e a.tree)
end

/-- A set expression. -/
structure SetX where
  first : Atom
  rest : Tail

def SetX.spell (x : SetX) : List T := x.first.spell ++ x.rest.spell

def SetX.tree (x : SetX) : SetE := x.rest.tree x.first.tree

/-! ## Lifetimes -/

/-- One end of a range: whether the bracket is `[` or `]`, and the action, none for the beginning or end of the compilation. -/
structure Edge where
  inclusive : Bool
  target : List Name

/-- `( a.b` or `[ a.b` -/
def Edge.spellBegin (e : Edge) : List T := (match e.inclusive with | true => .lbrack | false => .lpar) :: dotted e.target

/-- `a.b )` or `a.b ]` -/
def Edge.spellEnd (e : Edge) : List T := dotted e.target ++ [match e.inclusive with | true => .rbrack | false => .rpar]

/-- An end without action is no end. -/
def Edge.tree (e : Edge) : Option Parse.Range :=
  match e.target with
  | [] => none
  | n :: ns => some ⟨e.inclusive, n :: ns⟩

/-- A lifetime: what the node or child is, and from when to when. -/
structure Life where
  kind : LT
  range : Option (Edge × Edge)

/-- The words for it. -/
def word : LT → T
  | .disallowed => .disallowed
  | .mandatory => .mandatory
  | .optional => .optional
  | .allowed => .allowed

def Life.spell (l : Life) : List T :=
  word l.kind :: match l.range with
    | none => []
    | some (b, e) => b.spellBegin ++ .arrow :: e.spellEnd

def Life.tree (l : Life) : Parse.Lifetime :=
  match l.range with
  | none => ⟨l.kind, none, none⟩
  | some (b, e) => ⟨l.kind, b.tree, e.tree⟩

/-- Without range only `disallowed` and `mandatory`; `[` and `]` with an action only. -/
def Life.Ok (l : Life) : Prop :=
  match l.range with
  | none => l.kind = .disallowed ∨ l.kind = .mandatory
  | some (b, e) => (b.inclusive = true → b.target ≠ []) ∧ (e.inclusive = true → e.target ≠ [])

/-! ## Types, children and attributes -/

/-- The primitive types (`docs/source/primitive_types.rst`). -/
inductive Prim where
  | bool | string | int | float | double | uint8 | uint16 | uint32 | uint64 | int8 | int16 | int32 | int64
  deriving DecidableEq, Repr

/-- How they are written. -/
def Prim.spell : Prim → T
  | .bool => .bool | .string => .string | .int => .int | .float => .float | .double => .double
  | .uint8 => .uint8 | .uint16 => .uint16 | .uint32 => .uint32 | .uint64 => .uint64
  | .int8 => .int8 | .int16 => .int16 | .int32 => .int32 | .int64 => .int64

/-- The types of attributes that they stand for. -/
def Prim.tree : Prim → AT
  | .bool => .bool | .string => .string | .int => .int | .float => .float | .double => .double
  | .uint8 => .uint8 | .uint16 => .uint16 | .uint32 => .uint32 | .uint64 => .uint64
  | .int8 => .int8 | .int16 => .int16 | .int32 => .int32 | .int64 => .int64

/-- A type: a primitive one, a name (of a node, nodeset or enumeration), or a name of the user's. -/
inductive Ty where
  | prim (p : Prim)
  | named (n : Name)
  | user (n : Name)

def Ty.spell : Ty → List T
  | .prim p => [p.spell]
  | .named n => [.id n]
  | .user n => [.user, .id n]

def Ty.at : Ty → AT
  | .prim p => p.tree
  | .named _ => .link_or_enum
  | .user _ => .user

def Ty.ref : Ty → Option Name
  | .prim _ => none
  | .named n => some n
  | .user n => some n

/-- A child; `some` is what stands in braces. -/
structure Child where
  type : Name
  name : Name
  options : Option (Bool × List Life)

/-- The word `constructor`, if it is there. -/
def ctorWord : Bool → List (List T)
  | true => [[.constructor]]
  | false => []

def Child.spell (c : Child) : List T :=
  .id c.type :: .id c.name :: match c.options with
    | none => []
    | some (b, ls) => .lbrace :: (commas (ctorWord b ++ ls.map Life.spell) ++ [.rbrace])

def Child.tree (c : Child) : Parse.Child :=
  match c.options with
  | none => ⟨c.name, c.type, false, []⟩
  | some (b, ls) => ⟨c.name, c.type, b, ls.map Life.tree⟩

def Child.Ok (c : Child) : Prop := ∀ b ls, c.options = some (b, ls) → ∀ l ∈ ls, l.Ok

/-- An option of an attribute. -/
inductive Opt where
  | constructor | inherited | synthesized
  | lifetime (l : Life)

def Opt.spell : Opt → List T
  | .constructor => [.constructor]
  | .inherited => [.inherited]
  | .synthesized => [.synthesized]
  | .lifetime l => l.spell

/-- The lifetime, if the option is one. -/
def Opt.life : Opt → Option Life
  | .lifetime l => some l
  | _ => none

/-- Whether the option is the word. -/
def Opt.isCtor : Opt → Bool
  | .constructor => true
  | _ => false

def Opt.isInherited : Opt → Bool
  | .inherited => true
  | _ => false

def Opt.isSynthesized : Opt → Bool
  | .synthesized => true
  | _ => false

/-- An attribute; `some` is what stands in braces, in any order. -/
structure Attr where
  type : Ty
  name : Name
  options : Option (List Opt)

def Attr.spell (a : Attr) : List T :=
  a.type.spell ++ .id a.name :: match a.options with
    | none => []
    | some os => .lbrace :: (commas (os.map Opt.spell) ++ [.rbrace])

def Attr.tree (a : Attr) : Parse.Attr :=
  let os := a.options.getD []
  { name := a.name, type := a.type.at, ref := a.type.ref, ctor := os.any Opt.isCtor, inherited := os.any Opt.isInherited,
    synthesized := os.any Opt.isSynthesized, lifetimes := (os.filterMap Opt.life).map Life.tree }

def Attr.Ok (a : Attr) : Prop := ∀ os, a.options = some os → ∀ o ∈ os, ∀ l, o.life = some l → l.Ok

/-! ## Equations -/

/-- An attribute of a child, or of the node itself (`none`). -/
structure Ref where
  node : Option Name
  attr : Name

def Ref.spell (r : Ref) : List T := [(match r.node with | some n => .id n | none => .this), .dot, .id r.attr]

def Ref.tree (r : Ref) : Parse.Ref := ⟨r.node, r.attr⟩

/-- An equation; `some` are the arguments, which may be left out. -/
structure Equation where
  target : Ref
  args : Option (List Ref)

def Equation.spell (e : Equation) : List T :=
  e.target.spell ++ .eq :: .lbrace :: ((match e.args with
    | none => []
    | some ds => .args :: .eq :: .lbrace :: (commas (ds.map Ref.spell) ++ [.rbrace])) ++ [.rbrace])

def Equation.tree (e : Equation) : Parse.Equation := ⟨e.target.tree, (e.args.getD []).map Ref.tree⟩

/-! ## Nodes, nodesets, enumerations -/

/-- A node.  Lists without elements are left out; `comma` says that a comma stands behind the last block. -/
structure Node where
  root : Bool
  name : Name
  children : List Child
  attrs : List Attr
  equations : List Equation
  lifetimes : List Life
  comma : Bool

/-- What stands in the braces of a node. -/
def Node.parts (n : Node) : List (List T) :=
  blockOpt .children (n.children.map Child.spell) ++ blockOpt .attributes (n.attrs.map Attr.spell) ++
    blockOpt .equations (n.equations.map Equation.spell) ++ blockOpt .lifetime (n.lifetimes.map Life.spell)

def Node.spell (n : Node) : List T :=
  (match n.root with | true => [.root] | false => []) ++ .node :: .id n.name :: .lbrace ::
    (commas n.parts ++ (match n.comma with | true => [.comma, .rbrace] | false => [.rbrace]))

/-- The tree; `k` is the number of nodes before. -/
def Node.tree (k : Nat) (n : Node) : Parse.Node :=
  { name := n.name, root := n.root, children := n.children.map Child.tree, attrs := n.attrs.map Attr.tree,
    equations := n.equations.map Equation.tree, lifetimes := n.lifetimes.map Life.tree, index := k }

/-- Lifetimes, or a comma at the end, only behind children or attributes; no comma behind lifetimes. -/
structure Node.Ok (n : Node) : Prop where
  children : ∀ c ∈ n.children, c.Ok
  attrs : ∀ a ∈ n.attrs, a.Ok
  lifetimes : ∀ l ∈ n.lifetimes, l.Ok
  behind : n.lifetimes ≠ [] ∨ n.comma = true → n.children ≠ [] ∨ n.attrs ≠ []
  comma : n.comma = true → n.lifetimes = []

/-- A nodeset, in the long or the short form. -/
inductive NodeSet where
  | long (name : Name) (info : Option CStr) (nodes : SetX) (attrs : List Attr)
  | short (name : Name) (nodes : SetX)

def NodeSet.spell : NodeSet → List T
  | .long n i x as => .nodeset :: .id n :: .lbrace :: (commas (opt (fun s => setting .info (.str s)) i ++
      (.nodes :: .eq :: x.spell) :: blockOpt .attributes (as.map Attr.spell)) ++ [.rbrace])
  | .short n x => .nodeset :: .id n :: .eq :: x.spell

def NodeSet.tree : NodeSet → Parse.NodeSet
  | .long n i x as => ⟨n, x.tree, i, as.map Attr.tree⟩
  | .short n x => ⟨n, x.tree, none, []⟩

def NodeSet.Ok : NodeSet → Prop
  | .long _ _ _ as => ∀ a ∈ as, a.Ok
  | .short _ _ => True

/-- An enumeration. -/
structure Enum where
  name : Name
  info : Option CStr
  pre : Name
  vals : List Name

def Enum.spell (e : Enum) : List T :=
  .enum :: .id e.name :: .lbrace :: (commas (opt (fun s => setting .info (.str s)) e.info ++
    [setting .prefix (.id e.pre), block .values (e.vals.map fun v => [.id v])]) ++ [.rbrace])

def Enum.tree (e : Enum) : Parse.Enum := ⟨e.vals, e.name, e.pre, e.info⟩

/-- There is a value. -/
def Enum.Ok (e : Enum) : Prop := e.vals ≠ []

/-! ## Actions -/

/-- A piece of data of a traversal. -/
structure Datum where
  type : Ty
  name : Name

def Datum.spell (d : Datum) : List T := d.type.spell ++ [.id d.name]

def Datum.tree (d : Datum) : Parse.TravData := ⟨d.name, d.type.at, d.type.ref⟩

/-- A traversal. -/
structure Traversal where
  name : Name
  info : Option CStr
  uid : Name
  nodes : Option SetX
  data : List Datum

def Traversal.spell (t : Traversal) : List T :=
  .traversal :: .id t.name :: .lbrace :: (commas (opt (fun s => setting .info (.str s)) t.info ++
    setting .uid (.id t.uid) :: (opt (fun x : SetX => .nodes :: .eq :: x.spell) t.nodes ++
      blockOpt .travdata (t.data.map Datum.spell))) ++ [.rbrace])

/-- The tree; `k` is the number of traversals before.  The last piece of data comes first; the manual does not speak about the
order. -/
def Traversal.tree (k : Nat) (t : Traversal) : Parse.Traversal :=
  ⟨t.name, t.info, t.uid, t.nodes.map SetX.tree, (t.data.map Datum.tree).reverse, k⟩

/-- Not information and data without nodes (the information is lost). -/
def Traversal.Ok (t : Traversal) : Prop := t.info ≠ none → t.nodes = none → t.data = []

/-- A pass: the form with braces, the name alone, or the name and its function. -/
inductive Pass where
  | long (name : Name) (info : Option CStr) (uid func : Option Name)
  | plain (name : Name)
  | short (name func : Name)

def Pass.spell : Pass → List T
  | .long n i u f => .pass :: .id n :: .lbrace :: (commas (opt (fun s => setting .info (.str s)) i ++
      (opt (fun v => setting .uid (.id v)) u ++ opt (fun v => setting .func (.id v)) f)) ++ [.rbrace])
  | .plain n => [.pass, .id n]
  | .short n f => [.pass, .id n, .eq, .id f]

def Pass.name : Pass → Name
  | .long n _ _ _ => n
  | .plain n => n
  | .short n _ => n

def Pass.tree : Pass → Parse.Pass
  | .long n i u f => ⟨n, i, u, f⟩
  | .plain n => ⟨n, none, none, none⟩
  | .short n f => ⟨n, none, none, some f⟩

/-- In braces there is the uid or the function. -/
def Pass.Ok : Pass → Prop
  | .long _ _ u f => u ≠ none ∨ f ≠ none
  | _ => True

mutual
/-- An action: the name of one, or one that is described here. -/
inductive Action where
  | ref (n : Name)
  | pass (p : Pass)
  | traversal (t : Traversal)
  | phase (p : Phase)
/-- A phase or cycle; the gate is given with its function. -/
inductive Phase where
  | mk (start cycle : Bool) (name : Name) (info : Option CStr) (uid gate : Option Name) (actions : Actions)
/-- The actions of a phase, at least one. -/
inductive Actions where
  | one (a : Action)
  | cons (a : Action) (as : Actions)
end

/-- The word `start`, if it is there. -/
def startWord : Bool → List T
  | true => [.start]
  | false => []

/-- The word for a phase or cycle. -/
def phaseWord : Bool → T
  | true => .cycle
  | false => .phase

/-- Settings, each with a comma. -/
def settings (i : Option CStr) (u g : Option Name) : List T :=
  (opt (fun s => setting .info (.str s)) i ++ (opt (fun v => setting .uid (.id v)) u ++
    opt (fun v => setting .gate (.id v)) g)).flatMap (· ++ [.comma])

mutual
def Action.spell : Action → List T
  | .ref n => [.id n]
  | .pass p => p.spell
  | .traversal t => t.spell
  | .phase p => p.spell
def Phase.spell : Phase → List T
  | .mk s c n i u g as => startWord s ++
      phaseWord c :: .id n :: .lbrace :: (settings i u g ++
        .actions :: .lbrace :: (as.spell ++ [.rbrace, .rbrace]))
/-- A semicolon behind each action. -/
def Actions.spell : Actions → List T
  | .one a => a.spell ++ [.semi]
  | .cons a as => a.spell ++ .semi :: as.spell
end

/-- The name of an action. -/
def Action.name : Action → Name
  | .ref n => n
  | .pass p => p.name
  | .traversal t => t.name
  | .phase (.mk _ _ n _ _ _ _) => n

def Actions.names : Actions → List Name
  | .one a => [a.name]
  | .cons a as => a.name :: as.names

/-- The phase itself. -/
def Phase.tree : Phase → Parse.Phase
  | .mk s c n i u g as => ⟨n, s, c, i, u, g, as.names⟩

mutual
/-- The phases described in an action, a phase behind those inside of it. -/
def Action.phases : Action → List Parse.Phase
  | .phase p => p.phases
  | _ => []
def Phase.phases : Phase → List Parse.Phase
  | .mk s c n i u g as => as.phases ++ [(Phase.mk s c n i u g as).tree]
def Actions.phases : Actions → List Parse.Phase
  | .one a => a.phases
  | .cons a as => a.phases ++ as.phases
end

mutual
/-- The passes described in an action, in the order of the text. -/
def Action.passes : Action → List Pass
  | .pass p => [p]
  | .phase p => p.passes
  | _ => []
def Phase.passes : Phase → List Pass
  | .mk _ _ _ _ _ _ as => as.passes
def Actions.passes : Actions → List Pass
  | .one a => a.passes
  | .cons a as => a.passes ++ as.passes
end

mutual
/-- The traversals described in an action, in the order of the text. -/
def Action.traversals : Action → List Traversal
  | .traversal t => [t]
  | .phase p => p.traversals
  | _ => []
def Phase.traversals : Phase → List Traversal
  | .mk _ _ _ _ _ _ as => as.traversals
def Actions.traversals : Actions → List Traversal
  | .one a => a.traversals
  | .cons a as => a.traversals ++ as.traversals
end

mutual
/-- Its passes and traversals are fine, and so are phases inside. -/
def Action.Ok : Action → Prop
  | .ref _ => True
  | .pass p => p.Ok
  | .traversal t => t.Ok
  | .phase p => p.Ok
/-- A cycle does not have information, uid and gate together. -/
def Phase.Ok : Phase → Prop
  | .mk _ c _ i u g as => (c = true → i = none ∨ u = none ∨ g = none) ∧ as.Ok
def Actions.Ok : Actions → Prop
  | .one a => a.Ok
  | .cons a as => a.Ok ∧ as.Ok
end

/-! ## Files -/

/-- An entry of a file. -/
inductive Entry where
  | phase (p : Phase)
  | pass (p : Pass)
  | traversal (t : Traversal)
  | node (n : Node)
  | nodeset (n : NodeSet)
  | enum (e : Enum)

def Entry.spell : Entry → List T
  | .phase p => p.spell
  | .pass p => p.spell
  | .traversal t => t.spell
  | .node n => n.spell
  | .nodeset n => n.spell
  | .enum e => e.spell

def Entry.Ok : Entry → Prop
  | .phase p => p.Ok
  | .pass p => p.Ok
  | .traversal t => t.Ok
  | .node n => n.Ok
  | .nodeset n => n.Ok
  | .enum e => e.Ok

/-- The file: a semicolon behind each entry. -/
def spell (es : List Entry) : List T := es.flatMap fun e => e.spell ++ [.semi]

def Entry.phases : Entry → List Parse.Phase
  | .phase p => p.phases
  | _ => []

def Entry.passes : Entry → List Pass
  | .phase p => p.passes
  | .pass p => [p]
  | _ => []

def Entry.traversals : Entry → List Traversal
  | .phase p => p.traversals
  | .traversal t => [t]
  | _ => []

def Entry.nodes : Entry → List Node
  | .node n => [n]
  | _ => []

def Entry.nodesets : Entry → List NodeSet
  | .nodeset n => [n]
  | _ => []

def Entry.enums : Entry → List Enum
  | .enum e => [e]
  | _ => []

/-- What the file says: everything that is described in it, the last one first; nodes and traversals have numbers in the order of
the text. -/
def tree (es : List Entry) : Parse.Ast where
  phases := (es.flatMap Entry.phases).reverse
  passes := ((es.flatMap Entry.passes).map Pass.tree).reverse
  traversals := ((es.flatMap Entry.traversals).mapIdx Traversal.tree).reverse
  nodes := ((es.flatMap Entry.nodes).mapIdx Node.tree).reverse
  nodesets := ((es.flatMap Entry.nodesets).map NodeSet.tree).reverse
  enums := ((es.flatMap Entry.enums).map Enum.tree).reverse
  numTraversals := (es.flatMap Entry.traversals).length
  numNodes := (es.flatMap Entry.nodes).length

/-! ## Tokens -/

/-- What is written for a sign or keyword. -/
def ink : T → Option Lex.Tok
  | .lpar => some (.sym 40)
  | .rpar => some (.sym 41)
  | .lbrack => some (.sym 91)
  | .rbrack => some (.sym 93)
  | .lbrace => some (.sym 123)
  | .rbrace => some (.sym 125)
  | .comma => some (.sym 44)
  | .eq => some (.sym 61)
  | .semi => some (.sym 59)
  | .bar => some (.sym 124)
  | .amp => some (.sym 38)
  | .minus => some (.sym 45)
  | .dot => some (.sym 46)
  | .arrow => some (.kw (Lex.bytes "->"))
  | .args => some (.kw (Lex.bytes "args"))
  | .attributes => some (.kw (Lex.bytes "attributes"))
  | .children => some (.kw (Lex.bytes "children"))
  | .constructor => some (.kw (Lex.bytes "constructor"))
  | .cycle => some (.kw (Lex.bytes "cycle"))
  | .enum => some (.kw (Lex.bytes "enum"))
  | .equations => some (.kw (Lex.bytes "equations"))
  | .inherited => some (.kw (Lex.bytes "inherited"))
  | .mandatory => some (.kw (Lex.bytes "mandatory"))
  | .node => some (.kw (Lex.bytes "node"))
  | .nodeset => some (.kw (Lex.bytes "nodeset"))
  | .nodes => some (.kw (Lex.bytes "nodes"))
  | .pass => some (.kw (Lex.bytes "pass"))
  | .phase => some (.kw (Lex.bytes "phase"))
  | .actions => some (.kw (Lex.bytes "actions"))
  | .prefix => some (.kw (Lex.bytes "prefix"))
  | .synthesized => some (.kw (Lex.bytes "synthesized"))
  | .this => some (.kw (Lex.bytes "this"))
  | .traversal => some (.kw (Lex.bytes "traversal"))
  | .travdata => some (.kw (Lex.bytes "travdata"))
  | .values => some (.kw (Lex.bytes "values"))
  | .info => some (.kw (Lex.bytes "info"))
  | .func => some (.kw (Lex.bytes "func"))
  | .root => some (.kw (Lex.bytes "root"))
  | .start => some (.kw (Lex.bytes "start"))
  | .double => some (.kw (Lex.bytes "double"))
  | .float => some (.kw (Lex.bytes "float"))
  | .int => some (.kw (Lex.bytes "int"))
  | .int8 => some (.kw (Lex.bytes "int8"))
  | .int16 => some (.kw (Lex.bytes "int16"))
  | .int32 => some (.kw (Lex.bytes "int32"))
  | .int64 => some (.kw (Lex.bytes "int64"))
  | .uint8 => some (.kw (Lex.bytes "uint8"))
  | .uint16 => some (.kw (Lex.bytes "uint16"))
  | .uint32 => some (.kw (Lex.bytes "uint32"))
  | .uint64 => some (.kw (Lex.bytes "uint64"))
  | .string => some (.kw (Lex.bytes "string"))
  | .bool => some (.kw (Lex.bytes "bool"))
  | .lifetime => some (.kw (Lex.bytes "lifetime"))
  | .disallowed => some (.kw (Lex.bytes "disallowed"))
  | .optional => some (.kw (Lex.bytes "optional"))
  | .allowed => some (.kw (Lex.bytes "allowed"))
  | .gate => some (.kw (Lex.bytes "gate"))
  | .user => some (.kw (Lex.bytes "user"))
  | .uid => some (.kw (Lex.bytes "uid"))
  | .str s => some (.str s)
  | .id _ => none
  | .other => none

/-- The token stands for the sign, the keyword, the string, or the name at its place. -/
def Stands (t : Lex.Token) : T → Prop
  | .id n => t.tok = .id n.orig ∧ n.row = t.line ∧ n.first = t.first ∧ n.last = t.last
  | x => ink x = some t.tok

/-- The tokens stand for the signs, one by one. -/
def Stand : List Lex.Token → List T → Prop
  | [], [] => True
  | t :: ts, x :: xs => Stands t x ∧ Stand ts xs
  | _, _ => False

instance (t : Lex.Token) (x : T) : Decidable (Stands t x) := by
  cases x <;> unfold Stands <;> infer_instance

instance decStand : (ts : List Lex.Token) → (xs : List T) → Decidable (Stand ts xs)
  | [], [] => .isTrue trivial
  | t :: ts, x :: xs => by
    have := decStand ts xs
    unfold Stand
    infer_instance
  | [], _ :: _ => .isFalse (fun h => h)
  | _ :: _, [] => .isFalse (fun h => h)

/-- Brackets of ranges and groups: none is closed that was not opened. -/
def balanced : Nat → List T → Bool
  | _, [] => true
  | k, .lpar :: ts => balanced (k + 1) ts
  | k, .lbrack :: ts => balanced (k + 1) ts
  | 0, .rpar :: _ => false
  | 0, .rbrack :: _ => false
  | k + 1, .rpar :: ts => balanced k ts
  | k + 1, .rbrack :: ts => balanced k ts
  | k, _ :: ts => balanced k ts

end Verif.Spec.Syntax
