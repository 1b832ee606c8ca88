import Verif.Model.Lex

/-!
# Model of the parser

`cocogen/frontend/scanAndParse/dsl-parser.y`.  The automaton that bison generates is not part of the sources; the model takes the
productions of the grammar with their semantic actions, one constructor for each production.  `X ts v r` says that the phrase `X`
stands at the beginning of the tokens `ts`, that `r` is what follows it, and that `v` is its semantic value.  Where the file
declares `%left` the ambiguity is resolved as declared; that the rest of the grammar has one reading only is a theorem
(`Verif.Lemmas.Parse`), not an assumption.  The bound of the bison skeleton on the depth of its stack is left out.

Linked lists of nodes are lists; `NULL` is the empty list or `none`.
-/

namespace Verif.Parse
open Verif.Str (CStr)
open Verif.Lex (Tok Token bytes)

/-- An `id` node (`cocogen/main.ccn:957-970`): the name as written, its row and columns.  The case-folded forms are those of
`Verif.Ids.newId`; the `next` link is in the lists. -/
structure Name where
  orig : CStr
  row : Nat
  first : Nat
  last : Nat
  deriving DecidableEq, Repr

/-- Terminal symbols (`cocogen/frontend/scanAndParse/dsl-parser.y:118-192`).  `id` carries the node that the rule `id` makes,
`other` stands for the tokens that no production uses. -/
inductive T where
  | lpar | rpar | lbrack | rbrack | lbrace | rbrace | comma | eq | semi | bar | amp | minus | dot | arrow
  | args | attributes | children | constructor | cycle | enum | equations | inherited | mandatory | node | nodeset | nodes
  | pass | phase | actions | prefix | synthesized | this | traversal | travdata | values | info | func | root | start
  | double | float | int | int8 | int16 | int32 | int64 | uint8 | uint16 | uint32 | uint64 | string | bool
  | lifetime | disallowed | optional | allowed | gate | user | uid
  | id (n : Name)
  | str (s : CStr)
  | other
  deriving DecidableEq, Repr

/-- The keywords and the terminal symbols they are (`cocogen/frontend/scanAndParse/dsl-lexer.l:110-162`,
`cocogen/frontend/scanAndParse/dsl-parser.y:118-192`); `uint`, `passes`, `phases`, `subphases`, `to`, `true` and `false` are in no
production. -/
def keywordTable : List (CStr × T) :=
  [("args", .args), ("attributes", .attributes), ("children", .children), ("constructor", .constructor), ("cycle", .cycle),
    ("enum", .enum), ("equations", .equations), ("inherited", .inherited), ("mandatory", .mandatory), ("node", .node),
    ("nodeset", .nodeset), ("nodes", .nodes), ("pass", .pass), ("phase", .phase), ("actions", .actions), ("prefix", .prefix),
    ("synthesized", .synthesized), ("this", .this), ("traversal", .traversal), ("travdata", .travdata), ("values", .values),
    ("info", .info), ("func", .func), ("root", .root), ("start", .start), ("double", .double), ("float", .float), ("int", .int),
    ("int8", .int8), ("int16", .int16), ("int32", .int32), ("int64", .int64), ("uint8", .uint8), ("uint16", .uint16),
    ("uint32", .uint32), ("uint64", .uint64), ("string", .string), ("bool", .bool), ("lifetime", .lifetime),
    ("disallowed", .disallowed), ("optional", .optional), ("allowed", .allowed), ("->", .arrow), ("gate", .gate), ("user", .user),
    ("uid", .uid)].map fun (k, t) => (bytes k, t)

/-- The terminal symbols of one character (`cocogen/frontend/scanAndParse/dsl-lexer.l:88-108`); `!` is in no production. -/
def symbolTable : List (UInt8 × T) :=
  [(40, .lpar), (41, .rpar), (91, .lbrack), (93, .rbrack), (123, .lbrace), (125, .rbrace), (44, .comma), (61, .eq), (59, .semi),
    (124, .bar), (38, .amp), (45, .minus), (46, .dot)]

/-- The semantic action of the rule `id` (`cocogen/frontend/scanAndParse/dsl-parser.y:1243-1250`): the text and its place. -/
def nameOf (t : Token) (s : CStr) : Name := { orig := s, row := t.line, first := t.first, last := t.last }

/-- The terminal symbol of a token (`cocogen/frontend/scanAndParse/dsl-parser.y:118-192`). -/
def term (t : Token) : T :=
  match t.tok with
  | .sym c => (symbolTable.lookup c).getD .other
  | .kw k => (keywordTable.lookup k).getD .other
  | .id s => .id (nameOf t s)
  | .str s => .str s
  | .null => .other
  | .float _ => .other
  | .int _ => .other
  | .uint _ => .other

/-- `enum setoperation_type` (`cocogen/main.ccn:793-798`). -/
inductive SO where
  | iunion | intersect | difference
  deriving DecidableEq, Repr

/-- Set expressions (`cocogen/main.ccn:800-831`).  A literal is given by the names that the semantic actions of `setliterals`
insert, in order; the search tree is that of `Verif.Sets.SETIDinsert`. -/
inductive SetE where
  | lit (names : List Name)
  | ref (n : Name)
  | op (o : SO) (l r : SetE)
  deriving DecidableEq, Repr

/-- `enum attribute_type` (`cocogen/main.ccn:786-791`), those the parser uses. -/
inductive AT where
  | user | link_or_enum | int | string | bool | int8 | int16 | int32 | int64 | float | double | uint8 | uint16 | uint32 | uint64
  deriving DecidableEq, Repr

/-- `enum lifetime_type` (`cocogen/main.ccn:723-728`). -/
inductive LT where
  | disallowed | mandatory | optional | allowed
  deriving DecidableEq, Repr

/-- A `lifetime_range` node (`cocogen/main.ccn:742-752`) as the parser leaves it. -/
structure Range where
  inclusive : Bool
  target : List Name
  deriving DecidableEq, Repr

/-- An `ilifetime` node (`cocogen/main.ccn:730-740`). -/
structure Lifetime where
  type : LT
  begin? : Option Range
  end? : Option Range
  deriving DecidableEq, Repr

/-- A `child` node (`cocogen/main.ccn:761-774`) as the parser leaves it. -/
structure Child where
  name : Name
  type : Name
  ctor : Bool
  lifetimes : List Lifetime
  deriving DecidableEq, Repr

/-- An `attribute` node (`cocogen/main.ccn:846-861`) as the parser leaves it. -/
structure Attr where
  name : Name
  type : AT
  ref : Option Name
  ctor : Bool
  inherited : Bool
  synthesized : Bool
  lifetimes : List Lifetime
  deriving DecidableEq, Repr

/-- An `attribute_reference` node (`cocogen/main.ccn:878-889`); `none` is `this`. -/
structure Ref where
  node : Option Name
  attr : Name
  deriving DecidableEq, Repr

/-- An `equation` node (`cocogen/main.ccn:863-869`) with its dependencies. -/
structure Equation where
  rule : Ref
  args : List Ref
  deriving DecidableEq, Repr

/-- An `inode` node (`cocogen/main.ccn:679-695`) as the parser leaves it. -/
structure Node where
  name : Name
  root : Bool
  children : List Child
  attrs : List Attr
  equations : List Equation
  lifetimes : List Lifetime
  index : Nat
  deriving DecidableEq, Repr

/-- An `inodeset` node (`cocogen/main.ccn:697-711`) as the parser leaves it. -/
structure NodeSet where
  name : Name
  expr : SetE
  info : Option CStr
  attrs : List Attr
  deriving DecidableEq, Repr

/-- An `ienum` node (`cocogen/main.ccn:944-955`). -/
structure Enum where
  vals : List Name
  name : Name
  pre : Name
  info : Option CStr
  deriving DecidableEq, Repr

/-- An `itravdata` node (`cocogen/main.ccn:833-844`). -/
structure TravData where
  name : Name
  type : AT
  ref : Option Name
  deriving DecidableEq, Repr

/-- An `itraversal` node (`cocogen/main.ccn:653-665`). -/
structure Traversal where
  name : Name
  info : Option CStr
  uid : Name
  nodes : Option SetE
  data : List TravData
  index : Nat
  deriving DecidableEq, Repr

/-- An `ipass` node (`cocogen/main.ccn:667-677`). -/
structure Pass where
  name : Name
  info : Option CStr
  uid : Option Name
  func : Option Name
  deriving DecidableEq, Repr

/-- An `iphase` node (`cocogen/main.ccn:638-651`) with the references of its actions. -/
structure Phase where
  name : Name
  start : Bool
  cycle : Bool
  info : Option CStr
  uid : Option Name
  gate : Option Name
  actions : List Name
  deriving DecidableEq, Repr

/-- The variables `ast`, `trav_index` and `node_index` (`cocogen/frontend/scanAndParse/dsl-parser.y:23-25`,
`cocogen/main.ccn:606-623`). -/
structure St where
  phases : List Phase
  passes : List Pass
  traversals : List Traversal
  nodes : List Node
  nodesets : List NodeSet
  enums : List Enum
  travIndex : Nat
  nodeIndex : Nat
  deriving DecidableEq, Repr

/-- `info` (`cocogen/frontend/scanAndParse/dsl-parser.y:1215-1220`). -/
inductive Info : List T → CStr → List T → Prop where
  | mk (s : CStr) (r : List T) : Info (.info :: .eq :: .str s :: r) s r

/-- `uid` and `mandatory_uid` (`cocogen/frontend/scanAndParse/dsl-parser.y:1230-1241`). -/
inductive Uid : List T → Name → List T → Prop where
  | mk (n : Name) (r : List T) : Uid (.uid :: .eq :: .id n :: r) n r

/-- `func` (`cocogen/frontend/scanAndParse/dsl-parser.y:1208-1213`). -/
inductive Func : List T → Name → List T → Prop where
  | mk (n : Name) (r : List T) : Func (.func :: .eq :: .id n :: r) n r

/-- `prefix` (`cocogen/frontend/scanAndParse/dsl-parser.y:1222-1227`). -/
inductive Prefix : List T → Name → List T → Prop where
  | mk (n : Name) (r : List T) : Prefix (.prefix :: .eq :: .id n :: r) n r

/-- `gate` (`cocogen/frontend/scanAndParse/dsl-parser.y:360-368`). -/
inductive Gate : List T → Option Name → List T → Prop where
  | empty (r : List T) : Gate r none r
  | mk (n : Name) (r : List T) : Gate (.gate :: .eq :: .id n :: r) (some n) r

/-- `idlist` (`cocogen/frontend/scanAndParse/dsl-parser.y:1196-1205`). -/
inductive IdList : List T → List Name → List T → Prop where
  | cons (n : Name) (ts : List T) (ns : List Name) (r : List T) : IdList ts ns r → IdList (.id n :: .comma :: ts) (n :: ns) r
  | one (n : Name) (r : List T) : IdList (.id n :: r) [n] r

/-- `setliterals` (`cocogen/frontend/scanAndParse/dsl-parser.y:585-595`). -/
inductive SetLiterals : List T → List Name → List T → Prop where
  | snoc (ts : List T) (ns : List Name) (n : Name) (r : List T) :
    SetLiterals ts ns (.comma :: .id n :: r) → SetLiterals ts (ns ++ [n]) r
  | one (n : Name) (r : List T) : SetLiterals (.id n :: r) [n] r

mutual

/-- `setexpr` (`cocogen/frontend/scanAndParse/dsl-parser.y:551-568`): an operation, or one of the other three productions. -/
inductive SetExpr : List T → SetE → List T → Prop where
  | oper (ts : List T) (e : SetE) (r : List T) : SetOperation ts e r → SetExpr ts e r
  | operand (ts : List T) (e : SetE) (r : List T) : SetOperand ts e r → SetExpr ts e r

/-- The productions of `setexpr` other than the first (`cocogen/frontend/scanAndParse/dsl-parser.y:555-568`). -/
inductive SetOperand : List T → SetE → List T → Prop where
  | group (ts : List T) (e : SetE) (r : List T) : SetOperation ts e (.rpar :: r) → SetOperand (.lpar :: ts) e r
  | literal (ts : List T) (ns : List Name) (r : List T) :
    SetLiterals ts ns (.rbrace :: r) → SetOperand (.lbrace :: ts) (.lit ns) r
  | ref (n : Name) (r : List T) : SetOperand (.id n :: r) (.ref n) r

/-- `setoperation` (`cocogen/frontend/scanAndParse/dsl-parser.y:570-582`).  The declaration `%left '&' '-' '|'`
(`cocogen/frontend/scanAndParse/dsl-parser.y:201`) makes bison reduce before it shifts another operator, so the right side is not
itself an operation. -/
inductive SetOperation : List T → SetE → List T → Prop where
  | union (ts : List T) (a : SetE) (us : List T) (b : SetE) (r : List T) :
    SetExpr ts a (.bar :: us) → SetOperand us b r → SetOperation ts (.op .iunion a b) r
  | intersect (ts : List T) (a : SetE) (us : List T) (b : SetE) (r : List T) :
    SetExpr ts a (.amp :: us) → SetOperand us b r → SetOperation ts (.op .intersect a b) r
  | difference (ts : List T) (a : SetE) (us : List T) (b : SetE) (r : List T) :
    SetExpr ts a (.minus :: us) → SetOperand us b r → SetOperation ts (.op .difference a b) r

end

/-- `range_spec` (`cocogen/frontend/scanAndParse/dsl-parser.y:1093-1103`). -/
inductive RangeSpec : List T → List Name → List T → Prop where
  | cons (n : Name) (ts : List T) (ns : List Name) (r : List T) : RangeSpec ts ns r → RangeSpec (.id n :: .dot :: ts) (n :: ns) r
  | one (n : Name) (r : List T) : RangeSpec (.id n :: r) [n] r

/-- `lifetime_range` (`cocogen/frontend/scanAndParse/dsl-parser.y:1056-1091`). -/
inductive LifetimeRange : List T → Option Range → List T → Prop where
  | empty (r : List T) : LifetimeRange r none r
  | lpar (r : List T) : LifetimeRange (.lpar :: r) none r
  | rpar (r : List T) : LifetimeRange (.rpar :: r) none r
  | after (ts : List T) (ns : List Name) (r : List T) : RangeSpec ts ns r → LifetimeRange (.lpar :: ts) (some ⟨false, ns⟩) r
  | before (ts : List T) (ns : List Name) (r : List T) : RangeSpec ts ns (.rpar :: r) → LifetimeRange ts (some ⟨false, ns⟩) r
  | upTo (ts : List T) (ns : List Name) (r : List T) : RangeSpec ts ns (.rbrack :: r) → LifetimeRange ts (some ⟨true, ns⟩) r
  | since (ts : List T) (ns : List Name) (r : List T) : RangeSpec ts ns r → LifetimeRange (.lbrack :: ts) (some ⟨true, ns⟩) r

/-- `lifetime` (`cocogen/frontend/scanAndParse/dsl-parser.y:1016-1054`). -/
inductive LifetimeP : List T → Lifetime → List T → Prop where
  | disallowed (r : List T) : LifetimeP (.disallowed :: r) ⟨.disallowed, none, none⟩ r
  | disallowedIn (ts us : List T) (b e : Option Range) (r : List T) :
    LifetimeRange ts b (.arrow :: us) → LifetimeRange us e r → LifetimeP (.disallowed :: ts) ⟨.disallowed, b, e⟩ r
  | allowedIn (ts us : List T) (b e : Option Range) (r : List T) :
    LifetimeRange ts b (.arrow :: us) → LifetimeRange us e r → LifetimeP (.allowed :: ts) ⟨.allowed, b, e⟩ r
  | mandatory (r : List T) : LifetimeP (.mandatory :: r) ⟨.mandatory, none, none⟩ r
  | mandatoryIn (ts us : List T) (b e : Option Range) (r : List T) :
    LifetimeRange ts b (.arrow :: us) → LifetimeRange us e r → LifetimeP (.mandatory :: ts) ⟨.mandatory, b, e⟩ r
  | optionalIn (ts us : List T) (b e : Option Range) (r : List T) :
    LifetimeRange ts b (.arrow :: us) → LifetimeRange us e r → LifetimeP (.optional :: ts) ⟨.optional, b, e⟩ r

/-- `lifetimes` and `childlifetimes` (`cocogen/frontend/scanAndParse/dsl-parser.y:989-993,1005-1014`). -/
inductive Lifetimes : List T → List Lifetime → List T → Prop where
  | cons (ts : List T) (l : Lifetime) (us : List T) (ls : List Lifetime) (r : List T) :
    LifetimeP ts l (.comma :: us) → Lifetimes us ls r → Lifetimes ts (l :: ls) r
  | one (ts : List T) (l : Lifetime) (r : List T) : LifetimeP ts l r → Lifetimes ts [l] r

/-- `nodelifetimes` (`cocogen/frontend/scanAndParse/dsl-parser.y:995-1003`). -/
inductive NodeLifetimes : List T → List Lifetime → List T → Prop where
  | empty (r : List T) : NodeLifetimes r [] r
  | mk (ts : List T) (ls : List Lifetime) (r : List T) :
    Lifetimes ts ls (.rbrace :: r) → NodeLifetimes (.lifetime :: .lbrace :: ts) ls r

/-- `child` with `is_constructor` (`cocogen/frontend/scanAndParse/dsl-parser.y:933-938,957-987`). -/
inductive ChildP : List T → Child → List T → Prop where
  | plain (ty n : Name) (r : List T) : ChildP (.id ty :: .id n :: r) ⟨n, ty, false, []⟩ r
  | braces (ty n : Name) (r : List T) : ChildP (.id ty :: .id n :: .lbrace :: .rbrace :: r) ⟨n, ty, false, []⟩ r
  | ctor (ty n : Name) (r : List T) : ChildP (.id ty :: .id n :: .lbrace :: .constructor :: .rbrace :: r) ⟨n, ty, true, []⟩ r
  | life (ty n : Name) (ts : List T) (ls : List Lifetime) (r : List T) :
    Lifetimes ts ls (.rbrace :: r) → ChildP (.id ty :: .id n :: .lbrace :: ts) ⟨n, ty, false, ls⟩ r
  | both (ty n : Name) (ts : List T) (ls : List Lifetime) (r : List T) :
    Lifetimes ts ls (.rbrace :: r) → ChildP (.id ty :: .id n :: .lbrace :: .constructor :: .comma :: ts) ⟨n, ty, true, ls⟩ r

/-- `children` (`cocogen/frontend/scanAndParse/dsl-parser.y:946-955`). -/
inductive Children : List T → List Child → List T → Prop where
  | cons (ts : List T) (c : Child) (us : List T) (cs : List Child) (r : List T) :
    ChildP ts c (.comma :: us) → Children us cs r → Children ts (c :: cs) r
  | one (ts : List T) (c : Child) (r : List T) : ChildP ts c r → Children ts [c] r

/-- `childrenbody` (`cocogen/frontend/scanAndParse/dsl-parser.y:940-944`). -/
inductive ChildrenBody : List T → List Child → List T → Prop where
  | mk (ts : List T) (cs : List Child) (r : List T) :
    Children ts cs (.rbrace :: r) → ChildrenBody (.children :: .lbrace :: ts) cs r

/-- `attribute_primitive_type` (`cocogen/frontend/scanAndParse/dsl-parser.y:828-854`). -/
inductive Primitive : T → AT → Prop where
  | bool : Primitive .bool .bool
  | string : Primitive .string .string
  | int : Primitive .int .int
  | float : Primitive .float .float
  | double : Primitive .double .double
  | uint8 : Primitive .uint8 .uint8
  | uint16 : Primitive .uint16 .uint16
  | uint32 : Primitive .uint32 .uint32
  | uint64 : Primitive .uint64 .uint64
  | int8 : Primitive .int8 .int8
  | int16 : Primitive .int16 .int16
  | int32 : Primitive .int32 .int32
  | int64 : Primitive .int64 .int64

/-- `struct bison_attribute_options_temp` (`cocogen/frontend/scanAndParse/dsl-parser.y:29-40`); the pointer `lifetime` is set only
with the tag `BISON_BAO_lifetime`. -/
inductive Opt where
  | constructor | inherited | synthesized
  | lifetime (l : Lifetime)
  deriving DecidableEq, Repr

/-- `struct bison_attribute_options` (`cocogen/frontend/scanAndParse/dsl-parser.y:42-47`). -/
structure Opts where
  lifetime : List Lifetime
  constructor : Bool
  inherited : Bool
  synthesized : Bool
  deriving DecidableEq, Repr

/-- The loop of `parse_attribute_options` (`cocogen/frontend/scanAndParse/dsl-parser.y:58-77`); `ILIFETIME_NEXT` of a lifetime is
`NULL` when it is linked (line 765). -/
def optionsLoop (data : Opts) : List Opt → Opts
  | [] => data
  | .constructor :: os => optionsLoop { data with constructor := true } os
  | .inherited :: os => optionsLoop { data with inherited := true } os
  | .synthesized :: os => optionsLoop { data with synthesized := true } os
  | .lifetime l :: os => optionsLoop { data with lifetime := data.lifetime ++ [l] } os

/-- `parse_attribute_options` (`cocogen/frontend/scanAndParse/dsl-parser.y:49-81`). -/
def parse_attribute_options (os : List Opt) : Opts := optionsLoop ⟨[], false, false, false⟩ os

/-- `attribute_optional_keyword` (`cocogen/frontend/scanAndParse/dsl-parser.y:744-766`). -/
inductive Keyword : List T → Opt → List T → Prop where
  | constructor (r : List T) : Keyword (.constructor :: r) .constructor r
  | inherited (r : List T) : Keyword (.inherited :: r) .inherited r
  | synthesized (r : List T) : Keyword (.synthesized :: r) .synthesized r
  | lifetime (ts : List T) (l : Lifetime) (r : List T) : LifetimeP ts l r → Keyword ts (.lifetime l) r

/-- `attribute_optional_keywords` (`cocogen/frontend/scanAndParse/dsl-parser.y:727-742`). -/
inductive Keywords : List T → List Opt → List T → Prop where
  | empty (r : List T) : Keywords r [] r
  | one (ts : List T) (o : Opt) (r : List T) : Keyword ts o r → Keywords ts [o] r
  | cons (ts : List T) (o : Opt) (us : List T) (os : List Opt) (r : List T) :
    Keyword ts o (.comma :: us) → Keywords us os r → Keywords ts (o :: os) r

/-- The node that the three productions of `attribute` with options make
(`cocogen/frontend/scanAndParse/dsl-parser.y:769-779,787-798,807-818`). -/
def mkAttr (n : Name) (ty : AT) (ref : Option Name) (os : Opts) : Attr :=
  { name := n, type := ty, ref := ref, ctor := os.constructor, inherited := os.inherited, synthesized := os.synthesized,
    lifetimes := os.lifetime }

/-- `attribute` (`cocogen/frontend/scanAndParse/dsl-parser.y:768-826`). -/
inductive AttrP : List T → Attr → List T → Prop where
  | primOpts (t : T) (ty : AT) (n : Name) (ts : List T) (os : List Opt) (r : List T) :
    Primitive t ty → Keywords ts os (.rbrace :: r) →
    AttrP (t :: .id n :: .lbrace :: ts) (mkAttr n ty none (parse_attribute_options os)) r
  | prim (t : T) (ty : AT) (n : Name) (r : List T) :
    Primitive t ty → AttrP (t :: .id n :: r) ⟨n, ty, none, false, false, false, []⟩ r
  | linkOpts (ty n : Name) (ts : List T) (os : List Opt) (r : List T) : Keywords ts os (.rbrace :: r) →
    AttrP (.id ty :: .id n :: .lbrace :: ts) (mkAttr n .link_or_enum (some ty) (parse_attribute_options os)) r
  | link (ty n : Name) (r : List T) : AttrP (.id ty :: .id n :: r) ⟨n, .link_or_enum, some ty, false, false, false, []⟩ r
  | userOpts (ty n : Name) (ts : List T) (os : List Opt) (r : List T) : Keywords ts os (.rbrace :: r) →
    AttrP (.user :: .id ty :: .id n :: .lbrace :: ts) (mkAttr n .user (some ty) (parse_attribute_options os)) r
  | user (ty n : Name) (r : List T) : AttrP (.user :: .id ty :: .id n :: r) ⟨n, .user, some ty, false, false, false, []⟩ r

/-- `attributes` (`cocogen/frontend/scanAndParse/dsl-parser.y:716-725`). -/
inductive Attributes : List T → List Attr → List T → Prop where
  | cons (ts : List T) (a : Attr) (us : List T) (as : List Attr) (r : List T) :
    AttrP ts a (.comma :: us) → Attributes us as r → Attributes ts (a :: as) r
  | one (ts : List T) (a : Attr) (r : List T) : AttrP ts a r → Attributes ts [a] r

/-- `attributebody` (`cocogen/frontend/scanAndParse/dsl-parser.y:710-714`). -/
inductive AttributeBody : List T → List Attr → List T → Prop where
  | mk (ts : List T) (as : List Attr) (r : List T) :
    Attributes ts as (.rbrace :: r) → AttributeBody (.attributes :: .lbrace :: ts) as r

/-- `attribute_reference` (`cocogen/frontend/scanAndParse/dsl-parser.y:919-931`). -/
inductive RefP : List T → Ref → List T → Prop where
  | child (n a : Name) (r : List T) : RefP (.id n :: .dot :: .id a :: r) ⟨some n, a⟩ r
  | this (a : Name) (r : List T) : RefP (.this :: .dot :: .id a :: r) ⟨none, a⟩ r

/-- `equationdependencies` and `equationdependency` (`cocogen/frontend/scanAndParse/dsl-parser.y:901-917`). -/
inductive Dependencies : List T → List Ref → List T → Prop where
  | cons (ts : List T) (d : Ref) (us : List T) (ds : List Ref) (r : List T) :
    RefP ts d (.comma :: us) → Dependencies us ds r → Dependencies ts (d :: ds) r
  | one (ts : List T) (d : Ref) (r : List T) : RefP ts d r → Dependencies ts [d] r

/-- `equationdependencybody` (`cocogen/frontend/scanAndParse/dsl-parser.y:891-899`). -/
inductive DependencyBody : List T → List Ref → List T → Prop where
  | mk (ts : List T) (ds : List Ref) (r : List T) :
    Dependencies ts ds (.rbrace :: r) → DependencyBody (.args :: .eq :: .lbrace :: ts) ds r
  | empty (r : List T) : DependencyBody (.args :: .eq :: .lbrace :: .rbrace :: r) [] r

/-- `equationprodblock` (`cocogen/frontend/scanAndParse/dsl-parser.y:881-889`). -/
inductive ProdBlock : List T → List Ref → List T → Prop where
  | mk (ts : List T) (ds : List Ref) (r : List T) : DependencyBody ts ds (.rbrace :: r) → ProdBlock (.lbrace :: ts) ds r
  | empty (r : List T) : ProdBlock (.lbrace :: .rbrace :: r) [] r

/-- `equation` (`cocogen/frontend/scanAndParse/dsl-parser.y:873-879`). -/
inductive EquationP : List T → Equation → List T → Prop where
  | mk (ts : List T) (a : Ref) (us : List T) (ds : List Ref) (r : List T) :
    RefP ts a (.eq :: us) → ProdBlock us ds r → EquationP ts ⟨a, ds⟩ r

/-- `equations` (`cocogen/frontend/scanAndParse/dsl-parser.y:862-871`). -/
inductive Equations : List T → List Equation → List T → Prop where
  | cons (ts : List T) (e : Equation) (us : List T) (es : List Equation) (r : List T) :
    EquationP ts e (.comma :: us) → Equations us es r → Equations ts (e :: es) r
  | one (ts : List T) (e : Equation) (r : List T) : EquationP ts e r → Equations ts [e] r

/-- `equationbody` (`cocogen/frontend/scanAndParse/dsl-parser.y:856-860`). -/
inductive EquationBody : List T → List Equation → List T → Prop where
  | mk (ts : List T) (es : List Equation) (r : List T) :
    Equations ts es (.rbrace :: r) → EquationBody (.equations :: .lbrace :: ts) es r

/-- `is_root` (`cocogen/frontend/scanAndParse/dsl-parser.y:699-708`). -/
inductive IsRoot : List T → Bool → List T → Prop where
  | root (r : List T) : IsRoot (.root :: r) true r
  | empty (r : List T) : IsRoot r false r

/-- The part of `node` before the `{` (`cocogen/frontend/scanAndParse/dsl-parser.y:598-697`, the same in all productions). -/
inductive NodeHead : List T → Bool → Name → List T → Prop where
  | mk (ts : List T) (b : Bool) (n : Name) (r : List T) : IsRoot ts b (.node :: .id n :: .lbrace :: r) → NodeHead ts b n r

/-- `node` (`cocogen/frontend/scanAndParse/dsl-parser.y:598-697`), the productions in the order of the file.  `INODE_INDEX` is set
by `entry`. -/
inductive NodeP : List T → Node → List T → Prop where
  | cael (ts t1 t2 t3 t4 r : List T) (b : Bool) (n : Name) (cs : List Child) (as : List Attr) (es : List Equation)
    (ls : List Lifetime) : NodeHead ts b n t1 → ChildrenBody t1 cs (.comma :: t2) → AttributeBody t2 as (.comma :: t3) →
    EquationBody t3 es (.comma :: t4) → NodeLifetimes t4 ls (.rbrace :: r) → NodeP ts ⟨n, b, cs, as, es, ls, 0⟩ r
  | cal (ts t1 t2 t3 r : List T) (b : Bool) (n : Name) (cs : List Child) (as : List Attr) (ls : List Lifetime) :
    NodeHead ts b n t1 → ChildrenBody t1 cs (.comma :: t2) → AttributeBody t2 as (.comma :: t3) →
    NodeLifetimes t3 ls (.rbrace :: r) → NodeP ts ⟨n, b, cs, as, [], ls, 0⟩ r
  | ael (ts t1 t2 t3 r : List T) (b : Bool) (n : Name) (as : List Attr) (es : List Equation) (ls : List Lifetime) :
    NodeHead ts b n t1 → AttributeBody t1 as (.comma :: t2) → EquationBody t2 es (.comma :: t3) →
    NodeLifetimes t3 ls (.rbrace :: r) → NodeP ts ⟨n, b, [], as, es, ls, 0⟩ r
  | al (ts t1 t2 r : List T) (b : Bool) (n : Name) (as : List Attr) (ls : List Lifetime) :
    NodeHead ts b n t1 → AttributeBody t1 as (.comma :: t2) → NodeLifetimes t2 ls (.rbrace :: r) →
    NodeP ts ⟨n, b, [], as, [], ls, 0⟩ r
  | cel (ts t1 t2 t3 r : List T) (b : Bool) (n : Name) (cs : List Child) (es : List Equation) (ls : List Lifetime) :
    NodeHead ts b n t1 → ChildrenBody t1 cs (.comma :: t2) → EquationBody t2 es (.comma :: t3) →
    NodeLifetimes t3 ls (.rbrace :: r) → NodeP ts ⟨n, b, cs, [], es, ls, 0⟩ r
  | cl (ts t1 t2 r : List T) (b : Bool) (n : Name) (cs : List Child) (ls : List Lifetime) :
    NodeHead ts b n t1 → ChildrenBody t1 cs (.comma :: t2) → NodeLifetimes t2 ls (.rbrace :: r) →
    NodeP ts ⟨n, b, cs, [], [], ls, 0⟩ r
  | ae (ts t1 t2 r : List T) (b : Bool) (n : Name) (as : List Attr) (es : List Equation) :
    NodeHead ts b n t1 → AttributeBody t1 as (.comma :: t2) → EquationBody t2 es (.rbrace :: r) →
    NodeP ts ⟨n, b, [], as, es, [], 0⟩ r
  | a (ts t1 r : List T) (b : Bool) (n : Name) (as : List Attr) :
    NodeHead ts b n t1 → AttributeBody t1 as (.rbrace :: r) → NodeP ts ⟨n, b, [], as, [], [], 0⟩ r
  | ce (ts t1 t2 r : List T) (b : Bool) (n : Name) (cs : List Child) (es : List Equation) :
    NodeHead ts b n t1 → ChildrenBody t1 cs (.comma :: t2) → EquationBody t2 es (.rbrace :: r) →
    NodeP ts ⟨n, b, cs, [], es, [], 0⟩ r
  | c (ts t1 r : List T) (b : Bool) (n : Name) (cs : List Child) :
    NodeHead ts b n t1 → ChildrenBody t1 cs (.rbrace :: r) → NodeP ts ⟨n, b, cs, [], [], [], 0⟩ r
  | cae (ts t1 t2 t3 r : List T) (b : Bool) (n : Name) (cs : List Child) (as : List Attr) (es : List Equation) :
    NodeHead ts b n t1 → ChildrenBody t1 cs (.comma :: t2) → AttributeBody t2 as (.comma :: t3) →
    EquationBody t3 es (.rbrace :: r) → NodeP ts ⟨n, b, cs, as, es, [], 0⟩ r
  | ca (ts t1 t2 r : List T) (b : Bool) (n : Name) (cs : List Child) (as : List Attr) :
    NodeHead ts b n t1 → ChildrenBody t1 cs (.comma :: t2) → AttributeBody t2 as (.rbrace :: r) →
    NodeP ts ⟨n, b, cs, as, [], [], 0⟩ r
  | e (ts t1 r : List T) (b : Bool) (n : Name) (es : List Equation) :
    NodeHead ts b n t1 → EquationBody t1 es (.rbrace :: r) → NodeP ts ⟨n, b, [], [], es, [], 0⟩ r
  | none (ts r : List T) (b : Bool) (n : Name) : NodeHead ts b n (.rbrace :: r) → NodeP ts ⟨n, b, [], [], [], [], 0⟩ r

/-- `nodeset` (`cocogen/frontend/scanAndParse/dsl-parser.y:1105-1139`). -/
inductive NodeSetP : List T → NodeSet → List T → Prop where
  | ia (n : Name) (ts t1 t2 r : List T) (i : CStr) (e : SetE) (as : List Attr) :
    Info ts i (.comma :: .nodes :: .eq :: t1) → SetExpr t1 e (.comma :: t2) → AttributeBody t2 as (.rbrace :: r) →
    NodeSetP (.nodeset :: .id n :: .lbrace :: ts) ⟨n, e, some i, as⟩ r
  | i (n : Name) (ts t1 r : List T) (i : CStr) (e : SetE) :
    Info ts i (.comma :: .nodes :: .eq :: t1) → SetExpr t1 e (.rbrace :: r) →
    NodeSetP (.nodeset :: .id n :: .lbrace :: ts) ⟨n, e, some i, []⟩ r
  | a (n : Name) (t1 t2 r : List T) (e : SetE) (as : List Attr) :
    SetExpr t1 e (.comma :: t2) → AttributeBody t2 as (.rbrace :: r) →
    NodeSetP (.nodeset :: .id n :: .lbrace :: .nodes :: .eq :: t1) ⟨n, e, none, as⟩ r
  | plain (n : Name) (t1 r : List T) (e : SetE) :
    SetExpr t1 e (.rbrace :: r) → NodeSetP (.nodeset :: .id n :: .lbrace :: .nodes :: .eq :: t1) ⟨n, e, none, []⟩ r
  | short (n : Name) (t1 r : List T) (e : SetE) : SetExpr t1 e r → NodeSetP (.nodeset :: .id n :: .eq :: t1) ⟨n, e, none, []⟩ r

/-- `enumvalues` (`cocogen/frontend/scanAndParse/dsl-parser.y:1152-1156`). -/
inductive EnumValues : List T → List Name → List T → Prop where
  | mk (ts : List T) (ns : List Name) (r : List T) : IdList ts ns (.rbrace :: r) → EnumValues (.values :: .lbrace :: ts) ns r

/-- `enum` (`cocogen/frontend/scanAndParse/dsl-parser.y:1141-1150`). -/
inductive EnumP : List T → Enum → List T → Prop where
  | info (n : Name) (ts t1 t2 r : List T) (i : CStr) (p : Name) (vs : List Name) :
    Info ts i (.comma :: t1) → Prefix t1 p (.comma :: t2) → EnumValues t2 vs (.rbrace :: r) →
    EnumP (.enum :: .id n :: .lbrace :: ts) ⟨vs, n, p, some i⟩ r
  | plain (n : Name) (t1 t2 r : List T) (p : Name) (vs : List Name) :
    Prefix t1 p (.comma :: t2) → EnumValues t2 vs (.rbrace :: r) → EnumP (.enum :: .id n :: .lbrace :: t1) ⟨vs, n, p, none⟩ r

/-- `travdataitem` (`cocogen/frontend/scanAndParse/dsl-parser.y:1176-1193`). -/
inductive TravDataItem : List T → TravData → List T → Prop where
  | prim (t : T) (ty : AT) (n : Name) (r : List T) : Primitive t ty → TravDataItem (t :: .id n :: r) ⟨n, ty, none⟩ r
  | link (ty n : Name) (r : List T) : TravDataItem (.id ty :: .id n :: r) ⟨n, .link_or_enum, some ty⟩ r
  | user (ty n : Name) (r : List T) : TravDataItem (.user :: .id ty :: .id n :: r) ⟨n, .user, some ty⟩ r

/-- `travdatalist` (`cocogen/frontend/scanAndParse/dsl-parser.y:1165-1174`): the new item is linked before the others. -/
inductive TravDataList : List T → List TravData → List T → Prop where
  | snoc (ts us : List T) (ds : List TravData) (d : TravData) (r : List T) :
    TravDataList ts ds (.comma :: us) → TravDataItem us d r → TravDataList ts (d :: ds) r
  | one (ts : List T) (d : TravData) (r : List T) : TravDataItem ts d r → TravDataList ts [d] r

/-- `travdata` (`cocogen/frontend/scanAndParse/dsl-parser.y:1159-1163`). -/
inductive TravDataP : List T → List TravData → List T → Prop where
  | mk (ts : List T) (ds : List TravData) (r : List T) :
    TravDataList ts ds (.rbrace :: r) → TravDataP (.travdata :: .lbrace :: ts) ds r

/-- `traversalnodes` (`cocogen/frontend/scanAndParse/dsl-parser.y:545-549`). -/
inductive TraversalNodes : List T → SetE → List T → Prop where
  | mk (ts : List T) (e : SetE) (r : List T) : SetExpr ts e r → TraversalNodes (.nodes :: .eq :: ts) e r

/-- `traversal` (`cocogen/frontend/scanAndParse/dsl-parser.y:436-496`), the productions in the order of the file, with the value of
`trav_index` before; afterwards it is one more.  The third production does not store the information. -/
inductive TraversalP (k : Nat) : List T → Traversal → List T → Prop where
  | iund (n : Name) (ts t1 t2 t3 r : List T) (i : CStr) (u : Name) (e : SetE) (ds : List TravData) :
    Info ts i (.comma :: t1) → Uid t1 u (.comma :: t2) → TraversalNodes t2 e (.comma :: t3) → TravDataP t3 ds (.rbrace :: r) →
    TraversalP k (.traversal :: .id n :: .lbrace :: ts) ⟨n, some i, u, some e, ds, k⟩ r
  | und (n : Name) (t1 t2 t3 r : List T) (u : Name) (e : SetE) (ds : List TravData) :
    Uid t1 u (.comma :: t2) → TraversalNodes t2 e (.comma :: t3) → TravDataP t3 ds (.rbrace :: r) →
    TraversalP k (.traversal :: .id n :: .lbrace :: t1) ⟨n, none, u, some e, ds, k⟩ r
  | iud (n : Name) (ts t1 t2 r : List T) (i : CStr) (u : Name) (ds : List TravData) :
    Info ts i (.comma :: t1) → Uid t1 u (.comma :: t2) → TravDataP t2 ds (.rbrace :: r) →
    TraversalP k (.traversal :: .id n :: .lbrace :: ts) ⟨n, none, u, none, ds, k⟩ r
  | iun (n : Name) (ts t1 t2 r : List T) (i : CStr) (u : Name) (e : SetE) :
    Info ts i (.comma :: t1) → Uid t1 u (.comma :: t2) → TraversalNodes t2 e (.rbrace :: r) →
    TraversalP k (.traversal :: .id n :: .lbrace :: ts) ⟨n, some i, u, some e, [], k⟩ r
  | iu (n : Name) (ts t1 r : List T) (i : CStr) (u : Name) :
    Info ts i (.comma :: t1) → Uid t1 u (.rbrace :: r) →
    TraversalP k (.traversal :: .id n :: .lbrace :: ts) ⟨n, some i, u, none, [], k⟩ r
  | ud (n : Name) (t1 t2 r : List T) (u : Name) (ds : List TravData) :
    Uid t1 u (.comma :: t2) → TravDataP t2 ds (.rbrace :: r) →
    TraversalP k (.traversal :: .id n :: .lbrace :: t1) ⟨n, none, u, none, ds, k⟩ r
  | un (n : Name) (t1 t2 r : List T) (u : Name) (e : SetE) :
    Uid t1 u (.comma :: t2) → TraversalNodes t2 e (.rbrace :: r) →
    TraversalP k (.traversal :: .id n :: .lbrace :: t1) ⟨n, none, u, some e, [], k⟩ r
  | u (n : Name) (t1 r : List T) (u : Name) :
    Uid t1 u (.rbrace :: r) → TraversalP k (.traversal :: .id n :: .lbrace :: t1) ⟨n, none, u, none, [], k⟩ r

/-- `pass` (`cocogen/frontend/scanAndParse/dsl-parser.y:393-434`), the productions in the order of the file. -/
inductive PassP : List T → Pass → List T → Prop where
  | iuf (n : Name) (ts t1 t2 r : List T) (i : CStr) (u f : Name) :
    Info ts i (.comma :: t1) → Uid t1 u (.comma :: t2) → Func t2 f (.rbrace :: r) →
    PassP (.pass :: .id n :: .lbrace :: ts) ⟨n, some i, some u, some f⟩ r
  | uf (n : Name) (t1 t2 r : List T) (u f : Name) :
    Uid t1 u (.comma :: t2) → Func t2 f (.rbrace :: r) → PassP (.pass :: .id n :: .lbrace :: t1) ⟨n, none, some u, some f⟩ r
  | u (n : Name) (t1 r : List T) (u : Name) :
    Uid t1 u (.rbrace :: r) → PassP (.pass :: .id n :: .lbrace :: t1) ⟨n, none, some u, none⟩ r
  | f (n : Name) (t1 r : List T) (f : Name) :
    Func t1 f (.rbrace :: r) → PassP (.pass :: .id n :: .lbrace :: t1) ⟨n, none, none, some f⟩ r
  | fi (n : Name) (ts t1 r : List T) (i : CStr) (f : Name) :
    Info ts i (.comma :: t1) → Func t1 f (.rbrace :: r) → PassP (.pass :: .id n :: .lbrace :: ts) ⟨n, some i, none, some f⟩ r
  | iu (n : Name) (ts t1 r : List T) (i : CStr) (u : Name) :
    Info ts i (.comma :: t1) → Uid t1 u (.rbrace :: r) → PassP (.pass :: .id n :: .lbrace :: ts) ⟨n, some i, some u, none⟩ r
  | plain (n : Name) (r : List T) : PassP (.pass :: .id n :: r) ⟨n, none, none, none⟩ r
  | short (n f : Name) (r : List T) : PassP (.pass :: .id n :: .eq :: .id f :: r) ⟨n, none, none, some f⟩ r

/-- `is_start` (`cocogen/frontend/scanAndParse/dsl-parser.y:383-391`). -/
inductive IsStart : List T → Bool → List T → Prop where
  | empty (r : List T) : IsStart r false r
  | start (r : List T) : IsStart (.start :: r) true r

/-- `phaseheader` (`cocogen/frontend/scanAndParse/dsl-parser.y:370-374`) and the `{` behind it. -/
inductive PhaseHeader : List T → Bool → Name → List T → Prop where
  | mk (ts : List T) (b : Bool) (n : Name) (r : List T) : IsStart ts b (.phase :: .id n :: .lbrace :: r) → PhaseHeader ts b n r

/-- `cycleheader` (`cocogen/frontend/scanAndParse/dsl-parser.y:376-381`) and the `{` behind it. -/
inductive CycleHeader : List T → Bool → Name → List T → Prop where
  | mk (ts : List T) (b : Bool) (n : Name) (r : List T) : IsStart ts b (.cycle :: .id n :: .lbrace :: r) → CycleHeader ts b n r

/-- Linking a phase into the tree (`cocogen/frontend/scanAndParse/dsl-parser.y:216-217,534-535`). -/
def St.addPhase (s : St) (p : Phase) : St := { s with phases := p :: s.phases }

/-- Linking a pass into the tree (`cocogen/frontend/scanAndParse/dsl-parser.y:222-223,528-529`). -/
def St.addPass (s : St) (p : Pass) : St := { s with passes := p :: s.passes }

/-- Linking a traversal into the tree (`cocogen/frontend/scanAndParse/dsl-parser.y:228-229,521-522`); `trav_index` was counted up
when the traversal was made. -/
def St.addTraversal (s : St) (t : Traversal) : St := { s with traversals := t :: s.traversals, travIndex := s.travIndex + 1 }

/-- Linking a node into the tree (`cocogen/frontend/scanAndParse/dsl-parser.y:234-236`). -/
def St.addNode (s : St) (n : Node) : St :=
  { s with nodes := { n with index := s.nodeIndex } :: s.nodes, nodeIndex := s.nodeIndex + 1 }

/-- Linking a nodeset into the tree (`cocogen/frontend/scanAndParse/dsl-parser.y:241-242`). -/
def St.addNodeSet (s : St) (n : NodeSet) : St := { s with nodesets := n :: s.nodesets }

/-- Linking an enumeration into the tree (`cocogen/frontend/scanAndParse/dsl-parser.y:247-248`). -/
def St.addEnum (s : St) (e : Enum) : St := { s with enums := e :: s.enums }

mutual

/-- `phase` (`cocogen/frontend/scanAndParse/dsl-parser.y:253-357`), the productions in the order of the file, with the state before
and behind. -/
inductive PhaseP : St → List T → Phase → St → List T → Prop where
  | iug (s s' : St) (ts t1 t2 t3 t4 r : List T) (b : Bool) (n : Name) (i : CStr) (u : Name) (g : Option Name) (as : List Name) :
    PhaseHeader ts b n t1 → Info t1 i (.comma :: t2) → Uid t2 u (.comma :: t3) → Gate t3 g (.comma :: t4) →
    ActionsBody s t4 as s' (.rbrace :: r) → PhaseP s ts ⟨n, b, false, some i, some u, g, as⟩ s' r
  | ug (s s' : St) (ts t1 t2 t3 r : List T) (b : Bool) (n : Name) (u : Name) (g : Option Name) (as : List Name) :
    PhaseHeader ts b n t1 → Uid t1 u (.comma :: t2) → Gate t2 g (.comma :: t3) → ActionsBody s t3 as s' (.rbrace :: r) →
    PhaseP s ts ⟨n, b, false, none, some u, g, as⟩ s' r
  | ig (s s' : St) (ts t1 t2 t3 r : List T) (b : Bool) (n : Name) (i : CStr) (g : Option Name) (as : List Name) :
    PhaseHeader ts b n t1 → Info t1 i (.comma :: t2) → Gate t2 g (.comma :: t3) → ActionsBody s t3 as s' (.rbrace :: r) →
    PhaseP s ts ⟨n, b, false, some i, none, g, as⟩ s' r
  | g (s s' : St) (ts t1 t2 r : List T) (b : Bool) (n : Name) (g : Option Name) (as : List Name) :
    PhaseHeader ts b n t1 → Gate t1 g (.comma :: t2) → ActionsBody s t2 as s' (.rbrace :: r) →
    PhaseP s ts ⟨n, b, false, none, none, g, as⟩ s' r
  | plain (s s' : St) (ts t1 r : List T) (b : Bool) (n : Name) (as : List Name) :
    PhaseHeader ts b n t1 → ActionsBody s t1 as s' (.rbrace :: r) → PhaseP s ts ⟨n, b, false, none, none, none, as⟩ s' r
  | iu (s s' : St) (ts t1 t2 t3 r : List T) (b : Bool) (n : Name) (i : CStr) (u : Name) (as : List Name) :
    PhaseHeader ts b n t1 → Info t1 i (.comma :: t2) → Uid t2 u (.comma :: t3) → ActionsBody s t3 as s' (.rbrace :: r) →
    PhaseP s ts ⟨n, b, false, some i, some u, none, as⟩ s' r
  | i (s s' : St) (ts t1 t2 r : List T) (b : Bool) (n : Name) (i : CStr) (as : List Name) :
    PhaseHeader ts b n t1 → Info t1 i (.comma :: t2) → ActionsBody s t2 as s' (.rbrace :: r) →
    PhaseP s ts ⟨n, b, false, some i, none, none, as⟩ s' r
  | u (s s' : St) (ts t1 t2 r : List T) (b : Bool) (n : Name) (u : Name) (as : List Name) :
    PhaseHeader ts b n t1 → Uid t1 u (.comma :: t2) → ActionsBody s t2 as s' (.rbrace :: r) →
    PhaseP s ts ⟨n, b, false, none, some u, none, as⟩ s' r
  | cycleIug (s s' : St) (ts t1 t2 t3 t4 r : List T) (b : Bool) (n : Name) (i : CStr) (u : Name) (g : Option Name)
    (as : List Name) : CycleHeader ts b n t1 → Info t1 i t2 → Uid t2 u t3 → Gate t3 g t4 →
    ActionsBody s t4 as s' (.rbrace :: r) → PhaseP s ts ⟨n, b, true, some i, some u, g, as⟩ s' r
  | cycleUg (s s' : St) (ts t1 t2 t3 r : List T) (b : Bool) (n : Name) (u : Name) (g : Option Name) (as : List Name) :
    CycleHeader ts b n t1 → Uid t1 u (.comma :: t2) → Gate t2 g (.comma :: t3) → ActionsBody s t3 as s' (.rbrace :: r) →
    PhaseP s ts ⟨n, b, true, none, some u, g, as⟩ s' r
  | cycleIg (s s' : St) (ts t1 t2 t3 r : List T) (b : Bool) (n : Name) (i : CStr) (g : Option Name) (as : List Name) :
    CycleHeader ts b n t1 → Info t1 i (.comma :: t2) → Gate t2 g (.comma :: t3) → ActionsBody s t3 as s' (.rbrace :: r) →
    PhaseP s ts ⟨n, b, true, some i, none, g, as⟩ s' r
  | cycleG (s s' : St) (ts t1 t2 r : List T) (b : Bool) (n : Name) (g : Option Name) (as : List Name) :
    CycleHeader ts b n t1 → Gate t1 g (.comma :: t2) → ActionsBody s t2 as s' (.rbrace :: r) →
    PhaseP s ts ⟨n, b, true, none, none, g, as⟩ s' r
  | cyclePlain (s s' : St) (ts t1 r : List T) (b : Bool) (n : Name) (as : List Name) :
    CycleHeader ts b n t1 → ActionsBody s t1 as s' (.rbrace :: r) → PhaseP s ts ⟨n, b, true, none, none, none, as⟩ s' r
  | cycleIu (s s' : St) (ts t1 t2 t3 r : List T) (b : Bool) (n : Name) (i : CStr) (u : Name) (as : List Name) :
    CycleHeader ts b n t1 → Info t1 i (.comma :: t2) → Uid t2 u (.comma :: t3) → ActionsBody s t3 as s' (.rbrace :: r) →
    PhaseP s ts ⟨n, b, true, some i, some u, none, as⟩ s' r
  | cycleI (s s' : St) (ts t1 t2 r : List T) (b : Bool) (n : Name) (i : CStr) (as : List Name) :
    CycleHeader ts b n t1 → Info t1 i (.comma :: t2) → ActionsBody s t2 as s' (.rbrace :: r) →
    PhaseP s ts ⟨n, b, true, some i, none, none, as⟩ s' r
  | cycleU (s s' : St) (ts t1 t2 r : List T) (b : Bool) (n : Name) (u : Name) (as : List Name) :
    CycleHeader ts b n t1 → Uid t1 u (.comma :: t2) → ActionsBody s t2 as s' (.rbrace :: r) →
    PhaseP s ts ⟨n, b, true, none, some u, none, as⟩ s' r

/-- `actionsbody` (`cocogen/frontend/scanAndParse/dsl-parser.y:499-503`). -/
inductive ActionsBody : St → List T → List Name → St → List T → Prop where
  | mk (s s' : St) (ts : List T) (as : List Name) (r : List T) :
    Actions s ts as s' (.rbrace :: r) → ActionsBody s (.actions :: .lbrace :: ts) as s' r

/-- `actions` (`cocogen/frontend/scanAndParse/dsl-parser.y:505-514`). -/
inductive Actions : St → List T → List Name → St → List T → Prop where
  | cons (s s1 s' : St) (ts us : List T) (a : Name) (as : List Name) (r : List T) :
    Action s ts a s1 (.semi :: us) → Actions s1 us as s' r → Actions s ts (a :: as) s' r
  | one (s s' : St) (ts : List T) (a : Name) (r : List T) : Action s ts a s' (.semi :: r) → Actions s ts [a] s' r

/-- `action` (`cocogen/frontend/scanAndParse/dsl-parser.y:517-543`); the reference is a copy of the name. -/
inductive Action : St → List T → Name → St → List T → Prop where
  | traversal (s : St) (ts : List T) (t : Traversal) (r : List T) :
    TraversalP s.travIndex ts t r → Action s ts t.name (s.addTraversal t) r
  | pass (s : St) (ts : List T) (p : Pass) (r : List T) : PassP ts p r → Action s ts p.name (s.addPass p) r
  | phase (s s' : St) (ts : List T) (p : Phase) (r : List T) : PhaseP s ts p s' r → Action s ts p.name (s'.addPhase p) r
  | id (s : St) (n : Name) (r : List T) : Action s (.id n :: r) n s r

end

/-- `entry` (`cocogen/frontend/scanAndParse/dsl-parser.y:214-251`). -/
inductive Entry : St → List T → St → List T → Prop where
  | phase (s s' : St) (ts : List T) (p : Phase) (r : List T) : PhaseP s ts p s' r → Entry s ts (s'.addPhase p) r
  | pass (s : St) (ts : List T) (p : Pass) (r : List T) : PassP ts p r → Entry s ts (s.addPass p) r
  | traversal (s : St) (ts : List T) (t : Traversal) (r : List T) :
    TraversalP s.travIndex ts t r → Entry s ts (s.addTraversal t) r
  | node (s : St) (ts : List T) (n : Node) (r : List T) : NodeP ts n r → Entry s ts (s.addNode n) r
  | nodeset (s : St) (ts : List T) (n : NodeSet) (r : List T) : NodeSetP ts n r → Entry s ts (s.addNodeSet n) r
  | enum (s : St) (ts : List T) (e : Enum) (r : List T) : EnumP ts e r → Entry s ts (s.addEnum e) r

/-- `entries` (`cocogen/frontend/scanAndParse/dsl-parser.y:209-212`). -/
inductive Entries : St → List T → St → List T → Prop where
  | cons (s s1 s' : St) (ts us r : List T) : Entry s ts s1 (.semi :: us) → Entries s1 us s' r → Entries s ts s' r
  | one (s s' : St) (ts r : List T) : Entry s ts s' r → Entries s ts s' r
  | empty (s : St) (r : List T) : Entries s r s r

/-- The variables before the parser runs (`cocogen/frontend/scanAndParse/dsl-parser.y:23-25,1267`). -/
def start : St := ⟨[], [], [], [], [], [], 0, 0⟩

/-- `yyparse` (`cocogen/frontend/scanAndParse/dsl-parser.y:205-207`) on the tokens of a file: `root` up to the end of the file, or
`yyerror`, which ends the program (`cocogen/frontend/scanAndParse/dsl-lexer.l:243-247`). -/
inductive Yyparse (ts : List T) : Res St → Prop where
  | accept (s : St) : Entries start ts s [] → Yyparse ts (.ok s)
  | error : (∀ s, ¬ Entries start ts s []) → Yyparse ts (.abort "syntax error")

/-- The tree that `SPparseDSL` returns (`cocogen/frontend/scanAndParse/dsl-parser.y:1265-1275`, `cocogen/main.ccn:606-623`). -/
structure Ast where
  phases : List Phase
  passes : List Pass
  traversals : List Traversal
  nodes : List Node
  nodesets : List NodeSet
  enums : List Enum
  numTraversals : Nat
  numNodes : Nat
  deriving DecidableEq, Repr

/-- What `SPparseDSL` makes of the variables (`cocogen/frontend/scanAndParse/dsl-parser.y:1271-1274`). -/
def St.ast (s : St) : Ast :=
  { phases := s.phases, passes := s.passes, traversals := s.traversals, nodes := s.nodes, nodesets := s.nodesets, enums := s.enums,
    numTraversals := s.travIndex, numNodes := s.nodeIndex }

/-- `SPparseDSL` (`cocogen/frontend/scanAndParse/dsl-parser.y:1265-1275`) on the bytes of a file: the scanner
(`Verif.Lex.lex`) and the parser.  The scanner does not depend on the parser; where both would end the program the model says why
the scanner does. -/
inductive SPparseDSL (input : CStr) : Res Ast → Prop where
  | ok (ts : List Token) (lines : List (Nat × CStr)) (s : St) :
    Verif.Lex.lex input = .ok (ts, lines) → Yyparse (ts.map term) (.ok s) → SPparseDSL input (.ok s.ast)
  | abort (ts : List Token) (lines : List (Nat × CStr)) (why : String) :
    Verif.Lex.lex input = .ok (ts, lines) → Yyparse (ts.map term) (.abort why) → SPparseDSL input (.abort why)
  | lexUb (why : String) : Verif.Lex.lex input = .ub why → SPparseDSL input (.ub why)
  | lexAbort (why : String) : Verif.Lex.lex input = .abort why → SPparseDSL input (.abort why)
  | lexDiverge : Verif.Lex.lex input = .diverge → SPparseDSL input .diverge

end Verif.Parse
