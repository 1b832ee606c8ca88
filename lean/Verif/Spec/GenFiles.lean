import Verif.Model.GenFiles
import Verif.Spec.Semantic

/-!
# Specification of generated files

What a C compiler does with the lines that are kept in `Verif.GenFiles`: it includes files, and every word has to be declared before it is
used.  It is independent of the generator.
-/

namespace Verif.Spec.GenFiles
open Verif.GenFiles (Sym Item)
open Verif.Str
open Verif.Spec.Str (lowerB SameName)
open Verif.Spec.Semantic (NodeAttr SetAttr)

/-! ## The preprocessor -/

/-- Where a header is found: below the directory for generated code, or elsewhere. -/
inductive Place where
  | made (path : CStr)
  | lib (name : CStr)
  deriving DecidableEq, Repr

/-- The files below the directory for generated code, and the other headers. -/
structure World where
  file : CStr → Option (List Item)
  lib : CStr → Option (List Item)

/-- The directory of a file, with the `/`. -/
def folder (p : CStr) : CStr := (p.reverse.dropWhile fun c => c != 47).reverse

/-- A header among those of the libraries. -/
def findLib (w : World) (name : CStr) : Option (Place × List Item) := (w.lib name).map fun c => (.lib name, c)

/-- A header in the path for headers: first the directory for generated code. -/
def findPath (w : World) (name : CStr) : Option (Place × List Item) :=
  match w.file name with
  | some c => some (.made name, c)
  | none => findLib w name

/-- `#include "name"` looks at the directory of the file it is in, `#include <name>` does not. -/
def find (w : World) (dir : Option CStr) (sys : Bool) (name : CStr) : Option (Place × List Item) :=
  match sys, dir with
  | false, some d =>
    match w.file (d ++ name) with
    | some c => some (.made (d ++ name), c)
    | none => findPath w name
  | _, _ => findPath w name

/-- The directory for the includes in a header. -/
def Place.dir : Place → Option CStr
  | .made p => some (folder p)
  | .lib _ => none

/-- What was included so far, and the words that are declared. -/
structure State where
  seen : List Place
  known : List Sym

/-- The macro that says that there are types of the user. -/
def usesUnsafe : Sym := .define "CCN_USES_UNSAFE".toUTF8.toList

/-- The lines of a file. -/
def walk (inc : Bool → CStr → State → Res State) : List Item → State → Res State
  | [], s => .ok s
  | .once :: rest, s => walk inc rest s
  | .incl sys name :: rest, s => do
    let s ← inc sys name s
    walk inc rest s
  | .ifUnsafe name :: rest, s =>
    if usesUnsafe ∈ s.known then do
      let s ← inc false name s
      walk inc rest s
    else walk inc rest s
  | .text ds us :: rest, s =>
    if ∀ u ∈ us, u ∈ s.known then walk inc rest { s with known := s.known ++ ds } else .abort "undeclared"

/-- An include, in a file of the directory.  The first number bounds the depth. -/
def includes (w : World) : Nat → Option CStr → Bool → CStr → State → Res State
  | 0, _, _, _, _ => .diverge
  | fuel + 1, dir, sys, name, s =>
    match find w dir sys name with
    | none => .abort "No such file"
    | some (p, c) =>
      if p ∈ s.seen ∧ Item.once ∈ c then .ok s
      else walk (includes w fuel p.dir) c { s with seen := p :: s.seen }

/-- A source file. -/
def translate (w : World) (fuel : Nat) (path : CStr) : Res State :=
  match w.file path with
  | none => .abort "No such file"
  | some c => walk (includes w fuel (some (folder path))) c ⟨[.made path], []⟩

/-- All includes of the file are there, and all words are declared. -/
def Translates (w : World) (path : CStr) : Prop := ∃ fuel s, translate w fuel path = .ok s

/-- The files of a disk below a directory, with other headers. -/
def worldOf (file : CStr → Option (List Item)) (dir : CStr) (lib : List (CStr × List Item)) : World :=
  ⟨fun p => file (dir ++ p), fun n => lib.lookup n⟩

/-! ## The files -/

/-- Bytes of a string. -/
abbrev t (s : String) : CStr := s.toUTF8.toList

/-- The headers that are generated for every description. -/
def headers : List CStr :=
  [t "ast.h", t "enum.h", t "trav_data.h", t "actions.h", t "equation.h", t "visit.h", t "ag.h", t "trav.h", t "action_handling.h",
    t "gate.h", t "ccn_defs.h"].map fun n => t "ccngen/" ++ n

/-- The source files that are generated for every description. -/
def sources : List CStr :=
  [t "ast.c", t "trav_data.c", t "vtables.c", t "ccn_copy.c", t "ccn_free.c", t "ccn_check.c", t "visit.c", t "ag.c", t "trav.c",
    t "action_handling.c", t "user/passes.c"]

/-- The header for the equations of a node. -/
def eqHeader (n : Parse.Node) : CStr := t "ccngen/equations/" ++ n.name.orig.map lowerB ++ t ".h"

/-- The templates for the equations of a node. -/
def eqSource (n : Parse.Node) : CStr := t "user/eq_" ++ n.name.orig.map lowerB ++ t ".c"

/-- The templates for a traversal. -/
def travSource (x : Parse.Traversal) : CStr := t "user/trav_" ++ x.name.orig.map lowerB ++ t ".c"

/-- A source file for the description. -/
inductive Source (A : Parse.Ast) : CStr → Prop where
  | always {p : CStr} : p ∈ sources → Source A p
  | trav {x : Parse.Traversal} : x ∈ A.traversals → Source A (travSource x)
  | eqs {n : Parse.Node} : n ∈ A.nodes → n.equations ≠ [] → Source A (eqSource n)

/-- A file for the description. -/
inductive Made (A : Parse.Ast) : CStr → Prop where
  | source {p : CStr} : Source A p → Made A p
  | header {p : CStr} : p ∈ headers → Made A p
  | eqs {n : Parse.Node} : n ∈ A.nodes → n.equations ≠ [] → Made A (eqHeader n)
  | dot : Made A (t "ast.dot")

/-! ## Directories -/

/-- The directory that the option `--gen-dir` names. -/
inductive GenDir (g : CStr) : CStr → Prop where
  | slash : g.getLast? = some 47 → GenDir g g
  | plain : g ≠ [] → g.getLast? ≠ some 47 → GenDir g (g ++ t "/")

/-- The directories below it. -/
def below : List CStr := [t "ccngen", t "ccngen/equations", t "user", t "ag_dot", t "log"]

/-- The directories can be made: the directory is there, or it can be made in one that is there, and no file has the name of a directory. -/
structure Room (dirs : List CStr) (file : CStr → Option (List Item)) (d : CStr) : Prop where
  top : d ∈ dirs ∨ file d.dropLast = none ∧ folder d.dropLast ∈ dirs
  free : ∀ s ∈ below, file (d ++ s) = none

/-! ## Conditions -/

/-- The reference, in an equation of the node at position `k`, is to the attribute. -/
inductive Refers (A : Parse.Ast) (k : Nat) (n : Parse.Node) (r : Parse.Ref) (a : Parse.Attr) : Prop where
  | own : r.node = none → NodeAttr A k a → SameName a.name.orig r.attr.orig → Refers A k n r a
  | node (c : Parse.Name) (ch : Parse.Child) (j : Nat) (m : Parse.Node) : r.node = some c → ch ∈ n.children → SameName ch.name.orig c.orig →
      A.nodes[j]? = some m → SameName m.name.orig ch.type.orig → NodeAttr A j a → SameName a.name.orig r.attr.orig → Refers A k n r a
  | set (c : Parse.Name) (ch : Parse.Child) (j : Nat) (m : Parse.NodeSet) : r.node = some c → ch ∈ n.children →
      SameName ch.name.orig c.orig → A.nodesets[j]? = some m → SameName m.name.orig ch.type.orig → SetAttr A j a →
      SameName a.name.orig r.attr.orig → Refers A k n r a

/-- The attribute is a link to a node: its type names a node or nodeset. -/
def IsLink (A : Parse.Ast) (a : Parse.Attr) : Prop :=
  a.type = .link_or_enum ∧ ∃ r ∈ a.ref, (∃ n ∈ A.nodes, SameName n.name.orig r.orig) ∨ ∃ s ∈ A.nodesets, SameName s.name.orig r.orig

/-- No equation has to do with a link. -/
def NoLinks (A : Parse.Ast) : Prop :=
  ∀ (k : Nat) n, A.nodes[k]? = some n → ∀ e ∈ n.equations, ∀ r ∈ e.rule :: e.args, ∀ a, Refers A k n r a → ¬ IsLink A a

/-- No equation is for a string. -/
def NoStrings (A : Parse.Ast) : Prop :=
  ∀ (k : Nat) n, A.nodes[k]? = some n → ∀ e ∈ n.equations, ∀ a, Refers A k n e.rule a → a.type ≠ .string

/-- The enumerations of attributes in constructors are written as they are declared. -/
def EnumsAsDeclared (A : Parse.Ast) : Prop :=
  ∀ (k : Nat) a, NodeAttr A k a → a.ctor = true → a.type = .link_or_enum → ∀ r ∈ a.ref,
    (∃ e ∈ A.enums, SameName e.name.orig r.orig) → ∃ e ∈ A.enums, e.name.orig = r.orig

/-- No name of a node or traversal has a `/`; the scanner sees to it (`cocogen/frontend/scanAndParse/dsl-lexer.l:166`). -/
structure NoSlash (A : Parse.Ast) : Prop where
  nodes : ∀ n ∈ A.nodes, (47 : UInt8) ∉ n.name.orig
  travs : ∀ x ∈ A.traversals, (47 : UInt8) ∉ x.name.orig

/-- The types of the user that the description names. -/
inductive UserType (A : Parse.Ast) : CStr → Prop where
  | node {n : Parse.Node} {a : Parse.Attr} {r : Parse.Name} : n ∈ A.nodes → a ∈ n.attrs → a.type = .user → a.ref = some r → UserType A r.orig
  | set {s : Parse.NodeSet} {a : Parse.Attr} {r : Parse.Name} : s ∈ A.nodesets → a ∈ s.attrs → a.type = .user → a.ref = some r →
      UserType A r.orig
  | data {x : Parse.Traversal} {d : Parse.TravData} {r : Parse.Name} : x ∈ A.traversals → d ∈ x.data → d.type = .user → d.ref = some r →
      UserType A r.orig

/-- A type of the user has a name; the parser sees to it (`cocogen/frontend/scanAndParse/dsl-parser.y:768-826`, `1176-1193`). -/
structure UsersNamed (A : Parse.Ast) : Prop where
  nodes : ∀ n ∈ A.nodes, ∀ a ∈ n.attrs, a.type = .user → a.ref.isSome
  sets : ∀ s ∈ A.nodesets, ∀ a ∈ s.attrs, a.type = .user → a.ref.isSome
  data : ∀ x ∈ A.traversals, ∀ d ∈ x.data, d.type = .user → d.ref.isSome

/-- A node or traversal has a type of the user: a node of its own or from a nodeset, and then no attribute of this name in the node has
another type. -/
inductive UserSeen (A : Parse.Ast) : Prop where
  | own {n : Parse.Node} {a : Parse.Attr} : n ∈ A.nodes → a ∈ n.attrs → a.type = .user → UserSeen A
  | data {x : Parse.Traversal} {d : Parse.TravData} : x ∈ A.traversals → d ∈ x.data → d.type = .user → UserSeen A
  | attr {k : Nat} {n : Parse.Node} {a : Parse.Attr} : A.nodes[k]? = some n → NodeAttr A k a →
      (∀ b, NodeAttr A k b → SameName b.name.orig a.name.orig → b.type = .user) → UserSeen A

/-- If a nodeset has a type of the user, a node or traversal has one. -/
def SetTypesSeen (A : Parse.Ast) : Prop := ∀ s ∈ A.nodesets, ∀ a ∈ s.attrs, a.type = .user → UserSeen A

/-- No literal is empty. -/
def Listed : Parse.SetE → Prop
  | .lit l => l ≠ []
  | .ref _ => True
  | .op _ l r => Listed l ∧ Listed r

/-- The literals in nodesets list at least one node; the parser sees to it (`cocogen/frontend/scanAndParse/dsl-parser.y:555-597`). -/
def SetsListed (A : Parse.Ast) : Prop := ∀ s ∈ A.nodesets, Listed s.expr

/-- If there are types of the user, no node with equations is called like their header. -/
def NoTypesNode (A : Parse.Ast) : Prop :=
  (∃ x, UserType A x) → ∀ n ∈ A.nodes, n.equations ≠ [] → ¬ SameName n.name.orig (t "user_types")

/-- The header of the user declares the types of the user. -/
def Provided (A : Parse.Ast) (user : Option (List CStr)) : Prop := ∀ x, UserType A x → ∃ l, user = some l ∧ x ∈ l

/-- All files below the directory are generated ones. -/
def OnlyOurs (A : Parse.Ast) (file : CStr → Option (List Item)) (d : CStr) : Prop := ∀ p, file (d ++ p) ≠ none → Made A p

/-- The files that are opened. -/
def opened : List Verif.GenFiles.Step → List CStr
  | [] => []
  | .fopen p :: rest => p :: opened rest
  | .emit _ :: rest => opened rest

end Verif.Spec.GenFiles
