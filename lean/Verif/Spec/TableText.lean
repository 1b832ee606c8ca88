import Verif.Model.GenFiles
import Verif.Spec.EnumHeader
import Verif.Spec.Templates

/-!
# Specification of the text of `enum.h` and `vtables.c`

A reader for enumerations and arrays of C (ISO/IEC 9899:1999, 6.7.2.2, 6.7.5.2, 6.7.8) on the words of `Spec/Templates.lean`, and what the compiled
program finds in these arrays under the names of traversals, nodes and passes.
-/

namespace Verif.Spec.TableText
open Verif.Str
open Verif.Spec.Str (lowerB upperB)
open Verif.Spec.Graph (Path)
open Verif.Spec.Targets (Target handler Below)
open Verif.Spec.Compiled (passFunction)
open Verif.Spec.Templates (Tok lex splice keywords declarator Word inWord)

/-! ### The reader -/

/-- A value in an array: `w` or `&w`. -/
inductive Init where
  | name (w : CStr)
  | addr (w : CStr)
  deriving DecidableEq, Repr

/-- An array: the words of its type before the name, its name, what is between the brackets, and its values. -/
structure Array where
  type : List Tok
  name : CStr
  size : CStr
  inits : List Init
  deriving DecidableEq, Repr

/-- External declarations. -/
inductive Ext where
  | directive (w : CStr)
  | enum (tag : CStr) (fields : List CStr)
  | array (a : Array)
  deriving DecidableEq, Repr

/-- The names before `}`. -/
def fields : List Tok → Option (List CStr × List Tok)
  | .sym 125 :: rest => some ([], rest)
  | .id w :: .sym 125 :: rest => if keywords.contains w then none else some ([w], rest)
  | .id w :: .sym 44 :: rest => if keywords.contains w then none else (fields rest).map fun p => (w :: p.1, p.2)
  | _ => none

/-- The values before `}`. -/
def inits : List Tok → Option (List Init × List Tok)
  | .sym 125 :: rest => some ([], rest)
  | .sym 38 :: .id w :: .sym 125 :: rest => if keywords.contains w then none else some ([.addr w], rest)
  | .sym 38 :: .id w :: .sym 44 :: rest => if keywords.contains w then none else (inits rest).map fun p => (.addr w :: p.1, p.2)
  | .id w :: .sym 125 :: rest => if keywords.contains w then none else some ([.name w], rest)
  | .id w :: .sym 44 :: rest => if keywords.contains w then none else (inits rest).map fun p => (.name w :: p.1, p.2)
  | _ => none

/-- The words before `[`. -/
def head : List Tok → Option (List Tok × List Tok)
  | .sym 91 :: rest => some ([], rest)
  | .id w :: rest => (head rest).map fun p => (.id w :: p.1, p.2)
  | .sym 42 :: rest => (head rest).map fun p => (.sym 42 :: p.1, p.2)
  | _ => none

/-- An enumeration behind the word `enum`; there is at least one name. -/
def enumeration : List Tok → Option (Ext × List Tok)
  | .id tag :: .sym 123 :: rest =>
    if keywords.contains tag then none
    else match fields rest with
      | some (f :: fs, .sym 59 :: rest) => some (.enum tag (f :: fs), rest)
      | _ => none
  | _ => none

/-- An array, with at least one value. -/
def array (toks : List Tok) : Option (Ext × List Tok) :=
  match head toks with
  | some (h, .id size :: .sym 93 :: .sym 61 :: .sym 123 :: rest) =>
    match declarator h, inits rest with
    | some (type, name), some (i :: is, .sym 59 :: rest) => some (.array ⟨type, name, size, i :: is⟩, rest)
    | _, _ => none
  | _ => none

/-- An external declaration, and what follows it. -/
def external : List Tok → Option (Ext × List Tok)
  | .dir w :: rest => some (.directive w, rest)
  | .id k :: rest => if k = b!"enum" then enumeration rest else array (.id k :: rest)
  | _ => none

/-- The external declarations.  The number bounds how many there are. -/
def unit : Nat → List Tok → Option (List Ext)
  | _, [] => some []
  | 0, _ :: _ => none
  | n + 1, toks => do
    let (x, rest) ← external toks
    let l ← unit n rest
    some (x :: l)

/-- The external declarations of a text. -/
def read (text : CStr) : Option (List Ext) :=
  unit (lex (.code true) (splice text)).length (lex (.code true) (splice text))

/-! ### What they mean -/

/-- The enumerator stands for the number: enumerators are numbered from 0. -/
def Enumerator (E : List Ext) (f : CStr) (i : Nat) : Prop := ∃ tag fs, Ext.enum tag fs ∈ E ∧ fs[i]? = some f

/-- The array of this type and name has this value at the index. -/
def Holds (V : List Ext) (type : List Tok) (a : CStr) (i : Nat) (x : Init) : Prop :=
  ∃ r, Ext.array r ∈ V ∧ r.type = type ∧ r.name = a ∧ r.inits[i]? = some x

/-- The names of the arrays. -/
def names (V : List Ext) : List CStr := V.filterMap fun x => match x with | .array a => some a.name | _ => none

/-- The directives. -/
def directives (V : List Ext) : List CStr := V.filterMap fun x => match x with | .directive w => some w | _ => none

/-- `const type` -/
def const (type : CStr) : List Tok := [.id b!"const", .id type]

/-- What `TRAVdo` calls: `ccn_trav_vtable[trav][node]` (`copra/src/dynamic_core.c:48-52`). -/
def Calls (E V : List Ext) (trav node f : CStr) : Prop :=
  ∃ i j table, Enumerator E trav i ∧ Enumerator E node j ∧ Holds V (const b!"ccn_trav_ft" ++ [.sym 42]) b!"ccn_trav_vtable" i (.name table) ∧
    Holds V (const b!"ccn_trav_ft") table j (.addr f)

/-- The enumerator of a traversal. -/
def travName (x : Parse.Traversal) : CStr := b!"TRAV_" ++ x.uid.orig.map upperB

/-- The enumerator of a node. -/
def nodeName (n : Parse.Node) : CStr := b!"NT_" ++ n.name.orig.map upperB

/-- The enumerator of a pass. -/
def passName (p : Parse.Pass) : CStr := b!"PASS_" ++ p.name.orig.map upperB

/-- The traversals of the system, with the start of the names of their functions. -/
def system : List (CStr × CStr) := [(b!"TRAV_free", b!"DEL"), (b!"TRAV_check", b!"CHK"), (b!"TRAV_cpy", b!"CPY")]

/-- What a traversal may call for the node type `n` at position `k`. -/
structure Goes (A : Parse.Ast) (x : Parse.Traversal) (k : Nat) (n : Parse.Node) (f : CStr) : Prop where
  /-- the function of the user for the nodes that the traversal is for -/
  user : Target x A n → f = handler x n
  /-- no function of the user for others -/
  other : ¬ Target x A n → f = b!"TRAVchildren" ∨ f = b!"TRAVnop"
  /-- what can have such a node below it is gone through -/
  through : ¬ Target x A n → (∃ j m, A.nodes[j]? = some m ∧ Target x A m ∧ Path (Below A) k j) → f = b!"TRAVchildren"

/-- The arrays of a program do what the description says. -/
structure Dispatch (A : Parse.Ast) (E V : List Ext) : Prop where
  includes : directives V = [b!"include \"ccngen/actions.h\"", b!"include \"ccn/ccn_types.h\"", b!"include \"ccn/dynamic_core.h\""]
  /-- every array has as many values as it is declared with -/
  sizes : ∀ r, Ext.array r ∈ V → Enumerator E r.size r.inits.length
  /-- traversals of the user -/
  user : ∀ x ∈ A.traversals, ∀ (k : Nat) n, A.nodes[k]? = some n → ∃ f, Calls E V (travName x) (nodeName n) f ∧ Goes A x k n f
  /-- traversals of the system -/
  own : ∀ s ∈ system, ∀ n ∈ A.nodes, Calls E V s.1 (nodeName n) (s.2 ++ n.name.orig.map lowerB)
  /-- no node -/
  null : ∀ x, x ∈ A.traversals.map travName ∨ x ∈ system.map (·.1) → Calls E V x b!"NT_NULL" b!"TRAVerror"
  /-- no traversal -/
  none : ∀ n, n ∈ A.nodes.map nodeName ∨ n = b!"NT_NULL" → Calls E V b!"TRAV_NULL" n b!"TRAVerror"
  /-- what makes and releases the data of traversals -/
  data : ∀ a ∈ [(b!"trav_data_init_vtable", b!"TRAVdataInit"), (b!"trav_data_free_vtable", b!"TRAVdataFree")],
    (∀ x ∈ A.traversals, ∃ i, Enumerator E (travName x) i ∧
      Holds V (const b!"ccn_trav_data_ft") a.1 i (.name (if x.data = [] then b!"TRAVdataNOP" else a.2 ++ x.name.orig))) ∧
    ∀ f ∈ b!"TRAV_NULL" :: system.map (·.1), ∃ i, Enumerator E f i ∧ Holds V (const b!"ccn_trav_data_ft") a.1 i (.name b!"TRAVdataNOP")
  /-- passes -/
  passes : (∀ p ∈ A.passes, ∃ i, Enumerator E (passName p) i ∧ Holds V (const b!"ccn_pass_ft") b!"ccn_pass_vtable" i (.addr (passFunction p))) ∧
    ∃ i, Enumerator E b!"PASS_NULL" i ∧ Holds V (const b!"ccn_pass_ft") b!"ccn_pass_vtable" i (.addr b!"PASSerror")

/-- The enumerations of `enum.h` (`docs/source/codegen.rst`): numbers of nodesets, nodes, traversals and passes, and those of the description. -/
def enums (A : Parse.Ast) : List Ext :=
  [.enum b!"nodesettype" (b!"NS_NULL" :: ((A.nodesets.map fun s => b!"NS_" ++ s.name.orig.map upperB) ++ [b!"_NS_SIZE"])),
    .enum b!"ccn_nodetype" (b!"NT_NULL" :: (A.nodes.map nodeName ++ [b!"_NT_SIZE"])),
    .enum b!"ccn_traversal_type" (b!"TRAV_NULL" :: (A.traversals.map travName ++ (system.map (·.1) ++ [b!"_TRAV_SIZE"]))),
    .enum b!"ccn_pass_type" (b!"PASS_NULL" :: (A.passes.map passName ++ [b!"_PASS_SIZE"]))] ++
  A.enums.map fun e => .enum e.name.orig (EnumHeader.first e :: e.vals.map (EnumHeader.entry e))

/-! ### Conditions -/

/-- No traversal is called like a table: `ccn_trav`, `ccn_pass`, `trav_data_init`, `trav_data_free`. -/
def Spared (A : Parse.Ast) : Prop := ∀ x ∈ A.traversals, ∀ y ∈ [b!"ccn_trav", b!"ccn_pass", b!"trav_data_init", b!"trav_data_free"],
  ¬ Verif.Spec.Str.SameName x.name.orig y

/-- Starts with a letter (of the alphabet), and has only letters, digits and underscores. -/
def Ident (w : CStr) : Prop := (∃ c r, w = c :: r ∧ Text.isLetter c = true) ∧ ∀ c ∈ w, inWord c = true

/-- Names are identifiers, those of enumerations and of functions of passes no words of C, which is what the scanner sees to
(`dsl-lexer.l:166-170`, `201-228`). -/
structure Wordy (A : Parse.Ast) : Prop where
  nodes : ∀ n ∈ A.nodes, Ident n.name.orig
  nodesets : ∀ n ∈ A.nodesets, Ident n.name.orig
  travs : ∀ x ∈ A.traversals, Ident x.name.orig
  uids : ∀ x ∈ A.traversals, Ident x.uid.orig
  passes : ∀ p ∈ A.passes, Ident p.name.orig
  functions : ∀ p ∈ A.passes, Word (passFunction p) ∧ passFunction p ∉ keywords
  tags : ∀ e ∈ A.enums, Ident e.name.orig ∧ e.name.orig ∉ keywords
  prefixes : ∀ e ∈ A.enums, Ident e.pre.orig
  values : ∀ e ∈ A.enums, ∀ v ∈ e.vals, Ident v.orig

end Verif.Spec.TableText
