import Verif.Model.CopyGen
import Verif.Spec.CopyFree
import Verif.Spec.Described

/-!
# Specification of copying and releasing trees of a description
-/

namespace Verif.Spec.CopyGen
open Verif.Str Verif.Trav
open Verif.Spec.Semantic (NodeAttr SetAttr Pairs)
open Verif.Spec.Str (SameName upperB)

/-- What is in a field of this type: a string, a node, something of the user, or a value. -/
def kind : NodeGen.AT → AType
  | .string => .string
  | .link => .link
  | .user => .user
  | _ => .plain

/-- The shape of the nodes of a type. -/
def shape (n : NodeGen.Node) : NodeD := ⟨n.children.map (·.ctor), n.attrs.map fun a => ⟨kind a.type, a.inh, a.syn, a.ctor⟩⟩

/-- The handler for an entry of a table: the function with this name, where one is defined in the files in question. -/
structure Handles (defs : List (CStr × (Addr → Prog))) (f : Tables.Fun) (h : Addr → Prog) : Prop where
  error : f = .travError → h = TRAVerror
  named : ∀ x, f = .named x → ∀ g, (x, g) ∈ defs → h = g

/-- The tables in memory are those of the generated text: the rows in the order of the table of tables, each found by its name, and the
functions for the data of traversals.  Of the functions only the given ones are known. -/
structure Linked (a : Tables.Decls) (tables : List Tables.Table) (defs : List (CStr × (Addr → Prog))) (E : Env) : Prop where
  rows : ∀ (i : Nat) n t, (Tables.DGTTast a)[i]? = some n → tables.find? (fun t => decide (t.name = n)) = some t →
    ∃ row, E.vtable[i]? = some row ∧ Pairs (Handles defs) t.entries row
  init : ∀ i : Nat, (Tables.DGTDTast true a)[i]? = some .dataNop → E.initTable[i]? = some .nop
  fini : ∀ i : Nat, (Tables.DGTDTast false a)[i]? = some .dataNop → E.freeTable[i]? = some .nop

/-- No string is computed by equations. -/
def NoText (A : Parse.Ast) : Prop := ∀ (k : Nat) (a : Parse.Attr), NodeAttr A k a → a.type = .string → ¬ Described.Computed a

/-- The macro of no field is called `MAYBE_UNUSED`. -/
structure Unmarked (A : Parse.Ast) : Prop where
  child : ∀ n ∈ A.nodes, ∀ c ∈ n.children, Described.access n.name c.name ≠ "MAYBE_UNUSED".toUTF8.toList
  attr : ∀ (k : Nat) (n : Parse.Node) (a : Parse.Attr), A.nodes[k]? = some n → NodeAttr A k a →
    Described.access n.name a.name ≠ "MAYBE_UNUSED".toUTF8.toList
  sets : ∀ (i : Nat) (s : Parse.NodeSet) (a : Parse.Attr), A.nodesets[i]? = some s → SetAttr A i a →
    Described.access s.name a.name ≠ "MAYBE_UNUSED".toUTF8.toList

end Verif.Spec.CopyGen
