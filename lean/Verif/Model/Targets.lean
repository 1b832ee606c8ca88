import Verif.Model.Compiled
import Verif.Model.Trav

/-!
# Model of the dispatch tables of a description (`cocogen/frontend/reachability.c`, `cocogen/dynamic_backend/gen_trav_v_table.c`)

`Verif.Reach` and `Verif.Tables` are about grammars in which names are resolved already.  Here the action `reachability` and the
generators of tables read the tree of the description, after `Verif.Semantic.checks` has accepted it: names are looked up in the symbol
table, and set expressions have been resolved by `Verif.Unwrap`.  The tables are then what `TRAVdo` of `Verif.Trav` reads.

* `INODE_INDEX` and `ITRAVERSAL_INDEX` are the numbers that the parser has given.
* The C compiler finds tables and functions by name; `code` is the code of the functions of the user (and of those that are generated
  for the traversals of the system).
-/

namespace Verif.Targets
open Verif.Str Verif.Ids Verif.Grammar Verif.Reach Verif.Tables Verif.Trav
open Verif.Semantic (idOf exprOf entryOf preorder treesOf)
open Verif.Compiled (declsOf)
open Verif.Propagate (Entry)

/-- `INODE_INDEX` of the node at a position of the list (`cocogen/frontend/scanAndParse/dsl-parser.y:234-236`). -/
def indexAt (A : Parse.Ast) (k : Nat) : Nat :=
  match A.nodes[k]? with
  | some n => n.index
  | none => 0

/-- What `STlookup` finds for a name in a literal (`cocogen/frontend/reachability.c:124-125`). -/
def literal (A : Parse.Ast) (tab : List (Ste Decl)) (i : Id) : Entry :=
  match entryOf tab i with
  | .node k => .node (indexAt A k)
  | .null => .null
  | .other => .other

/-- The literals of a set in the order in which they are visited (`cocogen/frontend/reachability.c:122-143`). -/
def literals (A : Parse.Ast) (tab : List (Ste Decl)) (t : Sets.Tree) : List Entry := (preorder t).map (literal A tab)

/-- What `STlookup` finds for the type of a child (`cocogen/frontend/reachability.c:100-104`). -/
def kidOf (A : Parse.Ast) (tab : List (Ste Decl)) (c : Parse.Child) : CType :=
  match stFind (idOf c.type).lwr tab with
  | none => .null
  | some ⟨.node, k⟩ => .node (indexAt A k)
  | some ⟨.nodeset, k⟩ => .set k
  | some _ => .other

/-- The node with an `INODE_INDEX` (`cocogen/frontend/reachability.c:77-90`). -/
def nodeOf (A : Parse.Ast) (i : Nat) : Option Parse.Node := A.nodes.find? fun n => decide (n.index = i)

/-- What reachability reads (`cocogen/frontend/reachability.c:42-52`, `cocogen/main.ccn:606-623`). -/
def envOf (A : Parse.Ast) (tab : List (Ste Decl)) (trees : List Sets.Tree) : Reach.Env where
  num := A.numNodes
  nodes := A.nodes.map (·.index)
  kids := fun i =>
    match nodeOf A i with
    | some n => n.children.map (kidOf A tab)
    | none => []
  sets := trees.map (literals A tab)

/-- The traversals, with what resolution has left of their expressions (`cocogen/frontend/reachability.c:54-61`); `qs` are the pointers
of the traversals that have one, in order (`cocogen/frontend/unwrap_setexpr.c:18-84`). -/
def travsOf (A : Parse.Ast) (tab : List (Ste Decl)) (st : Unwrap.St) :
    List Parse.Traversal → List (Option Nat) → Res (List (Nat × List Entry))
  | [], _ => .ok []
  | t :: ts, qs =>
    match t.nodes, qs with
    | none, qs => do
      let l ← travsOf A tab st ts qs
      .ok ((t.index, []) :: l)
    | some _, [] => .ub "no such expression"
    | some _, q :: qs => do
      let x ← Unwrap.litAt st q
      let l ← travsOf A tab st ts qs
      .ok ((t.index, literals A tab x) :: l)

/-- The name of the node with an `INODE_INDEX` (`cocogen/dynamic_backend/gen_node_trav_table.c:22-38`). -/
def nameOf (A : Parse.Ast) (i : Nat) : Id :=
  match nodeOf A i with
  | some n => idOf n.name
  | none => ⟨[], [], []⟩

/-- The generated dispatch tables: `unwrapSetExpr` and `reachability` (`cocogen/main.ccn:37-41`), and the generators
(`cocogen/dynamic_backend/gen_trav_v_table.c:15-37`, `gen_system_traversals.c:38-48`). -/
def tables (fuel : Nat) (A : Parse.Ast) (tab : List (Ste Decl)) : Res (List Table) := do
  let (qs, st) ← Unwrap.USEast tab fuel (A.nodesets.map fun s => exprOf s.expr) (A.traversals.filterMap fun t => t.nodes.map exprOf)
  let trees ← treesOf st (List.range A.nodesets.length)
  let ts ← travsOf A tab st A.traversals qs
  let rows ← RCBast (envOf A tab trees) fuel A.numTraversals ts (fun _ => none) ⟨fun _ => false, false⟩
  let hs ← DGTVitraversal (envOf A tab trees) rows (A.traversals.map (·.index))
  .ok (DGTVast (nameOf A) (declsOf A).travs hs ++ DGSTast (declsOf A).nodes)

/-- The function that an entry of a dispatch table is (`copra/src/dynamic_core.c:73-92`).  The last two are in other tables only. -/
def funOf (code : CStr → Addr → Prog) : Fun → Addr → Prog
  | .travError => TRAVerror
  | .travNop => TRAVnop
  | .travChildren => TRAVchildrenH
  | .named f => code f
  | .dataNop => TRAVerror
  | .passError => TRAVerror

/-- `ccn_trav_vtable` (`cocogen/dynamic_backend/gen_trav_table.c:13-34`): the tables with these names. -/
def link (code : CStr → Addr → Prog) (ts : List Table) : List CStr → Res (List (List (Addr → Prog)))
  | [] => .ok []
  | n :: rest =>
    match ts.find? fun t => decide (t.name = n) with
    | none => .ub "undeclared table"
    | some t => do
      let l ← link code ts rest
      .ok (t.entries.map (funOf code) :: l)

/-- `ccn_trav_vtable` of a description (`cocogen/dynamic_backend/gen_trav_table.c:13-34`). -/
def vtable (code : CStr → Addr → Prog) (fuel : Nat) (A : Parse.Ast) (tab : List (Ste Decl)) : Res (List (List (Addr → Prog))) := do
  let ts ← tables fuel A tab
  link code ts (DGTTast (declsOf A))

end Verif.Targets
