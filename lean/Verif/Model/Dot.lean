import Verif.Model.Semantic
import Verif.Model.GenFiles

/-!
# Model of the diagram of the description, `cocogen/dot/gen_dot.c`

The text of `ast.dot`.  Simplifications: indentation is left out; `seen` is left out, since nothing is ever put in it
(`cocogen/dot/gen_dot.c:80-83`), so that the lookup in it finds nothing.
-/

namespace Verif.Dot
open Verif.Str Verif.Ids Verif.Semantic Verif.GenFiles

/-- `GDchild` (`cocogen/dot/gen_dot.c:77-87`); `node` is `curr_node`. -/
def GDchild (node : CStr) : List Parse.Child → CStr
  | [] => []
  | c :: rest => (node ++ (b!" -> " ++ (c.type.orig ++ (b!"[label=\"" ++ (c.name.orig ++ b!"\"]\n"))))) ++ GDchild node rest

/-- `GDattribute` (`cocogen/dot/gen_dot.c:64-75`). -/
def GDattribute (node : CStr) : List Propagate.Attr → CStr
  | [] => []
  | a :: rest =>
    match a.type with
    | .link =>
      (node ++ (b!" -> " ++ (decode a.ref ++ (b!"[color=red, label=\"" ++ (decode a.orig ++ b!"\"]\n"))))) ++ GDattribute node rest
    | _ => GDattribute node rest

/-- `GDinode` (`cocogen/dot/gen_dot.c:31-41`) for the nodes from position `k` on. -/
def GDinode (o : Out) : Nat → List Parse.Node → CStr
  | _, [] => []
  | k, n :: rest =>
    (n.name.orig ++ b!";\n") ++ (GDchild n.name.orig n.children ++ (GDattribute n.name.orig (o.attrs (.node k)) ++ GDinode o (k + 1) rest))

/-- `GDsetliteral` (`cocogen/dot/gen_dot.c:53-62`); `set` is the name of `curr_nodeset`. -/
def GDsetliteral (set : CStr) : Sets.Tree → CStr
  | .null => []
  | .node _ _ i l r => (set ++ (b!" -> " ++ (i.orig ++ b!" [color=blue]\n"))) ++ (GDsetliteral set r ++ GDsetliteral set l)

/-- `GDinodeset` (`cocogen/dot/gen_dot.c:43-51`), with the literals of the nodesets. -/
def GDinodeset : List (Parse.NodeSet × Sets.Tree) → CStr
  | [] => []
  | (s, t) :: rest => (s.name.orig ++ b!";\n") ++ (GDsetliteral s.name.orig t ++ GDinodeset rest)

/-- `GDast` (`cocogen/dot/gen_dot.c:18-29`). -/
def GDast (A : Parse.Ast) (o : Out) (trees : List Sets.Tree) : CStr :=
  b!"digraph Ast {\n" ++ (GDinode o 0 A.nodes ++ (GDinodeset (A.nodesets.zip trees) ++ b!"}\n"))

/-- The literals that the phase `semantic` leaves in the nodesets (`cocogen/frontend/unwrap_setexpr.c:18-84`), as in `Semantic.checks`. -/
def literals (tab : List (Ste Decl)) (fuel : Nat) (A : Parse.Ast) : Res (List Sets.Tree) := do
  let (_, st) ← Unwrap.USEast tab fuel (A.nodesets.map fun s => exprOf s.expr) (A.traversals.filterMap fun t => t.nodes.map exprOf)
  treesOf st (List.range A.nodesets.length)

/-- The text of `ast.dot` for a description (`cocogen/main.ccn:29-44`, `cocogen/dot/gen_dot.c:18-29`). -/
def diagram (fuel : Nat) (A : Parse.Ast) (o : Out) : Res CStr := do
  let trees ← literals o.tab fuel A
  .ok (GDast A o trees)

end Verif.Dot
