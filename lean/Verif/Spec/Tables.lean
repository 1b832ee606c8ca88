import Verif.Model.Tables

/-!
# Specification of enumerations and tables
-/

namespace Verif.Spec.Tables
open Verif.Str Verif.Ids Verif.Tables

/-- The enumerators and tables have different names, so that the generated code has no double declarations. -/
structure Distinct (a : Decls) : Prop where
  nodes : (DGEast a).node.Nodup
  nodesets : (DGEast a).nodeset.Nodup
  travs : (DGEast a).trav.Nodup
  passes : (DGEast a).pass.Nodup
  tables : ((a.travs.map fun t => t.name.lwr ++ sVtable) ++ (DGSTast a.nodes).map (·.name)).Nodup
  actions : (GAAHast a).Nodup

/-- Names as they are after the check for duplicates, and none of them is one that the generators use themselves. -/
structure Named (a : Decls) : Prop where
  nodes : (a.nodes.map (·.upr)).Nodup
  nodesNull : sNULL ∉ a.nodes.map (·.upr)
  nodesets : (a.nodesets.map (·.upr)).Nodup
  nodesetsNull : sNULL ∉ a.nodesets.map (·.upr)
  uids : (a.travs.map (·.iprefix.upr)).Nodup
  uidsOwn : ∀ x, x ∈ a.travs.map (·.iprefix.upr) → x ∉ [sNULL, sFree, sCheck, sCpy]
  passes : (a.passes.map (·.name.upr)).Nodup
  passesNull : sNULL ∉ a.passes.map (·.name.upr)
  travs : (a.travs.map (·.name.lwr)).Nodup
  travsOwn : ∀ x, x ∈ a.travs.map (·.name.lwr) → x ∉ [sCcn ++ sCopy, sCcn ++ sCheck, sCcn ++ sFree, sCcn ++ sError]
  actions : (a.phases.map (·.name.upr) ++ (a.travs.map (·.name.upr) ++ a.passes.map (·.name.upr))).Nodup
  actionsOwn : ∀ x, x ∈ a.phases.map (·.name.upr) ++ (a.travs.map (·.name.upr) ++ a.passes.map (·.name.upr)) →
    x ∉ [sCheck, sFree, sCleanup, sNULL]

/-- The descriptors that should be found for the ids of declared actions. -/
inductive Describes (a : Decls) : CStr → Action → Prop where
  | phase {p} (h : p ∈ a.phases) : Describes a (sID ++ p.name.upr)
      ⟨sID ++ p.name.upr, p.name.orig,
        .phase (p.gate.map (·.orig)) (p.name.lwr ++ sIdsTable) p.cycle (sID ++ p.name.upr)⟩
  | trav {t} (h : t ∈ a.travs) : Describes a (sID ++ t.name.upr)
      ⟨sID ++ t.name.upr, t.name.orig, .traversal (sTRAV ++ t.iprefix.upr)⟩
  | pass {p} (h : p ∈ a.passes) : Describes a (sID ++ p.name.upr)
      ⟨sID ++ p.name.upr, p.name.orig, .pass (sPASS ++ p.name.upr)⟩

/-- The uppercase names of the declared actions. -/
def actionNames (a : Decls) : List CStr :=
  a.phases.map (·.name.upr) ++ (a.travs.map (·.name.upr) ++ a.passes.map (·.name.upr))

end Verif.Spec.Tables
