import Verif.Lemmas.GenFiles

/-!
# All files that are generated
-/

namespace Verif.GenFiles
open Verif.Str Verif.Ids Verif.Semantic
open Verif.Spec.Str (lowerB upperB SameName)
open Verif.Spec.Semantic (Pairs NodeAttr SetAttr TypesNamed)
open Verif.Spec.GenFiles (IsLink Refers UserType UsersNamed UserSeen SetTypesSeen EnumsAsDeclared NoLinks NoStrings NoSlash)
open Verif.Described (nodeProg attrGen Known From)

/-- What the lines of the files depend on. -/
structure Words where
  nodes : List Sym
  ctors : List Sym
  sets : List Sym
  fields : List Sym

/-! ### Lines -/

/-- `ast.h`. -/
def astH (v : Words) : List Item :=
  [.once, .incl true b!"stddef.h", .incl false b!"ccngen/ccn_defs.h", .incl false b!"ccn/ccn_types.h", .incl false b!"ccngen/enum.h",
    .ifUnsafe b!"user_types.h", .text (words [b!"node_st"]) [], .text [] (words [b!"node_st", b!"bool"] ++ v.nodes),
    .text [] (words [b!"node_st"] ++ v.ctors), .text [] (.tag b!"ccn_nodetype" :: words [b!"node_st", b!"uint32_t"]),
    .text [] (words [b!"node_st", b!"bool", b!"true", b!"false"] ++ v.nodes), .text [] (words [b!"node_st"] ++ v.sets)]

/-- `ast.c`. -/
def astC (v : Words) : List Item :=
  [.incl false b!"ccngen/ast.h", .incl false b!"palm/memory.h", .incl false b!"palm/dbug.h",
    .text [] (words [b!"node_st", b!"MEMmalloc", b!"NULL"]), .text [] (words [b!"node_st", b!"MEMmalloc", b!"NULL", b!"false"] ++ v.ctors),
    .text [] (words [b!"DBUGprintAssert", b!"bool"]), .text [] (words [b!"DBUGprintAssert"])]

/-- The words of `enum.h`. -/
def enumDecls (A : Parse.Ast) : List Sym :=
  (EnumHeader.header A).map (fun e => .tag e.1) ++ (EnumHeader.header A).flatMap (fun e => words e.2)

/-- `enum.h`. -/
def enumH (A : Parse.Ast) : List Item := [.once, .text (enumDecls A) []]

/-- `trav_data.h`. -/
def travDataH (v : Words) : List Item :=
  [.once, .incl false b!"ccngen/ccn_defs.h", .incl false b!"ccn/ccn_types.h", .ifUnsafe b!"user_types.h", .incl false b!"ccngen/ast.h",
    .text [] (words [b!"node_st"] ++ v.fields)]

/-- `trav_data.c`. -/
def travDataC : List Item :=
  [.incl true b!"stdlib.h", .incl false b!"ccngen/trav_data.h", .incl false b!"ccn/dynamic_core.h", .incl false b!"palm/memory.h",
    .text [] (words [b!"ccn_trav_st", b!"MEMmalloc", b!"MEMfree", b!"NULL", b!"false"])]

/-- `vtables.c`. -/
def vtablesC : List Item :=
  [.incl false b!"ccngen/actions.h", .incl false b!"ccn/ccn_types.h", .incl false b!"ccn/dynamic_core.h",
    .text [] (words [b!"ccn_trav_ft", b!"ccn_pass_ft", b!"ccn_trav_data_ft", b!"_NT_SIZE", b!"_TRAV_SIZE", b!"_PASS_SIZE", b!"TRAVerror",
      b!"PASSerror", b!"TRAVchildren", b!"TRAVnop", b!"TRAVdataNOP"])]

/-- `actions.h`. -/
def actionsH : List Item := [.once, .text (words [b!"ccn_node"]) []]

/-- `ccn_copy.c`. -/
def copyC : List Item :=
  [.incl false b!"ccngen/ast.h", .incl true b!"stddef.h", .incl false b!"palm/str.h", .incl false b!"palm/ctinfo.h",
    .incl false b!"ccn/dynamic_core.h", .text [] (words [b!"node_st", b!"NULL", b!"STRcpy", b!"TRAVopt", b!"CTI", b!"CTI_WARN", b!"true"])]

/-- `ccn_free.c`. -/
def freeC : List Item :=
  [.incl false b!"ccngen/ast.h", .incl false b!"ccn/dynamic_core.h", .incl false b!"palm/memory.h",
    .text [] (words [b!"NULL", b!"MEMfree", b!"TRAVchildren"])]

/-- `ccn_check.c`. -/
def checkC : List Item :=
  [.incl true b!"stdbool.h", .incl false b!"ccn/dynamic_core.h", .incl false b!"ccn/phase_driver.h", .incl false b!"ccngen/ast.h",
    .incl false b!"palm/ctinfo.h", .text [] (.tag b!"ccn_nodetype" :: words [b!"node_st", b!"bool", b!"true", b!"false", b!"size_t",
      b!"CCNgetCurrentActionId", b!"TRAVchildren", b!"CTI", b!"CTI_ERROR", b!"NULL"])]

/-- `equation.h`. -/
def equationH (A : Parse.Ast) : List Item := .once :: (withEqs A.nodes).map includeOf

/-- `visit.h`. -/
def visitH (v : Words) : List Item :=
  [.once, .incl false b!"ccngen/ccn_defs.h", .incl false b!"ccn/ccn_types.h", .incl false b!"ccngen/enum.h", .incl false b!"ccngen/ast.h",
    .ifUnsafe b!"user_types.h", .text [] (words [b!"node_st"] ++ (v.nodes ++ v.sets))]

/-- `visit.c`. -/
def visitC (v : Words) : List Item :=
  [.incl false b!"ccngen/equation.h", .incl false b!"ccngen/visit.h", .incl false b!"palm/dbug.h",
    .text [] (words [b!"node_st", b!"NULL", b!"true", b!"false", b!"DBUG_ASSERT"] ++ (v.nodes ++ v.sets))]

/-- `ag.h`. -/
def agH : List Item := [.once, .incl false b!"ccn/ccn_types.h", .text [] (words [b!"node_st"])]

/-- `ag.c`. -/
def agC : List Item :=
  [.incl false b!"ccn/phase_driver.h", .incl false b!"ccngen/ast.h", .incl false b!"ccngen/ag.h", .incl false b!"ccngen/enum.h",
    .incl false b!"ccngen/visit.h", .incl false b!"palm/ctinfo.h",
    .text [] (words [b!"node_st", b!"CTI", b!"CTI_ERROR", b!"CTIabortCompilation", b!"true"])]

/-- `user/passes.c`. -/
def passesC (A : Parse.Ast) : List Item :=
  .incl false b!"ccn/ccn.h" :: .incl false b!"ccngen/ast.h" :: A.passes.map fun _ => .text [] (words [b!"node_st"])

/-- `trav.c`. -/
def travC : List Item :=
  [.incl true b!"stdbool.h", .incl false b!"palm/dbug.h", .incl false b!"ccn/ccn.h", .incl false b!"ccngen/ast.h",
    .text [] (words [b!"node_st", b!"TRAVopt", b!"DBUG_ASSERT", b!"false"])]

/-- `trav.h`. -/
def travH : List Item := [.once, .incl false b!"ast.h", .text [] (words [b!"node_st"])]

/-- `action_handling.h`. -/
def actionH : List Item := [.once, .text [.tag b!"ccn_action_id"] []]

/-- `action_handling.c`. -/
def actionC (A : Parse.Ast) : List Item :=
  [.incl true b!"stddef.h", .incl false b!"ccn/action_types.h", .incl false b!"ccngen/action_handling.h",
    .incl false b!"ccngen/enum.h", .incl false b!"ccngen/ast.h", .incl false b!"ccngen/gate.h", .incl false b!"ccn/phase_driver.h",
    .text [] (.tag b!"ccn_action_id" :: (words [b!"ccn_action", b!"NULL"] ++ words (gates A)))]

/-- `gate.h`. -/
def gateH (A : Parse.Ast) : List Item := .once :: (gates A).map fun g => .text (words [g]) (words [b!"bool"])

/-- `ccn_defs.h`. -/
def defsH (u : Bool) : List Item := .once :: (match u with
  | true => [.text [.define b!"CCN_USES_UNSAFE"] []]
  | false => [])

/-! ### Files -/

/-- The files for the tree, without those for nodes and traversals. -/
def first (A : Parse.Ast) (v : Words) : List Block :=
  [(b!"ccngen/ast.h", astH v), (b!"ast.c", astC v), (b!"ccngen/enum.h", enumH A), (b!"ccngen/trav_data.h", travDataH v),
    (b!"trav_data.c", travDataC), (b!"vtables.c", vtablesC), (b!"ccngen/actions.h", actionsH), (b!"ccn_copy.c", copyC), (b!"ccn_free.c", freeC),
    (b!"ccn_check.c", checkC), (b!"ccngen/equation.h", equationH A)]

/-- The files for visits and passes. -/
def second (A : Parse.Ast) (v : Words) : List Block :=
  [(b!"ccngen/visit.h", visitH v), (b!"visit.c", visitC v), (b!"ccngen/ag.h", agH), (b!"ag.c", agC), (b!"user/passes.c", passesC A)]

/-- The last files. -/
def third (A : Parse.Ast) (u : Bool) : List Block :=
  [(b!"trav.c", travC), (b!"ccngen/trav.h", travH), (b!"ccngen/action_handling.h", actionH), (b!"action_handling.c", actionC A),
    (b!"ccngen/gate.h", gateH A), (b!"ast.dot", []), (b!"ccngen/ccn_defs.h", defsH u)]

/-- All files. -/
def blocks (A : Parse.Ast) (v : Words) (u : Bool) (hs ts : List Block) : List Block :=
  first A v ++ (hs ++ (second A v ++ (A.traversals.map (fun x => (travOf x, travLines)) ++ (ts ++ third A u))))

section
variable {A : Parse.Ast} {o : Out}

/-- What is known of the files. -/
structure Written (A : Parse.Ast) (v : Words) (u : Bool) (hs ts : List Block) : Prop where
  keysH : hs.map (·.1) = (withEqs A.nodes).map headerOf
  keysT : ts.map (·.1) = (withEqs A.nodes).map templateOf
  headers : ∀ b ∈ hs, IsHeader A b
  templates : ∀ b ∈ ts, IsTemplate A b
  user : u = true → ∃ x, UserType A x

/-- The words of types are those of the description. -/
structure Good (A : Parse.Ast) (v : Words) (u : Bool) : Prop where
  seen : UserSeen A → u = true
  nodes : SetTypesSeen A → ∀ x ∈ v.nodes, TypeWord A (u = true) x
  sets : SetTypesSeen A → ∀ x ∈ v.sets, TypeWord A (u = true) x
  ctors : SetTypesSeen A → EnumsAsDeclared A → ∀ x ∈ v.ctors, TypeWord A (u = true) x
  fields : ∀ x ∈ v.fields, TypeWord A (u = true) x

theorem static_of {backend : CStr} (h : backendIsDynamic backend = .ok true) : backendIsStatic backend = false := by
  unfold backendIsStatic
  cases hs : STReq (some b!"static") (some backend) with
  | false => rfl
  | true =>
    have : backend = b!"static" := by
      simp only [STReq] at hs
      exact (by simpa [strcmpEq] using hs : _ = backend).symm
    subst this
    revert h
    decide

theorem start_ok {addr : Loc → Nat} {fuel : Nat} (ha : Spec.Semantic.Apart addr) (hp : TypesNamed A) (he : Spec.Semantic.Earlier A)
    (hu : UsersNamed A) (h : checks addr fuel A = .ok o) (h0 : o.errors = 0) {backend : CStr} (hb : backendIsDynamic backend = .ok true) :
    ∃ v u hs ts, startPhase backend A o = .ok (unblock (blocks A v u hs ts)) ∧ Written A v u hs ts ∧ Good A v u := by
  have kn := Described.known_of ha hp he h h0
  have w := (checks_facts ha hp he h).2 h0
  have h' := h
  unfold checks at h'
  obtain ⟨tab, hbt, h'⟩ := Res.bind_eq_ok.1 h'
  obtain ⟨q, hc, _⟩ := Res.bind_eq_ok.1 h'
  have hb2 := kn.facts.right.bst
  rw [hbt] at hb2
  cases hb2
  obtain ⟨_, hf, _⟩ := exist_ok hp hbt hc
  obtain ⟨ws, g1, g2, g3, g4, g5, g6⟩ := TravData.rows_gen (TravData.zip_travs kn.facts.right hp hu.data hf)
  have hgen : TravData.generate (TravData.inputOf A o.tab q.prog) = .ok (TravData.codeOf ws) := by
    unfold TravData.generate
    rw [g3, g4, g5, g6]
    rfl
  have seen : UserSeen A → usesUnsafe (nodeProg A o) (TravData.codeOf ws) = true := unsafe_of kn g1 g2
  obtain ⟨w1, a1, b1⟩ := nodes_words (o := o) (node_attrs kn hu seen)
  obtain ⟨w2, a2, b2⟩ := ctors_words (node_params kn hu seen)
  obtain ⟨w3, a3, b3⟩ := sets_words (o := o) (set_attrs kn hu seen)
  obtain ⟨hs, c1, c2, c3⟩ := eq_headers w kn hu zipped
  obtain ⟨ts, d1, d2, d3⟩ := templates w kn hu zipped
  rw [zip_fst] at c2 d2
  refine ⟨⟨w1, w2, w3, fieldsWords (TravData.codeOf ws).structs⟩, usesUnsafe (nodeProg A o) (TravData.codeOf ws), hs, ts, ?_,
    ⟨c2, d2, c3, d3, unsafe_user kn hu g1 g2⟩,
    ⟨seen, fun hs x hx => (b1 x hx).mono fun h => h hs, fun hs x hx => (b3 x hx).mono fun h => h hs,
      fun hs hd x hx => (b2 hd x hx).mono fun h => h hs, fields_words seen g1 g2⟩⟩
  unfold startPhase
  simp only [hc, hgen, hb, static_of hb, Res.bind_ok, Bool.true_and]
  unfold dynamicBackend dynamicGenAst dynamicGenVisits visitHeader visitSource DGNSast DGIFast DGNAFast DGNSAFast DGNCast
  simp only [a1, a2, a3, c1, d1, Res.bind_ok]
  congr 1
  rw [trav_files, equation_header zipped, zip_fst]
  simp only [blocks, unblock_append]
  cases usesUnsafe (nodeProg A o) (TravData.codeOf ws) <;>
  simp [first, second, third, unblock, dynamic_start_ast_header, dynamicGenBaseNode, dynamicSwitchToAstSource, dynamicGenBaseNodeInit, DGNAFEast,
    DGNSAFEast, enumHeader, dynamicGenTravData, tables, DGAHast, DGCTast, DGFTast, DGCHTast, agFiles, DUGPast, DGT_Fast, phaseDriver, GDast,
    genDefines, GNopenIncludeFile, GNopenSourceFile, GNopenUserFile, astH, astC, enumH, enumDecls, travDataH, travDataC, vtablesC, actionsH,
    copyC, freeC, checkC, equationH, visitH, visitC, agH, agC, passesC, travC, travH, actionH, actionC, gateH, defsH, Function.comp_def]

end

end Verif.GenFiles
