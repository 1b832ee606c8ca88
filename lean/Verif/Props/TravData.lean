import Verif.Lemmas.TravDataRun
import Verif.Lemmas.Compiled
import Verif.Props.Tables
import Verif.Props.Compiled
import Verif.Props.Described

/-!
# Property theorems C71: the data of traversals

The theorems quantify over all descriptions that the phase `semantic` accepts, over all functions of the user and all ways to run them, and
over all states of the traversal core.
-/

namespace Verif.Props
open Verif.Str Verif.Ids Verif.Semantic Verif.TravData
open Verif.Spec.Str (lowerB upperB SameName)
open Verif.Spec.Semantic (NodeAttr SetAttr TypesNamed Earlier Pairs)
open Verif.Spec.TravData (FieldAs TypeAs Empty UserNamed withData tag getter initName finiName initsOf freesOf)
open Verif.Trav (Addr Ptr Val St Env upd)

theorem trav_rows {addr : Loc → Nat} {A : Parse.Ast} (ha : Spec.Semantic.Apart addr) (hp : TypesNamed A) (he : Earlier A) (hu : UserNamed A)
    {fuel : Nat} {o : Out} (h : checks addr fuel A = .ok o) (h0 : o.errors = 0) {c : Code} (hc : travData A o = .ok c) :
    ∃ ws : List Row, ws.map (·.t) = withData A ∧ (∀ w ∈ ws, RowOk A w) ∧ c = codeOf ws := by
  obtain ⟨ws, h1, h2, h3⟩ := rows_of ha hp he hu h h0
  rw [h3] at hc
  exact ⟨ws, h1, h2, compile_same hc⟩

theorem trav_distinct {addr : Loc → Nat} {A : Parse.Ast} (ha : Spec.Semantic.Apart addr) (hp : TypesNamed A) (he : Earlier A)
    {fuel : Nat} {o : Out} (h : checks addr fuel A = .ok o) (h0 : o.errors = 0) {t : Parse.Traversal} (ht : t ∈ withData A) :
    (t.data.map (·.name.orig)).Pairwise (· ≠ ·) :=
  data_distinct (Described.known_of ha hp he h h0).facts.right (List.mem_filter.1 ht).1

/-- C71: there is a structure for each traversal with data, and no other, with the name of the documentation, and a field for each datum of
the description, with its name and the type of the description, in the order of the tree (which is the reverse of that of the file). -/
theorem C71_structs (addr : Loc → Nat) (A : Parse.Ast) (ha : Spec.Semantic.Apart addr) (hp : TypesNamed A) (he : Earlier A) (hu : UserNamed A)
    (fuel : Nat) (o : Out) (h : checks addr fuel A = .ok o) (h0 : o.errors = 0) (c : Code) (hc : travData A o = .ok c) :
    Pairs (fun t s => s.tag = tag t ∧ Pairs (FieldAs A) t.data s.fields) (withData A) c.structs := by
  obtain ⟨ws, h1, h2, rfl⟩ := trav_rows ha hp he hu h h0 hc
  rw [← h1]
  exact pairs_map fun w hw => ⟨rfl, (h2 w hw).fields⟩

/-- C71: `trav_data.h` compiles exactly if there is no name twice, and none that C does not take.  Missing: other descriptions, which are
accepted, though the claim is false there (`C71_word_false`, `C71_tag_false`, `C71_union_false`, `C71_macro_false`). -/
theorem C71_compiles_partial (addr : Loc → Nat) (A : Parse.Ast) (ha : Spec.Semantic.Apart addr) (hp : TypesNamed A) (he : Earlier A)
    (hu : UserNamed A) (fuel : Nat) (o : Out) (h : checks addr fuel A = .ok o) (h0 : o.errors = 0) :
    (∃ c, travData A o = .ok c) ↔ Spec.TravData.Clear A := by
  obtain ⟨ws, h1, h2, h3⟩ := rows_of ha hp he hu h h0
  rw [h3]
  exact compile_iff (Described.known_of ha hp he h h0) h1 h2

/-- C71: with what is generated, the traversal core behaves as the one of C15 and C16, for tables that follow from the description: each datum
starts with the value for nothing, and the functions are those that the documentation asks the user for.  Missing: descriptions for which
`trav_data.h` does not compile (see `C71_compiles_partial`). -/
theorem C71_core_partial (addr : Loc → Nat) (A : Parse.Ast) (ha : Spec.Semantic.Apart addr) (hp : TypesNamed A) (he : Earlier A) (hu : UserNamed A)
    (fuel : Nat) (o : Out) (h : checks addr fuel A = .ok o) (h0 : o.errors = 0) (c : Code) (hc : travData A o = .ok c) :
    ∃ vals : Parse.Traversal → List Val, (∀ t ∈ withData A, Pairs (Empty A) t.data (vals t)) ∧
    ∀ (E : Env) (R : Trav.Prog → St → Res (Ptr × St)) (user : CStr → Option Trav.Prog) (init fini : Parse.Traversal → Trav.Prog),
      (∀ t ∈ withData A, user (initName t) = some (init t) ∧ user (finiName t) = some (fini t)) →
      E.initTable = initsOf A vals init → E.freeTable = freesOf A fini →
      (∀ ty s, TRAVpush E R c user (Tables.DGTDTast true (Compiled.declsOf A)) ty s = Trav.TRAVpush E R ty s) ∧
      ∀ s, TRAVpop E R c user (Tables.DGTDTast false (Compiled.declsOf A)) s = Trav.TRAVpop E R s := by
  obtain ⟨ws, h1, h2, rfl⟩ := trav_rows ha hp he hu h h0 hc
  have df := different (Described.known_of ha hp he h h0).facts.right
  refine ⟨valsOf ws, fun t ht => ?_, fun E R user pI pF hus hi hf => ⟨fun ty s => ?_, fun s => ?_⟩⟩
  · obtain ⟨w, w1, rfl, w3⟩ := vals_row h1 ht
    rw [w3]
    exact (h2 w w1).rhs
  · rw [core_push (fun ht => trav_distinct ha hp he h h0 ht) h1 df h2 E E.freeTable R user pI (fun t ht => (hus t ht).1) ty s, ← hi]
  · rw [core_pop h1 df E E.initTable R user pF (fun t ht => (hus t ht).2) s, ← hf]

/-- The name of the enumerator of a traversal, with its number. -/
def TravNumber (A : Parse.Ast) (t : Parse.Traversal) (i : Nat) : Prop :=
  Tables.value (Tables.DGEast (Compiled.declsOf A)).trav ("TRAV_".toUTF8.toList ++ t.uid.orig.map upperB) = some i

theorem number_entry {tab : List (Ste Decl)} {A : Parse.Ast} (hr : Right A tab) (hf : Spec.Compiled.Free A) {t : Parse.Traversal}
    (ht : t ∈ A.traversals) : ∃ i, TravNumber A t i ∧ ∀ init, (Tables.DGTDTast init (Compiled.declsOf A))[i]? =
      some (if t.data = [] then Tables.Fun.dataNop else .named (Tables.sData init ++ t.name.orig)) := by
  have hm : ⟨idOf t.name, idOf t.uid, t.index, !t.data.isEmpty⟩ ∈ (Compiled.declsOf A).travs :=
    List.mem_map.2 ⟨t, ht, rfl⟩
  have key := fun init => (C40_data_partial (Compiled.declsOf A) (Compiled.named_of hr hf) init).1 _ hm
  obtain ⟨i, h1, h2⟩ := key true
  refine ⟨i, by rw [TravNumber, show "TRAV_".toUTF8.toList = Tables.sTRAV from by decide +kernel]; exact h1, fun init => ?_⟩
  obtain ⟨j, h3, h4⟩ := key init
  rw [h1] at h3
  cases h3
  rw [h4]
  cases t.data <;> simp [idOf]

/-- The state when `TRAVpush` has put the traversal at `a` on the stack, before anything is done for its data. -/
def pushed (s : St) (a : Addr) (i : Nat) : St :=
  { s with frames := upd s.frames a (some ⟨s.cur, i, none⟩), cur := some a, trace := s.trace ++ [.init a i] }

/-- C71: at the start of a traversal with data there is a new block for it, with the value for nothing in each datum, and then the function of
the user for this traversal is called.  Missing: names that the generated code needs for itself (see C66). -/
theorem C71_push_partial (addr : Loc → Nat) (A : Parse.Ast) (ha : Spec.Semantic.Apart addr) (hp : TypesNamed A) (he : Earlier A) (hu : UserNamed A)
    (fuel : Nat) (o : Out) (h : checks addr fuel A = .ok o) (h0 : o.errors = 0) (c : Code) (hc : travData A o = .ok c)
    (hf : Spec.Compiled.Free A) (t : Parse.Traversal) (ht : t ∈ A.traversals) :
    ∃ i, TravNumber A t i ∧ ∀ (E : Env) (R : Trav.Prog → St → Res (Ptr × St)) (user : CStr → Option Trav.Prog) (s : St) (a : Addr),
      E.newFrame s = some a →
      (t.data = [] → TRAVpush E R c user (Tables.DGTDTast true (Compiled.declsOf A)) i s = .ok (pushed s a i)) ∧
      (t.data ≠ [] → ∃ vs, Pairs (Empty A) t.data vs ∧ ∀ (p : Trav.Prog) (d : Addr), user (initName t) = some p →
        E.newData (pushed s a i) = some d →
        TRAVpush E R c user (Tables.DGTDTast true (Compiled.declsOf A)) i s =
          (R p { pushed s a i with
            frames := upd (pushed s a i).frames a (some ⟨s.cur, i, some d⟩)
            dmem := upd (pushed s a i).dmem d (some vs) }).bind fun r => .ok r.2) := by
  obtain ⟨ws, h1, h2, rfl⟩ := trav_rows ha hp he hu h h0 hc
  have kn := Described.known_of ha hp he h h0
  have df := different kn.facts.right
  obtain ⟨i, e1, e2⟩ := number_entry kn.facts.right hf ht
  refine ⟨i, e1, fun E R user s a hn => ⟨fun hd => ?_, fun hd => ?_⟩⟩
  · unfold TRAVpush
    rw [hn]
    simp only [e2, hd, if_true]
    rfl
  · have hm : t ∈ withData A := by simp [withData, ht, hd]
    obtain ⟨w, w1, rfl, w3⟩ := vals_row h1 hm
    refine ⟨_, (h2 w w1).rhs, fun p d hpu hdn => ?_⟩
    unfold TRAVpush
    rw [hn]
    simp only [e2, hd, if_false]
    rw [init_run (fun ht => trav_distinct ha hp he h h0 ht) h1 df w1 (h2 w w1) E R user p hpu]
    unfold Trav.TRAVdataInit
    simp only [pushed] at hdn
    simp only [pushed, upd, if_true, hdn]
    rfl

/-- C71: at the end of a traversal with data the function of the user for this traversal is called, then the block with its data, and the block
of the traversal, are released, and nothing else is; the traversal before is the current one again.  Missing: names that the generated code
needs for itself (see C66). -/
theorem C71_pop_partial (addr : Loc → Nat) (A : Parse.Ast) (ha : Spec.Semantic.Apart addr) (hp : TypesNamed A) (he : Earlier A) (hu : UserNamed A)
    (fuel : Nat) (o : Out) (h : checks addr fuel A = .ok o) (h0 : o.errors = 0) (c : Code) (hc : travData A o = .ok c)
    (hf : Spec.Compiled.Free A) (t : Parse.Traversal) (ht : t ∈ A.traversals) :
    ∃ i, TravNumber A t i ∧ ∀ (E : Env) (R : Trav.Prog → St → Res (Ptr × St)) (user : CStr → Option Trav.Prog) (s : St) (a : Addr) (fr : Trav.Frame),
      s.cur = some a → s.frames a = some fr → fr.ty = i →
      (t.data = [] → TRAVpop E R c user (Tables.DGTDTast false (Compiled.declsOf A)) s =
        .ok { s with frames := upd s.frames a none, cur := fr.prev, trace := s.trace ++ [.fini a i] }) ∧
      (t.data ≠ [] → ∀ (p : Trav.Prog) (x : Ptr) (s' : St) (fr' : Trav.Frame) (d : Addr) (vs : List Val), user (finiName t) = some p →
        R p s = .ok (x, s') → s'.cur = some a → s'.frames a = some fr' → fr'.data = some d → s'.dmem d = some vs →
        TRAVpop E R c user (Tables.DGTDTast false (Compiled.declsOf A)) s = .ok { s' with
          dmem := upd s'.dmem d none, frames := upd s'.frames a none, cur := fr.prev, trace := s'.trace ++ [.fini a i] }) := by
  obtain ⟨ws, h1, h2, rfl⟩ := trav_rows ha hp he hu h h0 hc
  have kn := Described.known_of ha hp he h h0
  have df := different kn.facts.right
  obtain ⟨i, e1, e2⟩ := number_entry kn.facts.right hf ht
  refine ⟨i, e1, fun E R user s a fr c1 c2 c3 => ⟨fun hd => ?_, fun hd p x s' fr' d vs hpu hR d1 d2 d3 d4 => ?_⟩⟩
  · unfold TRAVpop
    simp only [c1, c2, c3, e2, hd, if_true]
    simp only [callEntry, Res.bind_ok, c1, c2]
  · have hm : t ∈ withData A := by simp [withData, ht, hd]
    obtain ⟨w, w1, rfl, w3⟩ := vals_row h1 hm
    unfold TRAVpop
    simp only [c1, c2, c3, e2, hd, if_false]
    rw [fini_run h1 df w1 E R user p hpu]
    unfold Trav.TRAVdataFree
    simp only [hR, Res.bind_ok, d2, d3, d4, d1]

/-- C71: while a traversal with data is the current one, its macro gives its data, as a pointer to its structure: the fields are the data of
the description. -/
theorem C71_get (addr : Loc → Nat) (A : Parse.Ast) (ha : Spec.Semantic.Apart addr) (hp : TypesNamed A) (he : Earlier A) (hu : UserNamed A)
    (fuel : Nat) (o : Out) (h : checks addr fuel A = .ok o) (h0 : o.errors = 0) (c : Code) (hc : travData A o = .ok c)
    (t : Parse.Traversal) (ht : t ∈ A.traversals) (hd : t.data ≠ []) (s : St) (a : Addr) (fr : Trav.Frame) (h1 : s.cur = some a)
    (h2 : s.frames a = some fr) : getData c (getter t) s = .ok (t.data.map (·.name.orig), fr.data) := by
  obtain ⟨ws, w1, w2, rfl⟩ := trav_rows ha hp he hu h h0 hc
  have hm : t ∈ withData A := by simp [withData, ht, hd]
  obtain ⟨w, h3, rfl, _⟩ := vals_row w1 hm
  exact get_run w1 (different (Described.known_of ha hp he h h0).facts.right) h3 (w2 w h3) s a fr h1 h2

/-! ## Examples -/

/-- A description that is accepted, for which the generators of traversal data give something. -/
def Data (f : List Spec.Syntax.Entry) (P : Res Code → Prop) : Prop :=
  TypesNamed (ast f) ∧ Earlier (ast f) ∧ UserNamed (ast f) ∧ ∃ o, checks sampleAddr 60 (ast f) = .ok o ∧ o.errors = 0 ∧ P (travData (ast f) o)

theorem data_of {f : List Spec.Syntax.Entry} {P : Res Code → Prop} {p : Res Code → Bool} (hp : ∀ x, p x = true → P x)
    (h1 : (plainAst (ast f) && flatSets (ast f) && (ast f).traversals.all fun t => t.data.all fun d => d.type != .user || d.ref.isSome) = true)
    (h2 : (match checks sampleAddr 60 (ast f) with
      | .ok o => o.errors == 0 && p (travData (ast f) o)
      | _ => false) = true) : Data f P := by
  simp only [Bool.and_eq_true] at h1
  refine ⟨named_of_plain h1.1.1, earlier_of_flat h1.1.2, ?_, ?_⟩
  · intro t ht d hd e
    have := h1.2
    simp only [List.all_eq_true, Bool.or_eq_true, bne_iff_ne, ne_eq] at this
    exact (this t ht d hd).resolve_left (· e)
  split at h2
  · rename_i o ho
    simp only [Bool.and_eq_true, beq_iff_eq] at h2
    exact ⟨o, ho, h2.1, hp _ h2.2⟩
  · cases h2

/-- `traversal <name> { uid = <uid>, travdata { <data> } }` -/
def dataTrav (name uid : String) (data : List Spec.Syntax.Datum) : Spec.Syntax.Action := .traversal ⟨nm name 0, none, nm uid 0, none, data⟩

/-- `small`, with `enum <kind> { prefix = K, values { a } }` -/
def dataFile (leaf kind : String) (as : Spec.Syntax.Actions) : List Spec.Syntax.Entry :=
  small leaf as ++ [.enum ⟨nm kind 0, none, nm "K" 0, [nm "a" 0]⟩]

/-- A traversal with data of five kinds, and one without. -/
def richFile : List Spec.Syntax.Entry :=
  dataFile "Var" "Kind" (.cons (dataTrav "Rename" "RN" [⟨.prim .int, nm "depth" 0⟩, ⟨.prim .string, nm "last" 0⟩, ⟨.named (nm "var" 0), nm "Decl" 0⟩,
    ⟨.named (nm "kind" 0), nm "k" 0⟩, ⟨.user (nm "fileptr" 0), nm "out" 0⟩]) (.one (dataTrav "Other" "OT" [])))

/-- What is generated for it: the types with the names of the description. -/
example : Spec.Semantic.Apart sampleAddr ∧ Spec.Compiled.Free (ast richFile) ∧ (withData (ast richFile)).map (·.name.orig) = [Lex.bytes "Rename"] ∧
    Data richFile fun r => ∃ c, r = .ok c ∧ c.structs = [⟨Lex.bytes "data_rn", [(.named (Lex.bytes "fileptr"), Lex.bytes "out"), (.enum (Lex.bytes "Kind"), Lex.bytes "k"), (.nodePtr, Lex.bytes "Decl"),
          (.basic .string, Lex.bytes "last"), (.basic .int, Lex.bytes "depth")]⟩] ∧
      c.getters = [⟨Lex.bytes "DATA_RN_GET", Lex.bytes "rename"⟩] := by
  refine ⟨sampleAddr_apart, free_of (by unfold Spec.Compiled.Null; decide +kernel), by decide +kernel,
    data_of (p := fun r => match r with
      | .ok c => c.structs == [⟨Lex.bytes "data_rn", [(.named (Lex.bytes "fileptr"), Lex.bytes "out"), (.enum (Lex.bytes "Kind"), Lex.bytes "k"), (.nodePtr, Lex.bytes "Decl"),
          (.basic .string, Lex.bytes "last"), (.basic .int, Lex.bytes "depth")]⟩] &&
        c.getters == [⟨Lex.bytes "DATA_RN_GET", Lex.bytes "rename"⟩]
      | _ => false) ?_ (by decide +kernel) (by decide +kernel)⟩
  intro r hr
  cases r with
  | ok c =>
    simp only [Bool.and_eq_true, beq_iff_eq] at hr
    exact ⟨c, rfl, hr⟩
  | ub w => cases hr
  | abort w => cases hr
  | diverge => cases hr

/-- It is among those that compile. -/
example : Spec.TravData.Clear (ast richFile) := by
  obtain ⟨h1, h2, h3, o, h4, h5, h6⟩ := data_of (f := richFile) (P := fun r => ∃ c, r = .ok c) (p := fun r => match r with
    | .ok _ => true
    | _ => false) (by
      intro r hr
      cases r with
      | ok c => exact ⟨c, rfl⟩
      | ub w => cases hr
      | abort w => cases hr
      | diverge => cases hr) (by decide +kernel) (by decide +kernel)
  exact (C71_compiles_partial sampleAddr _ sampleAddr_apart h1 h2 h3 60 o h4 h5).1 h6

/-- States that meet the conditions of the theorems: a start and an end of the traversal, with functions of the user that return. -/
example : (∃ s : St, ∃ a d, tEnv.newFrame s = some a ∧ tEnv.newData (pushed s a 1) = some d) ∧
    ∃ (s : St) (a d : Addr) (fr : Trav.Frame) (vs : List Val), s.cur = some a ∧ s.frames a = some fr ∧ fr.ty = 1 ∧ fr.data = some d ∧ s.dmem d = some vs ∧
      Trav.runProg (fun _ _ => .diverge) (.ret none) s = .ok (none, s) := by
  refine ⟨⟨tSt, ?_⟩, ⟨⟨tMem, fun a => if a = 5 then some ⟨none, 1, some 6⟩ else none, fun a => if a = 6 then some [.word 0] else none, some 5, []⟩,
    5, 6, ⟨none, 1, some 6⟩, [.word 0], rfl, by simp, rfl, rfl, by simp, rfl⟩⟩
  exact ⟨_, _, rfl, rfl⟩

/-! ## Where the claim is false -/

/-- C71 is false for a traversal called like a word of C, apart from capital letters: the member of the union has the name in lower case. -/
theorem C71_word_false : Data (dataFile "Var" "Kind" (.one (dataTrav "Switch" "SW" [⟨.prim .int, nm "depth" 0⟩]))) (· = .abort "member") :=
  data_of (p := fun r => endsWith r "member") (fun _ h => endsWith_eq h) (by decide +kernel) (by decide +kernel)

/-- C71 is false for an enumeration called like the structure of a traversal. -/
theorem C71_tag_false : Data (dataFile "Var" "data_rn" (.one (rename "RN"))) (· = .abort "redefinition of tag") :=
  data_of (p := fun r => endsWith r "redefinition of tag") (fun _ h => endsWith_eq h) (by decide +kernel) (by decide +kernel)

/-- C71 is false for an enumeration called like the union, even if no traversal has data. -/
theorem C71_union_false : Data (dataFile "Var" "TRAV_DATA" (.one (dataTrav "Other" "OT" []))) (· = .abort "redefinition of tag") :=
  data_of (p := fun r => endsWith r "redefinition of tag") (fun _ h => endsWith_eq h) (by decide +kernel) (by decide +kernel)

/-- C71 is false for a node `Data` with a child `RN_Get`: the macro of the child has the name of the macro of the traversal. -/
theorem C71_macro_false : Data [.phase (.mk true false (nm "All" 0) none none none (.one (rename "RN"))),
    .node ⟨true, nm "Data" 0, [⟨nm "Var" 0, nm "RN_Get" 0, none⟩], [], [], [], false⟩, .node ⟨false, nm "Var" 0, [], [], [], [], false⟩]
    (· = .abort "macro redefined") :=
  data_of (p := fun r => endsWith r "macro redefined") (fun _ h => endsWith_eq h) (by decide +kernel) (by decide +kernel)

end Verif.Props
