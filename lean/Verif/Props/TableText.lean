import Verif.Lemmas.TableText
import Verif.Props.EnumHeader
import Verif.Props.Targets
import Verif.Props.Templates

/-!
# Property theorems C77: the text of `enum.h` and `vtables.c`

The theorems quantify over all descriptions that the phase `semantic` accepts.
-/

namespace Verif.Props
open Verif.Str Verif.Ids Verif.Tables
open Verif.Semantic hiding declsOf
open Verif.TableText hiding DGEast DGTVast
open Verif.Compiled (declsOf)
open Verif.Spec.TableText
open Verif.Spec.Str (lowerB upperB SameName)
open Verif.Spec.Semantic (TypesNamed Earlier)
open Verif.Spec.Targets (Target handler Aimed Numbered)
open Verif.Spec.Compiled (passFunction Free)
open Verif.Spec.Templates (Tok keywords inWord)

section
variable {A : Parse.Ast}

/-! ### Enumerations -/

theorem trav_fields (a : Decls) : (DGEast a).trav = (sTRAV ++ sNULL) :: ((a.travs.map fun t => sTRAV ++ t.iprefix.upr) ++
    [sTRAV ++ sFree, sTRAV ++ sCheck, sTRAV ++ sCpy, 95 :: sTRAV ++ sSIZE]) := by
  rw [DGEast]
  simp only []
  rw [enum_trav, itraversal_map]

theorem node_fields (a : Decls) : (DGEast a).node = (sNT ++ sNULL) :: ((a.nodes.map fun t => sNT ++ t.upr) ++ [95 :: sNT ++ sSIZE]) := by
  rw [DGEast]
  simp only []
  rw [enum_other (by decide), inode_map]

theorem nodeset_fields (a : Decls) : (DGEast a).nodeset = (sNS ++ sNULL) :: ((a.nodesets.map fun t => sNS ++ t.upr) ++ [95 :: sNS ++ sSIZE]) := by
  rw [DGEast]
  simp only []
  rw [enum_other (by decide), inodeset_map]

theorem pass_fields (a : Decls) : (DGEast a).pass = (sPASS ++ sNULL) :: ((a.passes.map fun t => sPASS ++ t.name.upr) ++ [95 :: sPASS ++ sSIZE]) := by
  rw [DGEast]
  simp only []
  rw [enum_other (by decide), ipass_map]

theorem enums_eq (A : Parse.Ast) : (EnumHeader.header A).map (fun h => Ext.enum h.1 h.2) = enums A := by
  rw [EnumHeader.header, EnumHeader.user_eq, List.map_append, List.map_map, enums, trav_fields, node_fields, nodeset_fields, pass_fields]
  simp only [declsOf, List.map_map, Function.comp_def, List.map_cons, List.map_nil, List.cons_append, List.nil_append]
  rfl

/-- C77: `enum.h` of a description is read as its enumerations.  Missing: names that are no identifiers or words of C, which the scanner excludes (C60). -/
theorem C77_enums_partial (hw : Wordy A) : Spec.TableText.read (enumText A) = some (.directive b!"pragma once" :: enums A) := by
  rw [read_of (says_enumText hw), enumExts, enums_eq]

theorem enumerator_of {tag f : CStr} {fs : List CStr} {i : Nat} (h : Ext.enum tag fs ∈ enums A) (hf : fs[i]? = some f) :
    Enumerator (.directive b!"pragma once" :: enums A) f i := ⟨tag, fs, List.mem_cons_of_mem _ h, hf⟩

theorem at_node {k : Nat} {n : Parse.Node} (h : A.nodes[k]? = some n) : Enumerator (.directive b!"pragma once" :: enums A) (nodeName n) (k + 1) := by
  refine enumerator_of (.tail _ (.head _)) ?_
  rw [getElem?_mid _ _ _ _ (by rw [List.length_map]; exact (List.getElem?_eq_some_iff.1 h).1), List.getElem?_map, h]
  rfl

theorem at_trav {k : Nat} {x : Parse.Traversal} (h : A.traversals[k]? = some x) :
    Enumerator (.directive b!"pragma once" :: enums A) (travName x) (k + 1) := by
  refine enumerator_of (.tail _ (.tail _ (.head _))) ?_
  rw [getElem?_mid _ _ _ _ (by rw [List.length_map]; exact (List.getElem?_eq_some_iff.1 h).1), List.getElem?_map, h]
  rfl

theorem at_pass {k : Nat} {p : Parse.Pass} (h : A.passes[k]? = some p) : Enumerator (.directive b!"pragma once" :: enums A) (passName p) (k + 1) := by
  refine enumerator_of (.tail _ (.tail _ (.tail _ (.head _)))) ?_
  rw [getElem?_mid _ _ _ _ (by rw [List.length_map]; exact (List.getElem?_eq_some_iff.1 h).1), List.getElem?_map, h]
  rfl

theorem at_null : Enumerator (.directive b!"pragma once" :: enums A) b!"NT_NULL" 0 ∧ Enumerator (.directive b!"pragma once" :: enums A) b!"TRAV_NULL" 0 ∧
    Enumerator (.directive b!"pragma once" :: enums A) b!"PASS_NULL" 0 :=
  ⟨enumerator_of (.tail _ (.head _)) rfl, enumerator_of (.tail _ (.tail _ (.head _))) rfl, enumerator_of (.tail _ (.tail _ (.tail _ (.head _)))) rfl⟩

theorem at_own {j : Nat} {f : CStr} (h : [b!"TRAV_free", b!"TRAV_check", b!"TRAV_cpy", b!"_TRAV_SIZE"][j]? = some f) :
    Enumerator (.directive b!"pragma once" :: enums A) f (A.traversals.length + 1 + j) := by
  refine enumerator_of (.tail _ (.tail _ (.head _))) ?_
  have := getElem?_end b!"TRAV_NULL" (A.traversals.map travName) (system.map (·.1) ++ [b!"_TRAV_SIZE"]) j
  rw [List.length_map] at this
  rw [this]
  exact h

theorem at_size : Enumerator (.directive b!"pragma once" :: enums A) b!"_NT_SIZE" (A.nodes.length + 1) ∧
    Enumerator (.directive b!"pragma once" :: enums A) b!"_TRAV_SIZE" (A.traversals.length + 4) ∧
    Enumerator (.directive b!"pragma once" :: enums A) b!"_PASS_SIZE" (A.passes.length + 1) := by
  refine ⟨enumerator_of (.tail _ (.head _)) ?_, at_own (j := 3) rfl, enumerator_of (.tail _ (.tail _ (.tail _ (.head _)))) ?_⟩
  · have := getElem?_end b!"NT_NULL" (A.nodes.map nodeName) [b!"_NT_SIZE"] 0
    rw [List.length_map] at this
    exact this
  · have := getElem?_end b!"PASS_NULL" (A.passes.map passName) [b!"_PASS_SIZE"] 0
    rw [List.length_map] at this
    exact this

/-! ### Tables -/

/-- The tables of the traversals of the user, as C67 gives them. -/
structure Aims (A : Parse.Ast) (names : Nat → Id) (hs : List (List Reach.Handler)) : Prop where
  length : hs.length = A.traversals.length
  row : ∀ (j : Nat) t, A.traversals[j]? = some t → ∃ es, hs[j]? = some (.error :: es) ∧ es.length = A.nodes.length ∧
    ∀ (k : Nat) n, A.nodes[k]? = some n → ∃ f, es[k]? = some f ∧ Spec.Targets.Entry A t k n (render (idOf t.uid).upr names f)

theorem user_back {names : Nat → Id} {ts : List Trav} {hs : List (List Reach.Handler)} {x : Table} (h : x ∈ DGTVast names ts hs) :
    ∃ (j : Nat) (t : Trav) (e : List Reach.Handler), ts[j]? = some t ∧ hs[j]? = some e ∧ x = ⟨t.name.lwr ++ sVtable, e.map (render t.iprefix.upr names)⟩ := by
  induction ts generalizing hs with
  | nil => simp [Tables.DGTVast] at h
  | cons t ts ih =>
    cases hs with
    | nil => simp [Tables.DGTVast] at h
    | cons e hs =>
      rw [Tables.DGTVast] at h
      rcases List.mem_cons.1 h with rfl | h
      · exact ⟨0, t, e, rfl, rfl, rfl⟩
      · obtain ⟨j, t', e', h1, h2, h3⟩ := ih h
        exact ⟨j + 1, t', e', h1, h2, h3⟩

theorem pass_name (p : Parse.Pass) : DGHpassFuncName ⟨idOf p.name, p.uid.map idOf, p.func.map idOf⟩ = passFunction p := by
  unfold DGHpassFuncName passFunction
  cases p.func <;> cases p.uid <;> rfl

section
variable {names : Nat → Id} {hs : List (List Reach.Handler)}

/-- `vtables.c`, as it is read. -/
abbrev vOf (A : Parse.Ast) (names : Nat → Id) (hs : List (List Reach.Handler)) : List Ext :=
  tableExts (declsOf A) (DGTVast names (declsOf A).travs hs)

theorem array_mem {x : Ext} (h : x ∈ [passExt (declsOf A).passes, systemExt b!"copy" ((declsOf A).nodes.map fun n => b!"CPY" ++ n.lwr),
    systemExt b!"check" ((declsOf A).nodes.map fun n => b!"CHK" ++ n.lwr), systemExt b!"free" ((declsOf A).nodes.map fun n => b!"DEL" ++ n.lwr),
    systemExt b!"error" ((declsOf A).nodes.map fun _ => b!"TRAVerror"), travExt (declsOf A).travs,
    dataExt b!"trav_data_init_vtable" b!"TRAVdataInit" (declsOf A).travs, dataExt b!"trav_data_free_vtable" b!"TRAVdataFree" (declsOf A).travs]) :
    x ∈ (vOf A names hs) := .tail _ (.tail _ (.tail _ (List.mem_append.2 (.inr h))))

/-- The entry of the table of traversals. -/
theorem trav_holds {j : Nat} {x : Parse.Traversal} (h : A.traversals[j]? = some x) :
    Holds (vOf A names hs) (const b!"ccn_trav_ft" ++ [.sym 42]) b!"ccn_trav_vtable" (j + 1) (.name (x.name.orig.map lowerB ++ sVtable)) := by
  refine ⟨_, array_mem (.tail _ (.tail _ (.tail _ (.tail _ (.tail _ (.head _)))))), rfl, rfl, ?_⟩
  simp only []
  rw [getElem?_mid _ _ _ _ (by simpa [declsOf] using (List.getElem?_eq_some_iff.1 h).1), List.getElem?_map]
  simp only [declsOf, List.getElem?_map, h]
  rfl

theorem own_holds {j : Nat} {f : CStr} (h : [b!"ccn_free_vtable", b!"ccn_check_vtable", b!"ccn_copy_vtable"][j]? = some f) :
    Holds (vOf A names hs) (const b!"ccn_trav_ft" ++ [.sym 42]) b!"ccn_trav_vtable" (A.traversals.length + 1 + j) (.name f) := by
  refine ⟨_, array_mem (.tail _ (.tail _ (.tail _ (.tail _ (.tail _ (.head _)))))), rfl, rfl, ?_⟩
  have := getElem?_end (.name b!"ccn_error_vtable") ((declsOf A).travs.map fun t => Init.name (t.name.lwr ++ sVtable))
    ([b!"ccn_free_vtable", b!"ccn_check_vtable", b!"ccn_copy_vtable"].map Init.name) j
  rw [List.length_map, show (declsOf A).travs.length = A.traversals.length by simp [declsOf], List.getElem?_map, h] at this
  exact this

theorem data_holds {name pre : CStr} (hm : dataExt name pre (declsOf A).travs ∈ (vOf A names hs)) :
    (∀ (j : Nat) x, A.traversals[j]? = some x → Holds (vOf A names hs) (const b!"ccn_trav_data_ft") name (j + 1)
      (.name (if x.data = [] then b!"TRAVdataNOP" else pre ++ x.name.orig))) ∧
    Holds (vOf A names hs) (const b!"ccn_trav_data_ft") name 0 (.name b!"TRAVdataNOP") ∧
    ∀ j < 3, Holds (vOf A names hs) (const b!"ccn_trav_data_ft") name (A.traversals.length + 1 + j) (.name b!"TRAVdataNOP") := by
  refine ⟨fun j x h => ⟨_, hm, rfl, rfl, ?_⟩, ⟨_, hm, rfl, rfl, rfl⟩, fun j hj => ⟨_, hm, rfl, rfl, ?_⟩⟩
  · simp only [List.cons_append, List.append_assoc]
    rw [getElem?_mid _ _ _ _ (by simpa [declsOf] using (List.getElem?_eq_some_iff.1 h).1), List.getElem?_map]
    simp only [declsOf, List.getElem?_map, h, Option.map_some, dataName]
    cases x.data <;> rfl
  · simp only [List.cons_append, List.append_assoc]
    have := getElem?_end (.name b!"TRAVdataNOP") ((declsOf A).travs.map fun t => Init.name (dataName pre t))
      ([Init.name b!"TRAVdataNOP", .name b!"TRAVdataNOP"] ++ [.name b!"TRAVdataNOP"]) j
    rw [List.length_map, show (declsOf A).travs.length = A.traversals.length by simp [declsOf]] at this
    refine this.trans ?_
    match j, hj with
    | 0, _ => rfl
    | 1, _ => rfl
    | 2, _ => rfl

/-- The entries of the tables of the system. -/
theorem system_holds {name : CStr} {g : Id → CStr} (hm : systemExt name ((declsOf A).nodes.map g) ∈ (vOf A names hs)) :
    Holds (vOf A names hs) (const b!"ccn_trav_ft") (b!"ccn_" ++ (name ++ b!"_vtable")) 0 (.addr b!"TRAVerror") ∧
    ∀ (k : Nat) n, A.nodes[k]? = some n → Holds (vOf A names hs) (const b!"ccn_trav_ft") (b!"ccn_" ++ (name ++ b!"_vtable")) (k + 1) (.addr (g (idOf n.name))) := by
  refine ⟨⟨_, hm, rfl, rfl, rfl⟩, fun k n h => ⟨_, hm, rfl, rfl, ?_⟩⟩
  simp only [List.getElem?_cons_succ, declsOf, List.getElem?_map, h]
  rfl

theorem user_holds (hA : Aims A names hs) {j : Nat} {x : Parse.Traversal} (h : A.traversals[j]? = some x) :
    Holds (vOf A names hs) (const b!"ccn_trav_ft") (x.name.orig.map lowerB ++ sVtable) 0 (.addr b!"TRAVerror") ∧
    ∀ (k : Nat) n, A.nodes[k]? = some n → ∃ f, Spec.Targets.Entry A x k n f ∧
      Holds (vOf A names hs) (const b!"ccn_trav_ft") (x.name.orig.map lowerB ++ sVtable) (k + 1) (.addr (funName f)) := by
  obtain ⟨es, h1, h2, h3⟩ := hA.row j x h
  have hm : userExt ⟨x.name.orig.map lowerB ++ sVtable, (Reach.Handler.error :: es).map (render (idOf x.uid).upr names)⟩ ∈ (vOf A names hs) :=
    .tail _ (.tail _ (.tail _ (List.mem_append.2 (.inl (List.mem_map_of_mem (user_mem (t := ⟨idOf x.name, idOf x.uid, x.index, !x.data.isEmpty⟩)
      (by simp [declsOf, h]) h1))))))
  refine ⟨⟨_, hm, rfl, rfl, rfl⟩, fun k n hk => ?_⟩
  obtain ⟨f, h4, h5⟩ := h3 k n hk
  refine ⟨_, h5, _, hm, rfl, rfl, ?_⟩
  simp only [List.map_cons, List.getElem?_cons_succ, List.getElem?_map, h4]
  rfl

/-- What is called is as the description says. -/
theorem goes_of {x : Parse.Traversal} {k : Nat} {n : Parse.Node} {f : Fun} (h : Spec.Targets.Entry A x k n f) : Goes A x k n (funName f) := by
  refine ⟨fun h1 => by rw [h.user h1]; rfl, fun h1 => ?_, fun h1 h2 => by rw [h.through h1 h2]; rfl⟩
  rcases h.other h1 with h2 | h2 <;> rw [h2]
  · exact .inl rfl
  · exact .inr rfl

theorem dispatch_of (hA : Aims A names hs) : Dispatch A (Ext.directive b!"pragma once" :: enums A) (vOf A names hs) := by
  have hn0 := (at_null (A := A)).1
  have ht0 := (at_null (A := A)).2.1
  have free := system_holds (A := A) (names := names) (hs := hs) (array_mem (.tail _ (.tail _ (.tail _ (.head _)))))
  have check := system_holds (A := A) (names := names) (hs := hs) (array_mem (.tail _ (.tail _ (.head _))))
  have copy := system_holds (A := A) (names := names) (hs := hs) (array_mem (.tail _ (.head _)))
  have error := system_holds (A := A) (names := names) (hs := hs) (array_mem (.tail _ (.tail _ (.tail _ (.tail _ (.head _))))))
  have e0 : Holds (vOf A names hs) (const b!"ccn_trav_ft" ++ [.sym 42]) b!"ccn_trav_vtable" 0 (.name b!"ccn_error_vtable") :=
    ⟨_, array_mem (.tail _ (.tail _ (.tail _ (.tail _ (.tail _ (.head _)))))), rfl, rfl, rfl⟩
  refine ⟨?_, ?_, ?_, ?_, ?_, ?_, ?_, ?_⟩
  · rw [vOf, tableExts]
    simp only [directives, List.filterMap_cons, List.filterMap_append, List.filterMap_map, passExt, systemExt, travExt, dataExt, List.filterMap_nil,
      List.append_nil]
    simp [Function.comp_def, userExt]
  · intro r hr
    rw [vOf, tableExts] at hr
    simp only [List.mem_cons, reduceCtorEq, false_or, List.mem_append, List.not_mem_nil, or_false] at hr
    have s := at_size (A := A)
    rcases hr with hr | hr | hr | hr | hr | hr | hr | hr | hr
    · obtain ⟨x, hx, h1⟩ := List.mem_map.1 hr
      cases h1
      obtain ⟨j, t, e, h2, h3, rfl⟩ := user_back hx
      simp only [declsOf, List.getElem?_map, Option.map_eq_some_iff] at h2
      obtain ⟨t, h2, rfl⟩ := h2
      obtain ⟨es, h4, h5, _⟩ := hA.row j t h2
      rw [h3] at h4
      cases h4
      simpa [h5] using s.1
    all_goals
      cases hr
      first
      | simpa [declsOf] using s.1
      | simpa [declsOf] using s.2.1
      | simpa [declsOf] using s.2.2
  · intro x hx k n hk
    obtain ⟨j, hj⟩ := List.getElem?_of_mem hx
    obtain ⟨f, h1, h2⟩ := (user_holds hA hj).2 k n hk
    exact ⟨_, ⟨_, _, _, at_trav hj, at_node hk, trav_holds hj, h2⟩, goes_of h1⟩
  · intro s hs n hn
    obtain ⟨k, hk⟩ := List.getElem?_of_mem hn
    simp only [system, List.mem_cons, List.not_mem_nil, or_false] at hs
    rcases hs with rfl | rfl | rfl
    · exact ⟨_, _, _, at_own (j := 0) rfl, at_node hk, own_holds (j := 0) rfl, free.2 k n hk⟩
    · exact ⟨_, _, _, at_own (j := 1) rfl, at_node hk, own_holds (j := 1) rfl, check.2 k n hk⟩
    · exact ⟨_, _, _, at_own (j := 2) rfl, at_node hk, own_holds (j := 2) rfl, copy.2 k n hk⟩
  · rintro x (hx | hx)
    · obtain ⟨y, hy, rfl⟩ := List.mem_map.1 hx
      obtain ⟨j, hj⟩ := List.getElem?_of_mem hy
      exact ⟨_, _, _, at_trav hj, hn0, trav_holds hj, (user_holds hA hj).1⟩
    · simp only [system, List.map_cons, List.map_nil, List.mem_cons, List.not_mem_nil, or_false] at hx
      rcases hx with rfl | rfl | rfl
      · exact ⟨_, _, _, at_own (j := 0) rfl, hn0, own_holds (j := 0) rfl, free.1⟩
      · exact ⟨_, _, _, at_own (j := 1) rfl, hn0, own_holds (j := 1) rfl, check.1⟩
      · exact ⟨_, _, _, at_own (j := 2) rfl, hn0, own_holds (j := 2) rfl, copy.1⟩
  · rintro n (hn | rfl)
    · obtain ⟨m, hm, rfl⟩ := List.mem_map.1 hn
      obtain ⟨k, hk⟩ := List.getElem?_of_mem hm
      exact ⟨_, _, _, ht0, at_node hk, e0, error.2 k m hk⟩
    · exact ⟨_, _, _, ht0, hn0, e0, error.1⟩
  · intro a ha
    have key : ∀ {name pre : CStr}, dataExt name pre (declsOf A).travs ∈ (vOf A names hs) → (∀ x ∈ A.traversals, ∃ i, Enumerator (Ext.directive b!"pragma once" :: enums A) (travName x) i ∧
        Holds (vOf A names hs) (const b!"ccn_trav_data_ft") name i (.name (if x.data = [] then b!"TRAVdataNOP" else pre ++ x.name.orig))) ∧
      ∀ f ∈ b!"TRAV_NULL" :: system.map (·.1), ∃ i, Enumerator (Ext.directive b!"pragma once" :: enums A) f i ∧ Holds (vOf A names hs) (const b!"ccn_trav_data_ft") name i (.name b!"TRAVdataNOP") := by
      intro name pre hm
      obtain ⟨h1, h2, h3⟩ := data_holds (names := names) (hs := hs) hm
      refine ⟨fun x hx => ?_, fun f hf => ?_⟩
      · obtain ⟨j, hj⟩ := List.getElem?_of_mem hx
        exact ⟨_, at_trav hj, h1 j x hj⟩
      · simp only [system, List.map_cons, List.map_nil, List.mem_cons, List.not_mem_nil, or_false] at hf
        rcases hf with rfl | rfl | rfl | rfl
        · exact ⟨_, ht0, h2⟩
        · exact ⟨_, at_own (j := 0) rfl, h3 0 (by omega)⟩
        · exact ⟨_, at_own (j := 1) rfl, h3 1 (by omega)⟩
        · exact ⟨_, at_own (j := 2) rfl, h3 2 (by omega)⟩
    simp only [List.mem_cons, List.not_mem_nil, or_false] at ha
    rcases ha with rfl | rfl
    · exact key (array_mem (.tail _ (.tail _ (.tail _ (.tail _ (.tail _ (.tail _ (.head _))))))))
    · exact key (array_mem (.tail _ (.tail _ (.tail _ (.tail _ (.tail _ (.tail _ (.tail _ (.head _)))))))))
  · refine ⟨fun p hp => ?_, 0, at_null.2.2, _, array_mem (.head _), rfl, rfl, rfl⟩
    obtain ⟨k, hk⟩ := List.getElem?_of_mem hp
    refine ⟨_, at_pass hk, _, array_mem (.head _), rfl, rfl, ?_⟩
    simp only [List.getElem?_cons_succ, declsOf, List.getElem?_map, hk, Option.map_some]
    rw [pass_name]

/-- The text is read. -/
theorem vtables_read (hw : Wordy A) (hA : Aims A names hs) : Spec.TableText.read (tableText (declsOf A) (DGTVast names (declsOf A).travs hs)) = some (vOf A names hs) := by
  refine read_of (says_tables ?_ ?_ ?_ ?_)
  · intro x hx
    obtain ⟨j, t, e, h2, h3, rfl⟩ := user_back hx
    simp only [declsOf, List.getElem?_map, Option.map_eq_some_iff] at h2
    obtain ⟨t, h2, rfl⟩ := h2
    have ht := List.mem_of_getElem? h2
    obtain ⟨es, h4, h5, h6⟩ := hA.row j t h2
    rw [h3] at h4
    cases h4
    refine ⟨fine_table (hw.travs t ht), by simp, fun f hf => ?_⟩
    rcases List.mem_cons.1 hf with rfl | hf
    · trivial
    · obtain ⟨g, hg, rfl⟩ := List.mem_map.1 hf
      obtain ⟨k, hk⟩ := List.getElem?_of_mem hg
      have hlt : k < A.nodes.length := h5 ▸ (List.getElem?_eq_some_iff.1 hk).1
      obtain ⟨f, h7, h8⟩ := h6 k _ (List.getElem?_eq_getElem hlt)
      rw [hk] at h7
      cases h7
      by_cases hx : Target t A A.nodes[k]
      · have := h8.user hx
        show Shown (render (idOf t.uid).upr names g)
        rw [this]
        exact fine_uid (hw.uids t ht) (lower_all (hw.nodes _ (List.getElem_mem hlt)).2)
      · show Shown (render (idOf t.uid).upr names g)
        rcases h8.other hx with h9 | h9 <;> rw [h9] <;> trivial
  · intro p hp
    obtain ⟨q, hq, rfl⟩ := List.mem_map.1 hp
    rw [pass_name]
    exact hw.functions q hq
  · intro n hn
    obtain ⟨m, hm, rfl⟩ := List.mem_map.1 hn
    exact lower_all (hw.nodes m hm).2
  · intro t ht
    obtain ⟨x, hx, rfl⟩ := List.mem_map.1 ht
    exact ⟨fine_table (hw.travs x hx), (hw.travs x hx).2⟩

/-! ### Names of tables -/

theorem tableNames_eq (hl : hs.length = A.traversals.length) : Spec.TableText.names (vOf A names hs) =
    ((A.traversals.map fun x => x.name.orig.map lowerB) ++ [b!"ccn_pass", b!"ccn_copy", b!"ccn_check", b!"ccn_free", b!"ccn_error", b!"ccn_trav",
      b!"trav_data_init", b!"trav_data_free"]).map (· ++ sVtable) := by
  have h1 := Tables.user_names (names := names) (ts := (declsOf A).travs) (hs := hs) (by simpa [declsOf] using hl)
  rw [vOf, tableExts, List.map_append, List.map_map]
  simp only [Spec.TableText.names, List.filterMap_cons, List.filterMap_append, List.filterMap_map, passExt, systemExt, travExt, dataExt, List.filterMap_nil]
  refine congrArg (· ++ _) ?_
  show List.filterMap (some ∘ fun x : Table => x.name) _ = _
  rw [List.filterMap_eq_map, h1]
  simp only [declsOf, List.map_map]
  rfl

/-- No table is there twice if and only if no traversal is called like one. -/
theorem once_iff (hn : Spec.Tables.Named (declsOf A)) (hl : hs.length = A.traversals.length) : (Spec.TableText.names (vOf A names hs)).Nodup ↔ Spared A := by
  have h1 : (A.traversals.map fun x => x.name.orig.map lowerB).Nodup := by
    have := hn.travs
    simp only [declsOf, List.map_map, Function.comp_def] at this
    exact this
  have h2 : ∀ x ∈ A.traversals, x.name.orig.map lowerB ∉ [b!"ccn_copy", b!"ccn_check", b!"ccn_free", b!"ccn_error"] := fun x hx =>
    hn.travsOwn _ (by
      simp only [declsOf, List.map_map, Function.comp_def]
      exact List.mem_map.2 ⟨x, hx, rfl⟩)
  rw [tableNames_eq hl]
  have h3 : ∀ l : List CStr, (l.map (· ++ sVtable)).Nodup ↔ l.Nodup := fun l =>
    ⟨fun h => (List.pairwise_map.1 h).imp fun h e => h (by rw [e]), fun h => nodup_suffix h _⟩
  rw [h3, List.nodup_append]
  constructor
  · rintro ⟨_, _, h⟩ x hx y hy e
    have hy' : y.map lowerB = y ∧ y ∈ [b!"ccn_pass", b!"ccn_copy", b!"ccn_check", b!"ccn_free", b!"ccn_error", b!"ccn_trav",
      b!"trav_data_init", b!"trav_data_free"] := by
      simp only [List.mem_cons, List.not_mem_nil, or_false] at hy
      rcases hy with rfl | rfl | rfl | rfl <;> exact ⟨by decide, by decide⟩
    exact h _ (List.mem_map.2 ⟨x, hx, rfl⟩) y hy'.2 (Eq.trans e hy'.1)
  · intro h
    refine ⟨h1, by decide, ?_⟩
    rintro y hx _ hy rfl
    obtain ⟨x, hx, e⟩ := List.mem_map.1 hx
    have h4 := h x hx
    have h5 := h2 x hx
    rw [e] at h5
    have h6 : ∀ z ∈ [b!"ccn_trav", b!"ccn_pass", b!"trav_data_init", b!"trav_data_free"], y ≠ z := fun z hz e' => h4 z hz (by
      rw [SameName, e, e']
      exact (by decide : ∀ z ∈ [b!"ccn_trav", b!"ccn_pass", b!"trav_data_init", b!"trav_data_free"], z = z.map lowerB) z hz)
    simp only [List.mem_cons, List.not_mem_nil, or_false] at hy h5
    rcases hy with rfl | rfl | rfl | rfl | rfl | rfl | rfl | rfl
    · exact h6 _ (by decide) rfl
    · exact h5 (by decide)
    · exact h5 (by decide)
    · exact h5 (by decide)
    · exact h5 (by decide)
    · exact h6 _ (by decide) rfl
    · exact h6 _ (by decide) rfl
    · exact h6 _ (by decide) rfl

end

/-- C77: for an accepted description, `enum.h` and `vtables.c` are C text, and what the generated program finds in the arrays of `vtables.c` under
the enumerators of `enum.h` is what the description says: for traversals and nodes, traversals of the system, their data, and passes.  Every array
has as many values as it is declared with.  Every array is there once if and only if no traversal is called like one.

Missing: as for `C67_targets_partial`; names that are no identifiers or words of C, which the scanner excludes (C60); a traversal called like a
table (`C77_once_false`). -/
theorem C77_tables_partial {addr : Semantic.Loc → Nat} {fuel : Nat} {o : Semantic.Out} (ha : Spec.Semantic.Apart addr)
    (hp : TypesNamed A) (he : Earlier A) (h : checks addr fuel A = .ok o) (hn : Numbered A) (hf : Free A) (hm : Aimed A) (hw : Wordy A) :
    ∃ N, ∀ fuel, N ≤ fuel → ∃ text E V, vtables fuel A o.tab = .ok text ∧ Spec.TableText.read (enumText A) = some E ∧
      Spec.TableText.read text = some V ∧ Dispatch A E V ∧ ((Spec.TableText.names V).Nodup ↔ Spared A) := by
  have hr := (checks_facts ha hp he h).1.right
  have hnd := Compiled.named_of hr hf
  obtain ⟨N, hN⟩ := Targets.tables_ok hr he hn hm
  refine ⟨N, fun fuel hfu => ?_⟩
  obtain ⟨hs, h1, h2, h3⟩ := hN fuel hfu
  have hA : Aims A (Targets.nameOf A) hs := ⟨h2, h3⟩
  refine ⟨_, _, _, ?_, C77_enums_partial hw, vtables_read hw hA, dispatch_of hA, once_iff hnd h2⟩
  unfold vtables
  rw [h1, Res.bind_ok]
  have h4 : (DGTVast (Targets.nameOf A) (declsOf A).travs hs).length = A.traversals.length := by
    have := congrArg List.length (Tables.user_names (names := Targets.nameOf A) (ts := (declsOf A).travs) (hs := hs) (by simpa [declsOf] using h2))
    simpa [declsOf] using this
  rw [← h4, List.take_left]

/-- What the program calls is determined: no enumerator stands for two numbers, and no array is there twice. -/
theorem C77_unique_partial {addr : Semantic.Loc → Nat} {fuel : Nat} {o : Semantic.Out} (hp : TypesNamed A) (h : checks addr fuel A = .ok o)
    (hl : Spec.EnumHeader.Lettered A) (hc : Spec.EnumHeader.Clear A) (hw : Wordy A) :
    ∃ E, Spec.TableText.read (enumText A) = some E ∧ (∀ x i j, Enumerator E x i → Enumerator E x j → i = j) ∧
      ∀ V, (Spec.TableText.names V).Nodup → ∀ trav node f g, Calls E V trav node f → Calls E V trav node g → f = g := by
  have hacc := (C69_accepted_partial hp h hl).2 hc
  have h1 : ∀ x i j, Enumerator (.directive b!"pragma once" :: enums A) x i → Enumerator (.directive b!"pragma once" :: enums A) x j → i = j := by
    have key : ∀ x i, Enumerator (.directive b!"pragma once" :: enums A) x i → Spec.EnumHeader.Stands (EnumHeader.header A) x i := by
      rintro x i ⟨tag, fs, h2, h3⟩
      rcases List.mem_cons.1 h2 with h2 | h2
      · cases h2
      · rw [← enums_eq] at h2
        obtain ⟨e, h4, h5⟩ := List.mem_map.1 h2
        cases h5
        exact ⟨e, h4, h3⟩
    exact fun x i j hi hj => C69_number hacc (key x i hi) (key x j hj)
  refine ⟨_, C77_enums_partial hw, h1, fun V hV trav node f g => ?_⟩
  have one : ∀ r s, Ext.array r ∈ V → Ext.array s ∈ V → r.name = s.name → r = s := by
    intro r s hr hs e
    obtain ⟨i, hi⟩ := List.getElem?_of_mem hr
    obtain ⟨j, hj⟩ := List.getElem?_of_mem hs
    rw [Spec.TableText.names, List.Nodup, List.pairwise_filterMap, List.pairwise_iff_getElem] at hV
    obtain ⟨hi, hi'⟩ := List.getElem?_eq_some_iff.1 hi
    obtain ⟨hj, hj'⟩ := List.getElem?_eq_some_iff.1 hj
    rcases Nat.lt_trichotomy i j with hij | rfl | hij
    · exact absurd e (hV i j hi hj hij r.name (by rw [hi']) s.name (by rw [hj']))
    · rw [hi'] at hj'
      exact Ext.array.inj hj'
    · exact absurd e.symm (hV j i hj hi hij s.name (by rw [hj']) r.name (by rw [hi']))
  have two : ∀ {ty a i x y}, Holds V ty a i x → Holds V ty a i y → x = y := by
    rintro ty a i x y ⟨r, k1, k2, k3, k4⟩ ⟨s, l1, l2, l3, l4⟩
    cases one r s k1 l1 (k3.trans l3.symm)
    exact Option.some.inj (k4.symm.trans l4)
  rintro ⟨i, j, a, k1, k2, k3, k4⟩ ⟨i', j', b, l1, l2, l3, l4⟩
  cases h1 _ _ _ k1 l1
  cases h1 _ _ _ k2 l2
  cases two k3 l3
  cases two k4 l4
  rfl

end

/-! ## A sample -/

/-- `start phase All { pass scan; traversal <name> { uid = RN, travdata { int depth } }; pass gen { uid = cg }; }`
`root node Prog { children { Var v } }  node Var;  enum binop { prefix = BO, values { add, sub } };` -/
def tableFile (name : String) : List Spec.Syntax.Entry :=
  small "Var" (.cons (.pass (.plain (nm "scan" 0)))
    (.cons (.traversal ⟨nm name 0, none, nm "RN" 0, none, [⟨.prim .int, nm "depth" 0⟩]⟩)
      (.one (.pass (.long (nm "gen" 0) none (some (nm "cg" 0)) none))))) ++
    [.enum ⟨nm "binop" 0, none, nm "BO" 0, [nm "add" 0, nm "sub" 0]⟩]

/-- `Ident` as a check. -/
def identB (w : CStr) : Bool := (match w with | c :: _ => Spec.Text.isLetter c | [] => false) && w.all inWord

theorem ident_of {w : CStr} (h : identB w = true) : Ident w := by
  unfold identB at h
  rw [Bool.and_eq_true] at h
  refine ⟨?_, List.all_eq_true.1 h.2⟩
  cases w with
  | nil => cases h.1
  | cons c r => exact ⟨c, r, rfl, h.1⟩

/-- `Wordy` as a check. -/
def wordyAstB (A : Parse.Ast) : Bool :=
  (A.nodes.all fun n => identB n.name.orig) && (A.nodesets.all fun n => identB n.name.orig) &&
  (A.traversals.all fun x => identB x.name.orig && identB x.uid.orig) && (A.passes.all fun p => identB p.name.orig && fineB (passFunction p)) &&
  A.enums.all fun e => identB e.name.orig && !keywords.contains e.name.orig && identB e.pre.orig && e.vals.all fun v => identB v.orig

theorem wordyAst_of {A : Parse.Ast} (h : wordyAstB A = true) : Wordy A := by
  unfold wordyAstB at h
  simp only [Bool.and_eq_true, List.all_eq_true] at h
  obtain ⟨⟨⟨⟨h1, h2⟩, h3⟩, h4⟩, h5⟩ := h
  exact ⟨fun n hn => ident_of (h1 n hn), fun n hn => ident_of (h2 n hn), fun x hx => ident_of (h3 x hx).1, fun x hx => ident_of (h3 x hx).2,
    fun p hp => ident_of (h4 p hp).1, fun p hp => fine_of (h4 p hp).2, fun e he => ⟨ident_of (h5 e he).1.1.1, by simpa using (h5 e he).1.1.2⟩,
    fun e he => ident_of (h5 e he).1.2, fun e he v hv => ident_of ((h5 e he).2 v hv)⟩

/-- The description meets the conditions of the theorems about C77, it is accepted, and what `P` says is true of the declarations of `vtables.c`. -/
structure Tabled (f : List Spec.Syntax.Entry) (P : List Ext → Prop) : Prop where
  small : Small f
  free : Free (ast f)
  wordy : Wordy (ast f)
  lettered : Spec.EnumHeader.Lettered (ast f)
  clear : Spec.EnumHeader.Clear (ast f)
  reads : ∃ o text V, checks sampleAddr 60 (ast f) = .ok o ∧ o.errors = 0 ∧ vtables 60 (ast f) o.tab = .ok text ∧
    Spec.TableText.read text = some V ∧ P V

theorem tabled_of {f : List Spec.Syntax.Entry} {P : List Ext → Prop} (p : List Ext → Bool) (hP : ∀ V, p V = true → P V) (h1 : Small f)
    (h2 : Free (ast f)) (h3 : wordyAstB (ast f) = true) (h4 : letteredB (ast f) = true) (h5 : acceptedB (EnumHeader.header (ast f)) = true)
    (h6 : (match checks sampleAddr 60 (ast f) with
      | .ok o => match vtables 60 (ast f) o.tab with
        | .ok text => match Spec.TableText.read text with
          | some V => o.errors == 0 && p V
          | none => false
        | _ => false
      | _ => false) = true) : Tabled f P := by
  split at h6
  · rename_i o ho
    split at h6
    · rename_i text ht
      split at h6
      · rename_i V hV
        rw [Bool.and_eq_true] at h6
        exact ⟨h1, h2, wordyAst_of h3, letteredB_of h4, (C69_accepted_partial h1.named ho (letteredB_of h4)).1 ((acceptedB_iff _).1 h5),
          o, text, V, ho, by simpa using h6.1, ht, hV, hP V h6.2⟩
      · cases h6
    · cases h6
  · cases h6

theorem small_table {name : String} (h1 : plainAst (ast (tableFile name)) = true) (h2 : flatSets (ast (tableFile name)) = true)
    (h3 : (ast (tableFile name)).nodes.map (·.index) = (List.range (ast (tableFile name)).numNodes).reverse ∧
      (ast (tableFile name)).traversals.map (·.index) = (List.range (ast (tableFile name)).numTraversals).reverse)
    (h4 : ((ast (tableFile name)).traversals.all fun t => t.nodes.isNone) = true)
    (h5 : ((ast (tableFile name)).nodes.all fun n => match n.name.orig with
      | c :: _ => Spec.Text.isLetter c
      | [] => false) = true) : Small (tableFile name) := small_of (named_of_plain h1) (earlier_of_flat h2) h3 h4 h5

/-- The theorems about C77 apply to the sample; the arrays of `vtables.c`. -/
example : Spec.Semantic.Apart sampleAddr ∧ Spared (ast (tableFile "Rename")) ∧ Tabled (tableFile "Rename") fun V => V.drop 3 =
    [.array ⟨const b!"ccn_trav_ft", b!"rename_vtable", b!"_NT_SIZE", [.addr b!"TRAVerror", .addr b!"RNvar", .addr b!"RNprog"]⟩,
      .array ⟨const b!"ccn_pass_ft", b!"ccn_pass_vtable", b!"_PASS_SIZE", [.addr b!"PASSerror", .addr b!"CGgen", .addr b!"scan"]⟩,
      .array ⟨const b!"ccn_trav_ft", b!"ccn_copy_vtable", b!"_NT_SIZE", [.addr b!"TRAVerror", .addr b!"CPYvar", .addr b!"CPYprog"]⟩,
      .array ⟨const b!"ccn_trav_ft", b!"ccn_check_vtable", b!"_NT_SIZE", [.addr b!"TRAVerror", .addr b!"CHKvar", .addr b!"CHKprog"]⟩,
      .array ⟨const b!"ccn_trav_ft", b!"ccn_free_vtable", b!"_NT_SIZE", [.addr b!"TRAVerror", .addr b!"DELvar", .addr b!"DELprog"]⟩,
      .array ⟨const b!"ccn_trav_ft", b!"ccn_error_vtable", b!"_NT_SIZE", [.addr b!"TRAVerror", .addr b!"TRAVerror", .addr b!"TRAVerror"]⟩,
      .array ⟨const b!"ccn_trav_ft" ++ [.sym 42], b!"ccn_trav_vtable", b!"_TRAV_SIZE", [.name b!"ccn_error_vtable", .name b!"rename_vtable",
        .name b!"ccn_free_vtable", .name b!"ccn_check_vtable", .name b!"ccn_copy_vtable"]⟩,
      .array ⟨const b!"ccn_trav_data_ft", b!"trav_data_init_vtable", b!"_TRAV_SIZE", [.name b!"TRAVdataNOP", .name b!"TRAVdataInitRename",
        .name b!"TRAVdataNOP", .name b!"TRAVdataNOP", .name b!"TRAVdataNOP"]⟩,
      .array ⟨const b!"ccn_trav_data_ft", b!"trav_data_free_vtable", b!"_TRAV_SIZE", [.name b!"TRAVdataNOP", .name b!"TRAVdataFreeRename",
        .name b!"TRAVdataNOP", .name b!"TRAVdataNOP", .name b!"TRAVdataNOP"]⟩] :=
  ⟨sampleAddr_apart, by unfold Spared; decide +kernel,
    tabled_of (fun V => decide _) (fun V h => of_decide_eq_true h)
      (small_table (by decide +kernel) (by decide +kernel) (by decide +kernel) (by decide +kernel) (by decide +kernel))
      (free_of (by unfold Spec.Compiled.Null; decide +kernel)) (by decide +kernel) (by decide +kernel) (by decide +kernel) (by decide +kernel)⟩

/-- The enumerations of the sample. -/
example : Wordy (ast (tableFile "Rename")) ∧ enums (ast (tableFile "Rename")) =
    [.enum b!"nodesettype" [b!"NS_NULL", b!"_NS_SIZE"], .enum b!"ccn_nodetype" [b!"NT_NULL", b!"NT_VAR", b!"NT_PROG", b!"_NT_SIZE"],
      .enum b!"ccn_traversal_type" [b!"TRAV_NULL", b!"TRAV_RN", b!"TRAV_free", b!"TRAV_check", b!"TRAV_cpy", b!"_TRAV_SIZE"],
      .enum b!"ccn_pass_type" [b!"PASS_NULL", b!"PASS_GEN", b!"PASS_SCAN", b!"_PASS_SIZE"], .enum b!"binop" [b!"BO_NULL", b!"BO_add", b!"BO_sub"]] :=
  ⟨wordyAst_of (by decide +kernel), by decide +kernel⟩

/-! ## Where it is false -/

/-- C77 is false for a traversal called like a table: `vtables.c` has two arrays of this name, so that it does not compile.  The description is
accepted, and none of the conditions of C39, C40, C66 and C67 is violated. -/
theorem C77_once_false : ∀ name ∈ ["ccn_trav", "Ccn_Pass", "trav_data_init", "trav_data_free"],
    Tabled (tableFile name) fun V => ¬ (Spec.TableText.names V).Nodup := by
  simp only [List.mem_cons, List.not_mem_nil, or_false]
  rintro name (rfl | rfl | rfl | rfl) <;>
  exact tabled_of (fun V => decide (¬ (Spec.TableText.names V).Nodup)) (fun V h => of_decide_eq_true h)
      (small_table (by decide +kernel) (by decide +kernel) (by decide +kernel) (by decide +kernel) (by decide +kernel))
      (free_of (by unfold Spec.Compiled.Null; decide +kernel)) (by decide +kernel) (by decide +kernel) (by decide +kernel) (by decide +kernel)

end Verif.Props
