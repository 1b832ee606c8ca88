import Verif.Lemmas.ActionText
import Verif.Props.Declared
import Verif.Props.FileNames

/-!
# Property theorems C79: the text of `actions.h`

The theorems quantify over all files that are read and that the phase `semantic` accepts.
-/

namespace Verif.Props
open Verif.Str Verif.Ids Verif.Tables
open Verif.Parse (SPparseDSL)
open Verif.Semantic hiding declsOf
open Verif.Compiled (declsOf)
open Verif.ActionText
open Verif.Declared (files Content files_ok)
open Verif.TableText (Fine vtables)
open Verif.Spec.ActionText (Proto protos Header Needed NodeFn NodePtr Declares Covers library)
open Verif.Spec.Declared (Other passName systemUids)
open Verif.Spec.FileNames (Spelled)
open Verif.Spec.Semantic (Earlier)
open Verif.Spec.Str (lowerB upperB)
open Verif.Spec.Targets (Target handler Aimed)
open Verif.Spec.Compiled (passFunction Free)

section
variable {input : CStr} {A : Parse.Ast}

/-- The functions for nodes. -/
theorem needed_iff (f : CStr) : Needed A f ↔ Other A (f, .node) ∨ ∃ p ∈ A.passes, f = passName p := by
  constructor
  · rintro (⟨x, hx, n, hn, ht, rfl⟩ | h | ⟨s, hs, n, hn, rfl⟩)
    · exact .inl (.handler hx hn ht)
    · exact .inr h
    · exact .inl (.system hs hn)
  · rintro (h | h)
    · generalize hg : (f, Declared.Sig.node) = g at h
      cases h with
      | handler h1 h2 h3 => cases hg; exact .inl ⟨_, h1, _, h2, h3, rfl⟩
      | system h1 h2 => cases hg; exact .inr (.inr ⟨_, h1, _, h2, rfl⟩)
      | data => cases hg
      | user => cases hg
    · exact .inr (.inl h)

/-- They have names of C. -/
theorem fine_needed (h : Spelled A) {f : CStr} (hf : Needed A f) : Fine f := by
  rcases hf with ⟨x, hx, n, hn, _, rfl⟩ | ⟨p, hp, rfl⟩ | ⟨s, hs, n, hn, rfl⟩
  · exact TableText.fine_uid (h.traversals x hx).2.1.1 (TableText.lower_all (h.nodes n hn).1.1.2)
  · obtain ⟨h1, h2, _⟩ := h.passes p hp
    unfold passName
    cases hu : p.uid with
    | some u => exact TableText.fine_uid (h2 u (by rw [hu]; rfl)).1 h1.1.2
    | none => exact ⟨ident_word h1.1, h1.2⟩
  · have hw := TableText.lower_all (h.nodes n hn).1.1.2
    simp only [List.mem_cons, List.not_mem_nil, or_false] at hs
    rcases hs with rfl | rfl | rfl <;>
    exact TableText.fine_upper (by decide) (TableText.word_append (by decide) hw)

/-- Capital letters. -/
theorem needed_other (h : Spelled A) : Needed A b!"ccn_node" ↔ ∃ p ∈ A.passes, passName p = b!"ccn_node" := by
  constructor
  · rintro (⟨x, hx, n, hn, _, e⟩ | ⟨p, hp, e⟩ | ⟨s, hs, n, hn, e⟩)
    · exfalso
      obtain ⟨⟨c, r, h1, h2⟩, _⟩ := (h.traversals x hx).2.1.1
      rw [handler, h1] at e
      have := Templates.big_upper c h2
      rw [← (List.cons.inj e).1] at this
      exact absurd this (by decide)
    · exact ⟨p, hp, e.symm⟩
    · simp only [List.mem_cons, List.not_mem_nil, or_false] at hs
      rcases hs with rfl | rfl | rfl <;> exact absurd (List.cons.inj e).1 (by decide)
  · rintro ⟨p, hp, e⟩
    exact .inr (.inl ⟨p, hp, e.symm⟩)

theorem protos_map (ps : List Proto) : protos (.directive b!"pragma once" :: .typedef b!"ccn_node" b!"ccn_node" :: ps.map .proto) = ps := by
  show List.filterMap _ (ps.map _) = ps
  rw [List.filterMap_map]
  exact (List.filterMap_congr fun _ _ => rfl).trans List.filterMap_some

/-- The header of the files that C68 is about. -/
theorem header_of {fuel : Nat} {tab : List (Ste Decl)} {F : Declared.Files} (hs : Spelled A) (h : files fuel A tab = .ok F) (c : Content A F) :
    ∃ text u, actions fuel A tab = .ok text ∧ Spec.ActionText.read text = some u ∧ Header A u ∧
      (Spec.ActionText.Apart u ↔ ∀ p ∈ A.passes, passName p ≠ b!"ccn_node") := by
  unfold files at h
  obtain ⟨⟨qs, st⟩, h1, h⟩ := Res.bind_eq_ok.1 h
  obtain ⟨sets, h2, h⟩ := Res.bind_eq_ok.1 h
  obtain ⟨trees, h3, h⟩ := Res.bind_eq_ok.1 h
  obtain ⟨x, h4, h⟩ := Res.bind_eq_ok.1 h
  cases h
  have hd : ∀ f, (∃ g ∈ Declared.DGAHast (declsOf A) sets trees, g.1 = f) ↔ Needed A f := by
    intro f
    rw [needed_iff]
    have := c.decls (f, .node)
    simp only [Declared.filesOf, List.mem_append] at this
    constructor
    · rintro ⟨g, hg, rfl⟩
      have hn := all_node g hg
      rcases this.1 (.inl (by rw [← hn]; exact hg)) with ⟨h, _⟩ | ⟨p, hp, e⟩
      · exact .inl h
      · exact .inr ⟨p, hp, (Prod.mk.inj e).1⟩
    · intro h
      rcases this.2 (h.imp (fun h => ⟨h, nofun⟩) fun ⟨p, hp, e⟩ => ⟨p, hp, by rw [e]⟩) with h | h
      · exact ⟨_, h, rfl⟩
      · exact absurd (none_node _ h) nofun
  obtain ⟨ps, h5, h6, h7⟩ := header_says (declsOf A) sets trees fun f hf => fine_needed hs ((hd f.1).1 ⟨f, hf, rfl⟩)
  refine ⟨_, _, ?_, h5, ?_, ?_⟩
  · unfold actions
    rw [h1, Res.bind_ok]
    show (treesOf st _ >>= _) = _
    rw [h2, Res.bind_ok, h3, Res.bind_ok]
  · have hn : ∀ f, (∃ p ∈ ps, p.name = f) ↔ Needed A f := fun f => by
      rw [← hd f, ← List.mem_map, ← List.mem_map, h6]
    refine ⟨⟨ps, rfl⟩, fun p hp => ?_, fun f => by rw [protos_map]; exact hn f⟩
    rw [protos_map] at hp
    have ty : Spec.ActionText.Ext.typedef b!"ccn_node" b!"ccn_node" ∈ Spec.ActionText.Ext.directive b!"pragma once" ::
        .typedef b!"ccn_node" b!"ccn_node" :: ps.map .proto := .tail _ (.head _)
    rcases h7 p hp with e | e <;> rw [e]
    · exact ⟨.inr ⟨_, ty, rfl⟩, .inl (.inr ⟨_, ty, rfl⟩)⟩
    · exact ⟨.inl rfl, .inr ⟨_, _, .inl rfl, rfl⟩⟩
  · have hn : (∃ p ∈ ps, p.name = b!"ccn_node") ↔ ∃ p ∈ A.passes, passName p = b!"ccn_node" := by
      rw [← needed_other hs, ← hd, ← List.mem_map, ← List.mem_map, h6]
    constructor
    · intro h p hp e
      obtain ⟨q, hq, e'⟩ := hn.2 ⟨p, hp, e⟩
      exact h b!"ccn_node" _ (.tail _ (.head _)) q (by rw [protos_map]; exact hq) e'
    · intro h tag n hm q hq e
      rw [protos_map] at hq
      have : n = b!"ccn_node" := by
        rcases List.mem_cons.1 hm with hm | hm
        · cases hm
        rcases List.mem_cons.1 hm with hm | hm
        · cases hm; rfl
        · obtain ⟨_, _, hm⟩ := List.mem_map.1 hm
          cases hm
      obtain ⟨p, hp, e'⟩ := hn.1 ⟨q, hq, e.trans this⟩
      exact h p hp e'

/-- C79: if a file is read and accepted, `actions.h` is C text.  It has a name for the type of nodes and, behind it, prototypes of functions from
nodes to nodes: those of the user for the nodes that the traversals are for, those of the system, and those of the passes, and no others.  None is
called like the type if and only if no pass is.

Missing: the conditions `Earlier` and `Aimed`, as in C64 and C67; a pass called `ccn_node` (`C79_typedef_false`); that a pass with a `func` is
declared by it (`C79_func_false`). -/
theorem C79_header_partial {addr : Semantic.Loc → Nat} {fuel : Nat} {o : Semantic.Out} (ha : Spec.Semantic.Apart addr)
    (hr : SPparseDSL input (.ok A)) (he : Earlier A) (h : checks addr fuel A = .ok o) (hm : Aimed A) :
    ∃ N, ∀ fuel, N ≤ fuel → ∃ text u, actions fuel A o.tab = .ok text ∧ Spec.ActionText.read text = some u ∧ Header A u ∧
      (Spec.ActionText.Apart u ↔ ∀ p ∈ A.passes, passName p ≠ b!"ccn_node") := by
  obtain ⟨N, hN⟩ := files_ok (checks_facts ha (Semantic.parsed_named hr) he h).1.right he (FileNames.parsed_numbered hr) hm
  refine ⟨N, fun fuel hf => ?_⟩
  obtain ⟨F, h1, c⟩ := hN fuel hf
  exact header_of (C78_names_partial hr) h1 c

theorem header_declares {u : List Spec.ActionText.Ext} (h : Header A u) {f : CStr} (hf : Needed A f) : Declares u f := by
  obtain ⟨p, hp, e⟩ := (h.names f).2 hf
  exact ⟨p, hp, e, h.types p hp⟩

theorem addr_system {u : List Spec.ActionText.Ext} {ns : List Id} {g : Id → CStr} (hg : ∀ n ∈ ns, g n ∈ library ∨ Declares u (g n)) :
    ∀ i ∈ Spec.TableText.Init.addr b!"TRAVerror" :: (ns.map g).map .addr, ∃ f, i = .addr f ∧ (f ∈ library ∨ Declares u f) := by
  intro i hi
  rcases List.mem_cons.1 hi with rfl | hi
  · exact ⟨_, rfl, .inl (by decide)⟩
  · rw [List.map_map] at hi
    obtain ⟨n, hn, rfl⟩ := List.mem_map.1 hi
    exact ⟨_, rfl, hg n hn⟩

/-- What the tables need is there. -/
theorem covers_of {u : List Spec.ActionText.Ext} {names : Nat → Id} {hs : List (List Reach.Handler)} (h : Header A u) (hA : Aims A names hs)
    (hp : ∀ p ∈ A.passes, p.func = none) : Covers u (vOf A names hs) := by
  intro r hr ht
  have sys : ∀ s ∈ [b!"CPY", b!"DEL", b!"CHK"], ∀ n ∈ (declsOf A).nodes, s ++ n.lwr ∈ library ∨ Declares u (s ++ n.lwr) := by
    intro s hs n hn
    obtain ⟨m, hm, rfl⟩ := List.mem_map.1 hn
    exact .inr (header_declares h (.inr (.inr ⟨s, hs, m, hm, rfl⟩)))
  rcases List.mem_cons.1 hr with hr | hr
  · cases hr
  rcases List.mem_cons.1 hr with hr | hr
  · cases hr
  rcases List.mem_cons.1 hr with hr | hr
  · cases hr
  rcases List.mem_append.1 hr with hr | hr
  · obtain ⟨x, hx, e⟩ := List.mem_map.1 hr
    obtain ⟨j, t, e', h1, h2, rfl⟩ := user_back hx
    cases e
    simp only [declsOf, List.getElem?_map] at h1
    cases hj : A.traversals[j]? with
    | none => rw [hj] at h1; cases h1
    | some y =>
      rw [hj] at h1
      cases h1
      obtain ⟨es, h3, h4, h5⟩ := hA.row j y hj
      cases h2.symm.trans h3
      intro i hi
      simp only [List.map_cons, List.mem_cons, List.map_map, List.mem_map] at hi
      rcases hi with rfl | ⟨f, hf, rfl⟩
      · exact ⟨b!"TRAVerror", rfl, .inl (by decide)⟩
      · obtain ⟨k, hk⟩ := List.getElem?_of_mem hf
        have hlt : k < A.nodes.length := by
          rw [← h4]
          exact (List.getElem?_eq_some_iff.1 hk).1
        obtain ⟨f', h6, h7⟩ := h5 k _ (List.getElem?_eq_getElem hlt)
        cases hk.symm.trans h6
        have g := goes_of h7
        refine ⟨_, rfl, ?_⟩
        by_cases hT : Target y A A.nodes[k]
        · refine .inr (header_declares h (.inl ⟨y, List.mem_of_getElem? hj, _, List.getElem_mem hlt, hT, g.user hT⟩))
        · refine .inl ?_
          rcases g.other hT with e | e
          · have := (by decide : b!"TRAVchildren" ∈ library)
            rwa [← e] at this
          · have := (by decide : b!"TRAVnop" ∈ library)
            rwa [← e] at this
  · simp only [List.mem_cons, List.not_mem_nil, or_false] at hr
    rcases hr with hr | hr | hr | hr | hr | hr | hr | hr
    · cases hr
      intro i hi
      rcases List.mem_cons.1 hi with rfl | hi
      · exact ⟨_, rfl, .inl (by decide)⟩
      · obtain ⟨p, hq, rfl⟩ := List.mem_map.1 hi
        obtain ⟨q, hq', rfl⟩ := List.mem_map.1 hq
        refine ⟨_, rfl, .inr (header_declares h (.inr (.inl ⟨q, hq', ?_⟩)))⟩
        rw [pass_name]
        simp only [passFunction, hp q hq', passName]
        cases q.uid <;> rfl
    · cases hr; exact addr_system (sys b!"CPY" (by decide))
    · cases hr; exact addr_system (sys b!"CHK" (by decide))
    · cases hr; exact addr_system (sys b!"DEL" (by decide))
    · cases hr; exact addr_system fun _ _ => .inl (by decide)
    · cases hr
      exact absurd ht (by decide : ¬ (Spec.TableText.const b!"ccn_trav_ft" ++ [.sym 42] = Spec.TableText.const b!"ccn_trav_ft" ∨
        Spec.TableText.const b!"ccn_trav_ft" ++ [.sym 42] = Spec.TableText.const b!"ccn_pass_ft"))
    · cases hr
      exact absurd ht (by decide : ¬ (Spec.TableText.const b!"ccn_trav_data_ft" = Spec.TableText.const b!"ccn_trav_ft" ∨
        Spec.TableText.const b!"ccn_trav_data_ft" = Spec.TableText.const b!"ccn_pass_ft"))
    · cases hr
      exact absurd ht (by decide : ¬ (Spec.TableText.const b!"ccn_trav_data_ft" = Spec.TableText.const b!"ccn_trav_ft" ∨
        Spec.TableText.const b!"ccn_trav_data_ft" = Spec.TableText.const b!"ccn_pass_ft"))

/-- C79: if a file is read and accepted, and no pass has a `func`, all that `vtables.c` refers to in arrays of functions for nodes is declared in
`actions.h`, for nodes, or in the library.

Missing: as for `C79_header_partial` and `C78_tables_partial`; a pass with a `func` (`C79_func_false`). -/
theorem C79_covers_partial {addr : Semantic.Loc → Nat} {fuel : Nat} {o : Semantic.Out} (ha : Spec.Semantic.Apart addr)
    (hr : SPparseDSL input (.ok A)) (he : Earlier A) (h : checks addr fuel A = .ok o) (hm : Aimed A) (hv : Armless A)
    (hp : ∀ p ∈ A.passes, p.func = none) :
    ∃ N, ∀ fuel, N ≤ fuel → ∃ text u table V, actions fuel A o.tab = .ok text ∧ Spec.ActionText.read text = some u ∧
      vtables fuel A o.tab = .ok table ∧ Spec.TableText.read table = some V ∧ Covers u V := by
  have hright := (checks_facts ha (Semantic.parsed_named hr) he h).1.right
  obtain ⟨N, hN⟩ := C79_header_partial ha hr he h hm
  obtain ⟨N', hN'⟩ := Targets.tables_ok hright he (FileNames.parsed_numbered hr) hm
  refine ⟨max N N', fun fuel hfu => ?_⟩
  obtain ⟨text, u, h1, h2, h3, _⟩ := hN fuel (Nat.le_trans (Nat.le_max_left _ _) hfu)
  obtain ⟨hs, k1, k2, k3⟩ := hN' fuel (Nat.le_trans (Nat.le_max_right _ _) hfu)
  have hA : Aims A (Targets.nameOf A) hs := ⟨k2, k3⟩
  refine ⟨text, u, _, _, h1, h2, ?_, vtables_read (wordy_spelled (C78_names_partial hr) hv) hA, covers_of h3 hA hp⟩
  unfold vtables
  rw [k1, Res.bind_ok]
  have h4 : (DGTVast (Targets.nameOf A) (declsOf A).travs hs).length = A.traversals.length := by
    have := congrArg List.length (Tables.user_names (names := Targets.nameOf A) (ts := (declsOf A).travs) (hs := hs) (by simpa [declsOf] using k2))
    simpa [declsOf] using this
  rw [← h4, List.take_left]

end

/-! ## Samples -/

theorem no_func {A : Parse.Ast} (h : (A.passes.all fun p => p.func.isNone) = true) : ∀ p ∈ A.passes, p.func = none := fun p hp =>
  Option.isNone_iff_eq_none.1 (List.all_eq_true.1 h p hp)

theorem add_func : ∀ p ∈ (ast (arrowFile "add")).passes, p.func = none := no_func (by decide +kernel)

/-- The theorems about C79 apply to the sample. -/
example : ∃ A o, SPparseDSL (arrowText "add") (.ok A) ∧ Spec.Semantic.Apart sampleAddr ∧ Earlier A ∧ checks sampleAddr 20 A = .ok o ∧
    Aimed A ∧ Armless A ∧ (∀ p ∈ A.passes, p.func = none) ∧ A.traversals.length = 1 ∧ A.nodes.length = 2 := by
  obtain ⟨o, ho, _⟩ := add_accepted
  exact ⟨_, o, add_parsed, sampleAddr_apart, add_small.earlier, ho, add_small.aimed, add_armless, add_func, add_counts⟩

/-- Generate both files, and test what is read. -/
def bothB (A : Parse.Ast) (p : List Spec.ActionText.Ext → List Spec.TableText.Ext → Bool) : Bool :=
  match checks sampleAddr 20 A with
  | .ok o => match actions 20 A o.tab, vtables 20 A o.tab with
    | .ok text, .ok table => match Spec.ActionText.read text, Spec.TableText.read table with
      | some u, some V => o.errors == 0 && p u V
      | _, _ => false
    | _, _ => false
  | _ => false

theorem both_of {A : Parse.Ast} {p : List Spec.ActionText.Ext → List Spec.TableText.Ext → Bool} (h : bothB A p = true) :
    ∃ o text u table V, checks sampleAddr 20 A = .ok o ∧ o.errors = 0 ∧ actions 20 A o.tab = .ok text ∧ Spec.ActionText.read text = some u ∧
      vtables 20 A o.tab = .ok table ∧ Spec.TableText.read table = some V ∧ p u V = true := by
  unfold bothB at h
  split at h
  · rename_i o ho
    split at h
    · rename_i text table h1 h2
      split at h
      · rename_i u V h3 h4
        rw [Bool.and_eq_true] at h
        exact ⟨o, text, u, table, V, ho, by simpa using h.1, h1, h3, h2, h4, h.2⟩
      · cases h
    · cases h
  · cases h

/-- The header of the sample. -/
example : ∃ o text u table V, checks sampleAddr 20 (ast (arrowFile "add")) = .ok o ∧ o.errors = 0 ∧ actions 20 (ast (arrowFile "add")) o.tab = .ok text ∧
    Spec.ActionText.read text = some u ∧ vtables 20 (ast (arrowFile "add")) o.tab = .ok table ∧ Spec.TableText.read table = some V ∧
    decide ((protos u).map (·.name) = [b!"RNvar", b!"RNprog", b!"scan", b!"CPYvar", b!"DELvar", b!"CHKvar", b!"CPYprog", b!"DELprog", b!"CHKprog"]) = true :=
  both_of (p := fun u _ => decide ((protos u).map (·.name) = _)) (by decide +kernel)

/-! ## Where it is false -/

/-- A file with a pass only. -/
def passText (pass : String) : CStr :=
  Lex.bytes "start phase All { actions { pass " ++ (Lex.bytes pass ++ Lex.bytes "; } }; root node Prog { children { Var v } }; node Var {};")

/-- What it says; `d` is the length of the pass. -/
def passEntries (pass : Spec.Syntax.Pass) (d : Nat) : List Spec.Syntax.Entry :=
  [.phase (.mk true false (pn "All" 1 13 15) none none none (.one (.pass pass))),
    .node ⟨true, pn "Prog" 1 (51 + d) (54 + d), [⟨pn "Var" 1 (69 + d) (71 + d), pn "v" 1 (73 + d) (73 + d), none⟩], [], [], [], false⟩,
    .node ⟨false, pn "Var" 1 (85 + d) (87 + d), [], [], [], [], false⟩]

theorem pass_entries_ok {pass : Spec.Syntax.Pass} {d : Nat} (hp : pass.Ok) : ∀ e ∈ passEntries pass d, e.Ok := by
  intro e he
  simp only [passEntries, List.mem_cons, List.not_mem_nil, or_false] at he
  rcases he with rfl | rfl | rfl
  · simpa [Spec.Syntax.Entry.Ok, Spec.Syntax.Phase.Ok, Spec.Syntax.Actions.Ok, Spec.Syntax.Action.Ok] using hp
  · refine ⟨?_, ?_, ?_, ?_, ?_⟩ <;> simp [Spec.Syntax.Child.Ok, Spec.Syntax.Attr.Ok, Spec.Syntax.Life.Ok, Spec.Syntax.Opt.life]
  · refine ⟨?_, ?_, ?_, ?_, ?_⟩ <;> simp [Spec.Syntax.Child.Ok, Spec.Syntax.Attr.Ok, Spec.Syntax.Life.Ok, Spec.Syntax.Opt.life]

/-- `pass ccn_node;` -/
def typeEntries : List Spec.Syntax.Entry := passEntries (.plain (pn "ccn_node" 1 34 41)) 8

/-- `pass scanParse { uid = SP, func = doScanParse };` -/
def funcEntries : List Spec.Syntax.Entry :=
  passEntries (.long (pn "scanParse" 1 34 42) none (some (pn "SP" 1 52 53)) (some (pn "doScanParse" 1 63 73))) 42

theorem type_parsed : SPparseDSL (passText "ccn_node") (.ok (ast typeEntries)) := parsed_text (by decide +kernel) (pass_entries_ok (by trivial))

theorem func_parsed : SPparseDSL (passText "scanParse { uid = SP, func = doScanParse }") (.ok (ast funcEntries)) :=
  parsed_text (by decide +kernel) (pass_entries_ok (.inl nofun))

theorem type_small : Small typeEntries := small_of (named_of_plain (by decide +kernel)) (earlier_of_flat (by decide +kernel)) (by decide +kernel)
  (by decide +kernel) (by decide +kernel)

theorem func_small : Small funcEntries := small_of (named_of_plain (by decide +kernel)) (earlier_of_flat (by decide +kernel)) (by decide +kernel)
  (by decide +kernel) (by decide +kernel)

theorem type_both : bothB (ast typeEntries) (fun u _ => decide (Spec.ActionText.Ext.typedef b!"ccn_node" b!"ccn_node" ∈ u) &&
    (protos u).any fun p => decide (p.name = b!"ccn_node")) = true := by decide +kernel

theorem func_both : bothB (ast funcEntries) (fun u V => V.any (fun x => match x with
      | .array r => decide (r.type = Spec.TableText.const b!"ccn_pass_ft" ∧ Spec.TableText.Init.addr b!"doScanParse" ∈ r.inits)
      | _ => false) && (protos u).all fun p => decide (p.name ≠ b!"doScanParse")) = true := by decide +kernel

/-- C79 is false for a pass called like the type of nodes: the file is read and accepted without message, and `actions.h` declares `ccn_node` as a
type and as a function, so that nothing that includes it compiles. -/
theorem C79_typedef_false : ∃ A, SPparseDSL (passText "ccn_node") (.ok A) ∧ Earlier A ∧ Aimed A ∧
    ∃ o text u, checks sampleAddr 20 A = .ok o ∧ o.errors = 0 ∧ actions 20 A o.tab = .ok text ∧ Spec.ActionText.read text = some u ∧
      ¬ Spec.ActionText.Apart u := by
  obtain ⟨o, text, u, _, _, h1, h2, h3, h4, _, _, h5⟩ := both_of type_both
  refine ⟨_, type_parsed, type_small.earlier, type_small.aimed, o, text, u, h1, h2, h3, h4, fun h => ?_⟩
  rw [Bool.and_eq_true] at h5
  obtain ⟨p, hp, e⟩ := List.any_eq_true.1 h5.2
  exact h _ _ (of_decide_eq_true h5.1) p hp (of_decide_eq_true e)

/-- C79 is false for a pass with a `func`: `vtables.c` refers to a function that is not declared. -/
theorem C79_func_false : ∃ A, SPparseDSL (passText "scanParse { uid = SP, func = doScanParse }") (.ok A) ∧ Earlier A ∧ Aimed A ∧
    ∃ o text u table V, checks sampleAddr 20 A = .ok o ∧ o.errors = 0 ∧ actions 20 A o.tab = .ok text ∧ Spec.ActionText.read text = some u ∧
      vtables 20 A o.tab = .ok table ∧ Spec.TableText.read table = some V ∧ ¬ Covers u V := by
  obtain ⟨o, text, u, table, V, h1, h2, h3, h4, h5, h6, h7⟩ := both_of func_both
  refine ⟨_, func_parsed, func_small.earlier, func_small.aimed, o, text, u, table, V, h1, h2, h3, h4, h5, h6, fun h => ?_⟩
  rw [Bool.and_eq_true] at h7
  obtain ⟨x, hx, e⟩ := List.any_eq_true.1 h7.1
  cases x with
  | array r =>
    have e := of_decide_eq_true e
    obtain ⟨f, e', h8⟩ := h r hx (.inr e.1) _ e.2
    cases e'
    rcases h8 with h8 | ⟨p, hp, e', _⟩
    · exact absurd h8 (by decide)
    · exact absurd e' (of_decide_eq_true (List.all_eq_true.1 h7.2 p hp))
  | _ => cases e

end Verif.Props
