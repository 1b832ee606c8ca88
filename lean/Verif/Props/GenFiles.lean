import Verif.Lemmas.GenFilesBad
import Verif.Lemmas.GenFilesBackend
import Verif.Lemmas.GenFilesSeen
import Verif.Props.Declared
import Verif.Props.Described

/-!
# Property theorems C73: the generated files

The theorems quantify over all descriptions that the phase `semantic` accepts, over all disks, and over all headers of the user.
-/

namespace Verif.Props
open Verif.Str Verif.Ids Verif.Semantic Verif.GenFiles
open Verif.Spec.Str (lowerB upperB SameName)
open Verif.Spec.Semantic (NodeAttr SetAttr TypesNamed Earlier)
open Verif.Spec.GenFiles (GenDir Room below Made Source UsersNamed NoSlash OnlyOurs Provided NoTypesNode NoLinks NoStrings EnumsAsDeclared
  SetsListed UserType Translates worldOf opened Refers IsLink eqSource t)

theorem opened_unblock : ∀ bs : List Block, opened (unblock bs) = bs.map (·.1)
  | [] => rfl
  | b :: bs => by
    rw [unblock_cons, List.map_cons]
    have : ∀ (is : List Item) (rest : List Step), opened (is.map .emit ++ rest) = opened rest := by
      intro is rest
      induction is with
      | nil => rfl
      | cons i is ih => exact ih
    simp only [opened, this, opened_unblock bs]

theorem files_set {addr : Loc → Nat} {A : Parse.Ast} (ha : Spec.Semantic.Apart addr) (hp : TypesNamed A) (he : Earlier A) (hu : UsersNamed A)
    (hn : NoSlash A) {fuel : Nat} {o : Out} (h : checks addr fuel A = .ok o) (h0 : o.errors = 0) {backend : CStr}
    (hb : backendIsDynamic backend = .ok true) {g d : CStr} (hg : GenDir g d) {k k' : Disk} (hr : Room k.dirs k.file d)
    (ho : OnlyOurs A k.file d) (hm : main g backend A o k = .ok k') (user : Option (List CStr)) :
    ∃ v u hs ts, GenFiles.Good A v u ∧ Set A v u hs ts user (worldOf k'.file d (library user)) := by
  obtain ⟨v, u, hs, ts, k1, h1, hw, hgd, ran⟩ := run_ok ha hp he hu hn h h0 hb hg hr
  cases h1.symm.trans hm
  have kn := Described.known_of ha hp he h h0
  refine ⟨v, u, hs, ts, hgd, hw, hn, ⟨_, kn.facts.right⟩, fun p c hpc => ran.file p c hpc, fun p hne => ?_, rfl⟩
  by_cases hk : IsKey A p
  · exact hk
  · have : k'.file (d ++ p) = k.file (d ++ p) := ran.rest _ fun b hb e => by
      rw [List.append_cancel_left e] at hk
      exact hk ((mem_keys hw).1 (List.mem_map_of_mem hb))
    exact made_iff.1 (ho p (by rw [← this]; exact hne))

/-- C73: no file is opened twice, and the files that are opened are those for the description. -/
theorem C73_once (addr : Loc → Nat) (A : Parse.Ast) (ha : Spec.Semantic.Apart addr) (hp : TypesNamed A) (he : Earlier A) (hu : UsersNamed A)
    (fuel : Nat) (o : Out) (h : checks addr fuel A = .ok o) (h0 : o.errors = 0) (backend : CStr) (hb : backendIsDynamic backend = .ok true) :
    ∃ ss, startPhase backend A o = .ok ss ∧ (opened ss).Nodup ∧ ∀ p, p ∈ opened ss ↔ Made A p := by
  obtain ⟨v, u, hs, ts, h1, hw, _⟩ := start_ok ha hp he hu h h0 hb
  refine ⟨_, h1, ?_, fun p => ?_⟩
  · rw [opened_unblock]
    exact keys_nodup (Described.known_of ha hp he h h0).facts.right hw
  · rw [opened_unblock, made_iff]
    exact mem_keys hw

/-- C73: the run works, if the directories can be made.  Then the files of the description are there, and all other files are as before. -/
theorem C73_written (addr : Loc → Nat) (A : Parse.Ast) (ha : Spec.Semantic.Apart addr) (hp : TypesNamed A) (he : Earlier A) (hu : UsersNamed A)
    (hn : NoSlash A) (fuel : Nat) (o : Out) (h : checks addr fuel A = .ok o) (h0 : o.errors = 0) (backend : CStr)
    (hb : backendIsDynamic backend = .ok true) (g d : CStr) (hg : GenDir g d) (k : Disk) (hr : Room k.dirs k.file d) :
    ∃ k', main g backend A o k = .ok k' ∧ (∀ p, Made A p → k'.file (d ++ p) ≠ none) ∧
      (∀ q, (∀ p, Made A p → q ≠ d ++ p) → k'.file q = k.file q) ∧
      ∀ x, x ∈ k'.dirs ↔ x = d ∨ (∃ s ∈ below, x = d ++ s ++ t "/") ∨ x ∈ k.dirs := by
  obtain ⟨v, u, hs, ts, k', h1, hw, _, ran⟩ := run_ok ha hp he hu hn h h0 hb hg hr
  refine ⟨k', h1, fun p hm => ?_, fun q hq => ran.rest q fun b hb e => ?_, ran.dirs⟩
  · obtain ⟨c, hc⟩ := mem_blocks hw (made_iff.1 hm)
    rw [ran.file p c hc]
    exact nofun
  · exact hq b.1 (made_iff.2 ((mem_keys hw).1 (List.mem_map_of_mem hb))) e

/-- C73: every generated source file finds what it includes, and every word is declared before it is used.  Missing: descriptions with equations
for or from links to nodes (`C73_link_false`), or for strings (`C73_string_false`), with a node called like the header of the user (`C73_types_false`), or with an enumeration in another case in a constructor
(`C73_case_false`), and other backends (`C73_backend_false`). -/
theorem C73_translates_partial (addr : Loc → Nat) (A : Parse.Ast) (ha : Spec.Semantic.Apart addr) (hp : TypesNamed A) (he : Earlier A)
    (hu : UsersNamed A) (hn : NoSlash A) (fuel : Nat) (o : Out) (h : checks addr fuel A = .ok o) (h0 : o.errors = 0) (backend : CStr)
    (hb : backendIsDynamic backend = .ok true) (g d : CStr) (hg : GenDir g d) (k k' : Disk) (hr : Room k.dirs k.file d)
    (ho : OnlyOurs A k.file d) (hm : main g backend A o k = .ok k') (user : Option (List CStr)) (hl : NoLinks A) (hs : NoStrings A)
    (hd : EnumsAsDeclared A) (hx : SetsListed A) (hy : NoTypesNode A) (hv : Provided A user) (p : CStr) (hsrc : Source A p) :
    Translates (worldOf k'.file d (library user)) p := by
  obtain ⟨v, u, hs', ts, hgd, S⟩ := files_set ha hp he hu hn h h0 hb hg hr ho hm user
  have ht := sets_seen (Described.known_of ha hp he h h0) h0 he hx
  have U : User A u user (user.getD []) (worldOf k'.file d (library user)) := by
    refine ⟨fun e => ?_, fun x hx _ => ?_, fun e => ?_⟩
    · obtain ⟨x, hx⟩ := S.written.user e
      obtain ⟨l, rfl, _⟩ := hv x hx
      rfl
    · obtain ⟨l, rfl, hxl⟩ := hv x hx
      exact hxl
    · cases hf : (worldOf k'.file d (library user)).file (eqDir ++ b!"user_types.h") with
      | none => rfl
      | some c =>
        exfalso
        have hk := S.only _ (by rw [hf]; exact nofun)
        generalize hq : eqDir ++ b!"user_types.h" = q at hk
        cases hk with
        | always h => subst hq; exact absurd h (by decide +kernel)
        | @header n h1 h2 =>
          refine hy (S.written.user e) n h1 h2 ?_
          unfold headerOf at hq
          rw [List.append_cancel_left_eq, show b!"user_types.h" = b!"user_types" ++ b!".h" from rfl, List.append_cancel_right_eq] at hq
          show n.name.orig.map lowerB = (t "user_types").map lowerB
          rw [← lwr_eq, ← hq]
          decide +kernel
        | @template n _ _ =>
          have := congrArg (b!"user/".isPrefixOf ·) hq
          cases this
        | @trav x _ =>
          have := congrArg (b!"user/".isPrefixOf ·) hq
          cases this
  have C : Conds A v u := ⟨⟨hgd.nodes ht, hgd.sets ht, hgd.ctors ht hd, hgd.fields⟩, hu, hgd.seen, ht, hl, hs⟩
  cases made_iff.1 (.source hsrc) with
  | always hk =>
    refine always_source S U C ?_
    cases hsrc with
    | always hx => exact (by decide +kernel : ∀ p ∈ Spec.GenFiles.sources, p ∈ [b!"ast.c", b!"trav_data.c", b!"vtables.c", b!"ccn_copy.c",
        b!"ccn_free.c", b!"ccn_check.c", b!"visit.c", b!"ag.c", b!"trav.c", b!"action_handling.c", b!"user/passes.c"]) p hx
    | @trav x hx =>
      have := (always_other hk).2.2
      have e : Spec.GenFiles.t "user/trav_" = b!"user/trav_" := by decide +kernel
      rw [Spec.GenFiles.travSource, e] at this
      cases this
    | @eqs n _ _ =>
      have := (always_other hk).2.1
      have e : Spec.GenFiles.t "user/eq_" = b!"user/eq_" := by decide +kernel
      rw [Spec.GenFiles.eqSource, e] at this
      cases this
  | @header n h1 h2 =>
    exfalso
    generalize hq : headerOf n = q at hsrc
    cases hsrc with
    | always hx =>
      have := (header_pre n).1
      rw [hq] at this
      cases ((by decide +kernel : ∀ p ∈ Spec.GenFiles.sources, eqDir.isPrefixOf p = false) q hx).symm.trans this
    | @trav x hx =>
      have e : Spec.GenFiles.t "user/trav_" = b!"user/trav_" := by decide +kernel
      rw [Spec.GenFiles.travSource, e] at hq
      have := congrArg (b!"user/".isPrefixOf ·) hq
      cases this
    | @eqs n _ _ =>
      have e : Spec.GenFiles.t "user/eq_" = b!"user/eq_" := by decide +kernel
      rw [Spec.GenFiles.eqSource, e] at hq
      have := congrArg (b!"user/".isPrefixOf ·) hq
      cases this
  | template h1 h2 =>
    obtain ⟨j, hj⟩ := List.getElem?_of_mem h1
    exact template_source S U C hj h2
  | trav h1 => exact trav_source S U C h1

/-- C73: if an equation has to do with a link to a node, neither `visit.c` nor the templates for the node work. -/
theorem C73_link (addr : Loc → Nat) (A : Parse.Ast) (ha : Spec.Semantic.Apart addr) (hp : TypesNamed A) (he : Earlier A)
    (hu : UsersNamed A) (hn : NoSlash A) (fuel : Nat) (o : Out) (h : checks addr fuel A = .ok o) (h0 : o.errors = 0) (backend : CStr)
    (hb : backendIsDynamic backend = .ok true) (g d : CStr) (hg : GenDir g d) (k k' : Disk) (hr : Room k.dirs k.file d)
    (ho : OnlyOurs A k.file d) (hm : main g backend A o k = .ok k') (user : Option (List CStr)) (hl : ∀ l ∈ user, t "node_st" ∉ l)
    (i : Nat) (n : Parse.Node) (hi : A.nodes[i]? = some n) (e : Parse.Equation) (hq : e ∈ n.equations) (r : Parse.Ref) (hre : r ∈ e.rule :: e.args)
    (hlink : ∀ a, Refers A i n r a → IsLink A a) :
    ¬ Translates (worldOf k'.file d (library user)) (t "visit.c") ∧ ¬ Translates (worldOf k'.file d (library user)) (eqSource n) := by
  obtain ⟨v, u, hs', ts, hgd, S⟩ := files_set ha hp he hu hn h h0 hb hg hr ho hm user
  have e1 : t "node_st" = b!"node_st" ∧ t "visit.c" = b!"visit.c" := by decide +kernel
  rw [e1.1] at hl
  rw [e1.2, eqSource_eq]
  exact ⟨visit_link S hl ⟨hi, e, hq, r, hre, hlink⟩, template_link S hl ⟨hi, e, hq, r, hre, hlink⟩⟩

/-- C73: if an equation is for a string or a link to a node, the templates for the node do not work. -/
theorem C73_null (addr : Loc → Nat) (A : Parse.Ast) (ha : Spec.Semantic.Apart addr) (hp : TypesNamed A) (he : Earlier A)
    (hu : UsersNamed A) (hn : NoSlash A) (fuel : Nat) (o : Out) (h : checks addr fuel A = .ok o) (h0 : o.errors = 0) (backend : CStr)
    (hb : backendIsDynamic backend = .ok true) (g d : CStr) (hg : GenDir g d) (k k' : Disk) (hr : Room k.dirs k.file d)
    (ho : OnlyOurs A k.file d) (hm : main g backend A o k = .ok k') (user : Option (List CStr)) (hl : ∀ l ∈ user, t "NULL" ∉ l)
    (i : Nat) (n : Parse.Node) (hi : A.nodes[i]? = some n) (e : Parse.Equation) (hq : e ∈ n.equations)
    (hnull : ∀ a, Refers A i n e.rule a → a.type = .string ∨ IsLink A a) :
    ¬ Translates (worldOf k'.file d (library user)) (eqSource n) := by
  obtain ⟨v, u, hs', ts, hgd, S⟩ := files_set ha hp he hu hn h h0 hb hg hr ho hm user
  have e1 : t "NULL" = b!"NULL" := by decide +kernel
  rw [e1] at hl
  rw [eqSource_eq]
  exact template_null S hl ⟨hi, e, hq, hnull⟩

/-- C73: with another backend `action_handling.c` does not work, unless another run has left an `enum.h`. -/
theorem C73_backend (A : Parse.Ast) (o : Out) (backend : CStr) (hb : backendIsDynamic backend = .ok false) (g d : CStr) (hg : GenDir g d)
    (k k' : Disk) (hr : Room k.dirs k.file d) (hm : main g backend A o k = .ok k') (he : k.file (d ++ t "ccngen/enum.h") = none)
    (user : Option (List CStr)) : ¬ Translates (worldOf k'.file d (library user)) (t "action_handling.c") := by
  have e1 : t "ccngen/enum.h" = b!"ccngen/enum.h" ∧ t "action_handling.c" = b!"action_handling.c" := by decide +kernel
  rw [e1.1] at he
  rw [e1.2]
  exact no_enum hg hr hb hm he user

/-- C73 is false for an empty name of the directory: a byte before the name is read. -/
theorem C73_empty_false (A : Parse.Ast) (o : Out) (backend : CStr) (k : Disk) : main [] backend A o k = .ub "path[-1]" := rfl

/-! ## Examples -/

/-- A disk with a directory, and nothing in it. -/
def blank : Disk := ⟨[[]], fun _ => none, none⟩

theorem blank_room : Room blank.dirs blank.file (t "gen/") := ⟨.inr ⟨rfl, by decide +kernel⟩, fun _ _ => rfl⟩

theorem blank_ours (A : Parse.Ast) : OnlyOurs A blank.file (t "gen/") := fun _ h => absurd rfl h

theorem gen_dir : GenDir (t "gen") (t "gen/") := by
  have h : t "gen" ≠ [] ∧ (t "gen").getLast? ≠ some 47 ∧ t "gen/" = t "gen" ++ t "/" := by decide +kernel
  rw [h.2.2]
  exact .plain h.1 h.2.1

/-- As a check: what the scanner and the parser see to. -/
def usersB (A : Parse.Ast) : Bool :=
  A.nodes.all (fun n => n.attrs.all fun a => a.type != .user || a.ref.isSome) &&
  A.nodesets.all (fun n => n.attrs.all fun a => a.type != .user || a.ref.isSome) &&
  A.traversals.all (fun x => x.data.all fun d => d.type != .user || d.ref.isSome) &&
  A.nodes.all (fun n => decide ((47 : UInt8) ∉ n.name.orig)) && A.traversals.all fun x => decide ((47 : UInt8) ∉ x.name.orig)

theorem users_of {A : Parse.Ast} (h : usersB A = true) : UsersNamed A ∧ NoSlash A := by
  simp only [usersB, Bool.and_eq_true, List.all_eq_true, Bool.or_eq_true, bne_iff_ne, ne_eq, decide_eq_true_eq] at h
  exact ⟨⟨fun n hn a ha e => (h.1.1.1.1 n hn a ha).resolve_left (· e), fun n hn a ha e => (h.1.1.1.2 n hn a ha).resolve_left (· e),
    fun x hx d hd e => (h.1.1.2 x hx d hd).resolve_left (· e)⟩, h.1.2, h.2⟩

/-- The description meets the conditions on what is read, the checks accept it, and the run with this backend has a result with the property. -/
def Run (f : List Spec.Syntax.Entry) (backend : CStr) (P : Disk → Prop) : Prop :=
  TypesNamed (ast f) ∧ Earlier (ast f) ∧ UsersNamed (ast f) ∧ NoSlash (ast f) ∧ ∃ o, checks sampleAddr 60 (ast f) = .ok o ∧ o.errors = 0 ∧
    ∃ k, main (t "gen") backend (ast f) o blank = .ok k ∧ P k

theorem run_of {f : List Spec.Syntax.Entry} {backend : CStr} {P : Disk → Prop} {p : Disk → Bool} (hp : ∀ x, p x = true → P x)
    (h1 : (plainAst (ast f) && flatSets (ast f) && usersB (ast f)) = true) (h2 : (match checks sampleAddr 60 (ast f) with
      | .ok o => o.errors == 0 && (match main (t "gen") backend (ast f) o blank with | .ok k => p k | _ => false)
      | _ => false) = true) : Run f backend P := by
  simp only [Bool.and_eq_true] at h1
  refine ⟨named_of_plain h1.1.1, earlier_of_flat h1.1.2, (users_of h1.2).1, (users_of h1.2).2, ?_⟩
  split at h2
  · rename_i o ho
    simp only [Bool.and_eq_true, beq_iff_eq] at h2
    refine ⟨o, ho, h2.1, ?_⟩
    have h3 := h2.2
    split at h3
    · rename_i k hk
      exact ⟨k, hk, hp _ h3⟩
    · cases h3
  · cases h2

/-- The source file does not work. -/
def Fails (user : Option (List CStr)) (path : CStr) (k : Disk) : Prop := ¬ Translates (worldOf k.file (t "gen/") (library user)) path

/-- As a check. -/
def failsB (user : Option (List CStr)) (path : CStr) (k : Disk) : Bool :=
  match Spec.GenFiles.translate (worldOf k.file (t "gen/") (library user)) 30 path with
  | .abort _ => true
  | _ => false

theorem fails_of {user : Option (List CStr)} {path : CStr} (k : Disk) (h : failsB user path k = true) : Fails user path k := by
  unfold failsB at h
  split at h
  · rename_i e he
    exact Spec.GenFiles.not_translates he
  · cases h

/-- Nodes with equations, a nodeset with an attribute, and a traversal with data of a type of the user. -/
def filesFile : List Spec.Syntax.Entry :=
  [.phase (.mk true false (nm "All" 0) none none none (.one (.traversal ⟨nm "Rename" 0, none, nm "RN" 0, none,
      [⟨.user (nm "fileptr" 0), nm "out" 0⟩, ⟨.prim .int, nm "depth" 0⟩]⟩))),
    .node ⟨true, nm "Prog" 0, [⟨nm "Expr" 0, nm "e" 0, none⟩], [intAttr "sum" [.synthesized]], [eqn none "sum" [(some "e", "val")]], [], false⟩,
    .node ⟨false, nm "Num" 0, [], [intAttr "lit" [.constructor]], [eqn none "val" [(none, "lit")]], [], false⟩,
    .nodeset (.long (nm "Expr" 0) none ⟨.lit (nm "Num" 0) [], .nil⟩ [intAttr "val" [.synthesized]])]

theorem dynamic_ok : backendIsDynamic (t "dynamic") = .ok true ∧ backendIsDynamic (t "static") = .ok false ∧ backendIsDynamic (t "typed") = .ok false := by
  decide +kernel

/-- As a check: no attribute is a link or an enumeration, and no attribute of a node or nodeset has a type of the user or is a string. -/
def flatB : Parse.Ast → Bool := attrsB fun a => a.type != .link_or_enum && a.type != .user && a.type != .string

theorem flat_of {A : Parse.Ast} (h : flatB A = true) : NoLinks A ∧ NoStrings A ∧ EnumsAsDeclared A := by
  have set : ∀ {j a}, SetAttr A j a → (a.type ≠ .link_or_enum ∧ a.type ≠ .user) ∧ a.type ≠ .string := by
    intro j a hs
    simp only [flatB, attrsB, Bool.and_eq_true, List.all_eq_true, bne_iff_ne, ne_eq] at h
    cases hs with
    | own h1 h2 => exact h.2 _ (List.mem_of_getElem? h1) _ h2
    | named h1 h2 _ => exact h.2 _ (List.mem_of_getElem? h1) _ h2
  have node : ∀ {j a}, NodeAttr A j a → (a.type ≠ .link_or_enum ∧ a.type ≠ .user) ∧ a.type ≠ .string := by
    intro j a hn
    have := attrsB_node h hn
    simpa only [Bool.and_eq_true, bne_iff_ne, ne_eq] using this
  have ref : ∀ {k n r a}, Refers A k n r a → (a.type ≠ .link_or_enum ∧ a.type ≠ .user) ∧ a.type ≠ .string := by
    intro k n r a hr
    cases hr with
    | own _ h1 _ => exact node h1
    | node _ _ _ _ _ _ _ _ _ h1 _ => exact node h1
    | set _ _ _ _ _ _ _ _ _ h1 _ => exact set h1
  refine ⟨fun k n _ e _ r _ a hr hl => (ref hr).1.1 hl.1, fun k n _ e _ a hr => (ref hr).2, fun k a ha _ e => absurd e (node ha).1.1⟩

/-- As a check: all types of the user are among these, and no node is called `user_types`. -/
def userB (l : List CStr) (A : Parse.Ast) : Bool :=
  A.nodes.all (fun n => n.attrs.all fun a => a.type != .user || a.ref.all fun r => decide (r.orig ∈ l)) &&
  A.nodesets.all (fun n => n.attrs.all fun a => a.type != .user || a.ref.all fun r => decide (r.orig ∈ l)) &&
  A.traversals.all (fun x => x.data.all fun d => d.type != .user || d.ref.all fun r => decide (r.orig ∈ l)) &&
  A.nodes.all fun n => n.name.orig.map lowerB != (t "user_types").map lowerB

theorem user_of {l : List CStr} {A : Parse.Ast} (h : userB l A = true) : Provided A (some l) ∧ NoTypesNode A := by
  simp only [userB, Bool.and_eq_true, List.all_eq_true, Bool.or_eq_true, bne_iff_ne, ne_eq, Option.all_eq_true, decide_eq_true_eq] at h
  refine ⟨fun x hx => ⟨l, rfl, ?_⟩, fun _ n hn _ e => h.2 n hn e⟩
  cases hx with
  | node h1 h2 h3 h4 => exact (h.1.1.1 _ h1 _ h2).resolve_left (· h3) _ h4
  | set h1 h2 h3 h4 => exact (h.1.1.2 _ h1 _ h2).resolve_left (· h3) _ h4
  | data h1 h2 h3 h4 => exact (h.1.2 _ h1 _ h2).resolve_left (· h3) _ h4

theorem filesFile_run : Run filesFile (t "dynamic") fun k => k.file (t "gen/ccngen/equations/prog.h") ≠ none ∧ k.file (t "gen/user/eq_num.c") ≠ none ∧
    k.file (t "gen/user/trav_rename.c") ≠ none ∧ k.file (t "gen/user/eq_expr.c") = none :=
  run_of (p := fun k => (k.file (t "gen/ccngen/equations/prog.h")).isSome && (k.file (t "gen/user/eq_num.c")).isSome &&
      (k.file (t "gen/user/trav_rename.c")).isSome && (k.file (t "gen/user/eq_expr.c")).isNone)
    (fun k h => by simpa [Option.isSome_iff_ne_none, and_assoc] using h) (by decide +kernel) (by decide +kernel)

/-- The conditions of `C73_once`, `C73_written` and `C73_translates_partial` for this description, with a file of each kind. -/
example : Spec.Semantic.Apart sampleAddr ∧ backendIsDynamic (t "dynamic") = .ok true ∧ GenDir (t "gen") (t "gen/") ∧
    Room blank.dirs blank.file (t "gen/") ∧ OnlyOurs (ast filesFile) blank.file (t "gen/") ∧ NoLinks (ast filesFile) ∧ NoStrings (ast filesFile) ∧
    EnumsAsDeclared (ast filesFile) ∧ SetsListed (ast filesFile) ∧ NoTypesNode (ast filesFile) ∧
    Provided (ast filesFile) (some [t "fileptr"]) ∧
    Run filesFile (t "dynamic") fun k => k.file (t "gen/ccngen/equations/prog.h") ≠ none ∧ k.file (t "gen/user/eq_num.c") ≠ none ∧
      k.file (t "gen/user/trav_rename.c") ≠ none ∧ k.file (t "gen/user/eq_expr.c") = none := by
  have h1 := flat_of (A := ast filesFile) (by decide +kernel)
  have h2 := user_of (l := [t "fileptr"]) (A := ast filesFile) (by decide +kernel)
  have h3 : SetsListed (ast filesFile) := by
    intro s hs
    cases hs with
    | head => exact nofun
    | tail _ h => cases h
  exact ⟨sampleAddr_apart, dynamic_ok.1, gen_dir, blank_room, blank_ours _, h1.1, h1.2.1, h1.2.2, h3, h2.2, h2.1, filesFile_run⟩

/-- Without the header of the user it does not work: the condition is needed. -/
example : Run filesFile (t "dynamic") (Fails none (t "user/trav_rename.c")) := run_of fails_of (by decide +kernel) (by decide +kernel)

/-- A node with attributes and equations, and a traversal. -/
def lone (attrs : List Spec.Syntax.Attr) (eqs : List Spec.Syntax.Equation) (name : String) : List Spec.Syntax.Entry :=
  [.phase (.mk true false (nm "All" 0) none none none (.one (rename "RN"))), .node ⟨true, nm name 0, [], attrs, eqs, [], false⟩,
    .enum ⟨nm "Kind" 0, none, nm "K" 0, [nm "a" 0]⟩]

/-- An equation for a link to a node. -/
def linkFile : List Spec.Syntax.Entry := lone [⟨.named (nm "Prog" 0), nm "best" 0, some [.synthesized]⟩] [eqn none "best" []] "Prog"

/-- C73 is false for equations for links to nodes (`gen_equation_functions.c:56-93`): `node_st` is not declared. -/
theorem C73_link_false : ∃ f, Run f (t "dynamic") fun k => Fails (some []) (t "visit.c") k ∧ Fails (some []) (t "user/eq_prog.c") k :=
  ⟨linkFile, run_of (p := fun k => failsB (some []) (t "visit.c") k && failsB (some []) (t "user/eq_prog.c") k)
    (fun k h => by rw [Bool.and_eq_true] at h; exact ⟨fails_of k h.1, fails_of k h.2⟩) (by decide +kernel) (by decide +kernel)⟩

/-- The conditions of `C73_link` and `C73_null` for it. -/
example : ∃ n e, (ast linkFile).nodes[0]? = some n ∧ e ∈ n.equations ∧ (∀ a, Refers (ast linkFile) 0 n e.rule a → IsLink (ast linkFile) a) ∧
    ∀ l ∈ (some [] : Option (List CStr)), t "node_st" ∉ l ∧ t "NULL" ∉ l := by
  refine ⟨_, _, rfl, .head _, fun a hr => ?_, fun l hl => by cases hl; decide⟩
  have h : attrsB (fun a => a.type == .link_or_enum && a.ref.any fun r => (ast linkFile).nodes.any fun n => n.name.orig.map lowerB == r.orig.map lowerB)
      (ast linkFile) = true := by decide +kernel
  have key : ∀ {j}, NodeAttr (ast linkFile) j a → IsLink (ast linkFile) a := by
    intro j hn
    have := attrsB_node h hn
    simp only [Bool.and_eq_true, beq_iff_eq, Option.any_eq_true, List.any_eq_true] at this
    obtain ⟨h1, r, h2, n, h3, h4⟩ := this
    exact ⟨h1, r, h2, .inl ⟨n, h3, h4⟩⟩
  cases hr with
  | own _ h1 _ => exact key h1
  | node _ _ _ _ h1 _ _ _ _ _ _ => cases h1
  | set _ _ _ _ h1 _ _ _ _ _ _ => cases h1

/-- C73 is false for equations for strings (`gen_user_equations.c`): `NULL` is not declared in the template. -/
theorem C73_string_false : ∃ f, Run f (t "dynamic") (Fails (some []) (t "user/eq_prog.c")) :=
  ⟨lone [⟨.prim .string, nm "s" 0, some [.synthesized]⟩] [eqn none "s" []] "Prog", run_of fails_of (by decide +kernel) (by decide +kernel)⟩

/-- C73 is false for a node called `user_types`: its header is found instead of that of the user. -/
theorem C73_types_false : ∃ f, Run f (t "dynamic") (Fails (some [t "fileptr"]) (t "user/eq_user_types.c")) :=
  ⟨lone [⟨.user (nm "fileptr" 0), nm "x" 0, some [.synthesized]⟩] [eqn none "x" []] "user_types", run_of fails_of (by decide +kernel) (by decide +kernel)⟩

/-- C73 is false for an enumeration in another case in a constructor: there is no `enum kind`. -/
theorem C73_case_false : ∃ f, Run f (t "dynamic") (Fails (some []) (t "ast.c")) :=
  ⟨lone [⟨.named (nm "kind" 0), nm "x" 0, some [.constructor]⟩] [] "Prog", run_of fails_of (by decide +kernel) (by decide +kernel)⟩

/-- C73 is false for the other backends: the static one, and the one that the help names (`cocogen/main.c`). -/
theorem C73_backend_false : ∃ f, Run f (t "static") (Fails (some []) (t "action_handling.c")) ∧ Run f (t "typed") (Fails (some []) (t "action_handling.c")) :=
  ⟨lone [] [] "Prog", run_of fails_of (by decide +kernel) (by decide +kernel), run_of fails_of (by decide +kernel) (by decide +kernel)⟩

/-- The conditions of `C73_backend` for it. -/
example : backendIsDynamic (t "static") = .ok false ∧ GenDir (t "gen") (t "gen/") ∧ Room blank.dirs blank.file (t "gen/") ∧
    blank.file (t "gen/" ++ t "ccngen/enum.h") = none := ⟨dynamic_ok.2.1, gen_dir, blank_room, rfl⟩

end Verif.Props
