import Verif.Lemmas.GenFilesRun
import Verif.Lemmas.GenFilesWalk
import Verif.Lemmas.EnumHeader

/-!
# The generated files work out
-/

namespace Verif.GenFiles
open Verif.Str Verif.Ids Verif.Semantic
open Verif.Spec.Str (lowerB upperB SameName)
open Verif.Spec.GenFiles (Place At find findPath findLib Covers Flow UserType SetTypesSeen EnumsAsDeclared NoLinks NoStrings NoSlash
  UsersNamed Refers IsLink)

/-- Classes of words. -/
inductive Cls where
  | sym (s : Sym)
  | enums
  | user
  | mac
  | gates
  deriving DecidableEq

/-- Words, as classes. -/
abbrev syms (l : List CStr) : List Cls := l.map fun w => .sym (.word w)

/-- The words of a class. -/
def cover (A : Parse.Ast) (u : Bool) (l : List CStr) : Cls → List Sym
  | .sym s => [s]
  | .enums => enumDecls A
  | .user => match u with
    | true => words l
    | false => []
  | .mac => match u with
    | true => [Spec.GenFiles.usesUnsafe]
    | false => []
  | .gates => words (gates A)

/-- Everything but the macro; that one only if it is defined. -/
def Fine (u : Bool) (x : Sym) : Prop := x = Spec.GenFiles.usesUnsafe → u = true

theorem fine_words (u : Bool) (l : List CStr) : ∀ x ∈ words l, Fine u x := by
  intro x hx e
  obtain ⟨w, _, rfl⟩ := List.mem_map.1 hx
  cases e

/-! ### What headers need and provide -/

/-- The types of attributes without nodes. -/
def plainTypes : List Cls := basics.map .sym ++ [.enums, .user]
/-- The types of attributes. -/
def types : List Cls := .sym (.word b!"node_st") :: plainTypes
/-- What `enum.h` declares. -/
def enumCls : List Cls :=
  [.enums, .sym (.tag b!"ccn_nodetype"), .sym (.tag b!"ccn_traversal_type"), .sym (.tag b!"ccn_pass_type")] ++
    syms [b!"_NT_SIZE", b!"_TRAV_SIZE", b!"_PASS_SIZE"]
/-- `stdbool.h` and `stdint.h`. -/
def std : List Cls := syms [b!"bool", b!"true", b!"false"] ++ syms [b!"int8_t", b!"int16_t", b!"int32_t", b!"int64_t", b!"uint8_t", b!"uint16_t",
  b!"uint32_t", b!"uint64_t"]
/-- `ccn_types.h`. -/
def typesCls : List Cls := enumCls ++ std ++ syms [b!"ccn_trav_ft", b!"ccn_pass_ft", b!"ccn_trav_data_ft"]
/-- `ast.h`. -/
def astCls : List Cls := typesCls ++ [.mac, .user] ++ syms [b!"node_st", b!"NULL", b!"size_t"]
/-- `dynamic_core.h`. -/
def coreCls : List Cls := astCls ++ syms [b!"ccn_trav_st", b!"TRAVerror", b!"PASSerror", b!"TRAVopt", b!"TRAVchildren", b!"TRAVnop", b!"TRAVdataNOP"]
/-- `phase_driver.h`. -/
def driverCls : List Cls := astCls ++ syms [b!"CCNrun", b!"CCNgetCurrentActionId"]

/-- Rank, needs and provisions of the headers of the libraries. -/
def libInfo : List (CStr × Nat × List Cls × List Cls) :=
  [(b!"stddef.h", 0, [], syms [b!"NULL", b!"size_t"]), (b!"stdlib.h", 0, [], syms [b!"NULL", b!"size_t"]),
    (b!"stdio.h", 0, [], syms [b!"NULL", b!"size_t"]), (b!"stdarg.h", 0, [], []), (b!"stdbool.h", 0, [], syms [b!"bool", b!"true", b!"false"]),
    (b!"stdint.h", 0, [], syms [b!"int8_t", b!"int16_t", b!"int32_t", b!"int64_t", b!"uint8_t", b!"uint16_t", b!"uint32_t", b!"uint64_t"]),
    (b!"ccn/ccn_types.h", 2, [], typesCls), (b!"ccn/dynamic_core.h", 5, [], coreCls), (b!"ccn/phase_driver.h", 4, [], driverCls),
    (b!"ccn/ccn.h", 6, [], coreCls ++ driverCls), (b!"ccn/action_types.h", 3, [], .sym (.tag b!"ccn_action_id") :: syms [b!"ccn_action", b!"bool"]),
    (b!"palm/memory.h", 1, [], syms [b!"MEMmalloc", b!"MEMfree", b!"NULL"]), (b!"palm/dbug.h", 1, [], syms [b!"DBUG_ASSERT", b!"DBUGprintAssert", b!"NULL"]),
    (b!"palm/str.h", 1, [], syms [b!"STRcpy"]), (b!"palm/ctinfo.h", 1, [], syms [b!"CTI", b!"CTIabortCompilation", b!"CTI_ERROR", b!"CTI_WARN"])]

/-- The same for generated headers. -/
def madeInfo : List (CStr × Nat × List Cls × List Cls) :=
  [(b!"ccngen/ast.h", 3, [], astCls), (b!"ccngen/enum.h", 0, [], enumCls), (b!"ccngen/trav_data.h", 4, [], astCls), (b!"ccngen/actions.h", 0, [], []),
    (b!"ccngen/equation.h", 4, [], []), (b!"ccngen/visit.h", 4, [], astCls), (b!"ccngen/ag.h", 3, syms [b!"node_st"], []),
    (b!"ccngen/trav.h", 4, [], astCls), (b!"ccngen/action_handling.h", 0, [], [.sym (.tag b!"ccn_action_id")]),
    (b!"ccngen/gate.h", 0, syms [b!"bool"], [.gates]), (b!"ccngen/ccn_defs.h", 0, [], [.mac])]

/-- The same for all headers. -/
def info : Place → Nat × List Cls × List Cls
  | .lib n =>
    match n == b!"user_types.h" with
    | true => (0, [], [.user])
    | false => (libInfo.lookup n).getD (100, [], [])
  | .made p =>
    match madeInfo.lookup p with
    | some i => i
    | none =>
      match eqDir.isPrefixOf p with
      | true => (3, [], plainTypes ++ syms [b!"true", b!"false"])
      | false => (100, [], [])

/-- The rank of a header. -/
abbrev rank (p : Place) : Nat := (info p).1
/-- What a header needs. -/
abbrev need (p : Place) : List Cls := (info p).2.1
/-- What a header provides. -/
abbrev prov (p : Place) : List Cls := (info p).2.2

/-! ### A check of lines -/

/-- Lines, with classes. -/
inductive AItem where
  | once
  | incl (sys : Bool) (name : CStr)
  | cond
  | text (ds us : List Cls)

/-- Where a name is found without the directory of the file. -/
def onPath (name : CStr) : Option Place :=
  match isKey name, (libInfo.lookup name).isSome with
  | true, _ => some (.made name)
  | false, true => some (.lib name)
  | false, false => none

/-- Where a name is found. -/
def whereIs (dir : Option CStr) (sys : Bool) (name : CStr) : Option Place :=
  match sys, dir with
  | false, some d =>
    match isKey (d ++ name) with
    | true => some (.made (d ++ name))
    | false => onPath name
  | _, _ => onPath name

/-- A header that is always there. -/
def isHeader : Place → Bool
  | .made p => (madeInfo.lookup p).isSome
  | .lib _ => true

/-- The check. -/
def chk (dir : Option CStr) (r : Nat) : List Cls → List AItem → Option (List Cls)
  | av, [] => some av
  | av, .once :: is => chk dir r av is
  | av, .incl sys name :: is =>
    match whereIs dir sys name with
    | none => none
    | some p =>
      match decide (rank p < r ∧ isHeader p = true ∧ ∀ k ∈ need p, k ∈ av) with
      | true => chk dir r (av ++ prov p) is
      | false => none
  | av, .cond :: is =>
    match decide (Cls.mac ∈ av ∧ 0 < r ∧ ∀ d ∈ dir, d ∈ dirNames) with
    | true => chk dir r (av ++ [.user]) is
    | false => none
  | av, .text ds us :: is =>
    match decide (∀ k ∈ us, k ∈ av) with
    | true => chk dir r (av ++ ds) is
    | false => none

section
variable {A : Parse.Ast} {v : Words} {u : Bool} {hs ts : List Block} {w : Spec.GenFiles.World} {l : List CStr} {user : Option (List CStr)}

/-- Words of a list of classes. -/
def Cov (A : Parse.Ast) (u : Bool) (l : List CStr) (ks : List Cls) (us : List Sym) : Prop := ∀ x ∈ us, Covers (cover A u l) ks x

/-- Lines are as their classes say. -/
inductive Abs (A : Parse.Ast) (u : Bool) (l : List CStr) : List Item → List AItem → Prop where
  | nil : Abs A u l [] []
  | once {is : List Item} {as : List AItem} : Abs A u l is as → Abs A u l (.once :: is) (.once :: as)
  | incl {is : List Item} {as : List AItem} {sys : Bool} {name : CStr} : Abs A u l is as → Abs A u l (.incl sys name :: is) (.incl sys name :: as)
  | cond {is : List Item} {as : List AItem} : Abs A u l is as → Abs A u l (.ifUnsafe b!"user_types.h" :: is) (.cond :: as)
  | text {is : List Item} {as : List AItem} {ds us : List Sym} {dk uk : List Cls} : (∀ x ∈ ds, Fine u x) → Cov A u l uk us →
      (∀ k ∈ dk, ∀ x ∈ cover A u l k, x ∈ ds) → Abs A u l is as → Abs A u l (.text ds us :: is) (.text dk uk :: as)
  | none {is : List Item} {as : List AItem} {dk : List Cls} : (∀ k ∈ dk, cover A u l k = []) → Abs A u l is as → Abs A u l is (.text dk [] :: as)

/-- The generated files and the libraries. -/
structure Set (A : Parse.Ast) (v : Words) (u : Bool) (hs ts : List Block) (user : Option (List CStr)) (w : Spec.GenFiles.World) : Prop where
  written : Written A v u hs ts
  slash : NoSlash A
  right : ∃ tab, Right A tab
  file : ∀ p c, (p, c) ∈ blocks A v u hs ts → w.file p = some c
  only : ∀ p, w.file p ≠ none → IsKey A p
  lib : w.lib = fun n => (library user).lookup n

theorem mem_blocks (hw : Written A v u hs ts) {p : CStr} (h : IsKey A p) : ∃ c, (p, c) ∈ blocks A v u hs ts := by
  obtain ⟨b, hb, rfl⟩ := List.mem_map.1 ((mem_keys hw).2 h)
  exact ⟨b.2, hb⟩

theorem Set.none (S : Set A v u hs ts user w) {p : CStr} (h : isKey p = false) : w.file p = none := by
  cases hf : w.file p with
  | none => rfl
  | some c =>
    have := isKey_of S.slash (S.only p (by rw [hf]; exact fun h => by cases h))
    rw [h] at this
    cases this

theorem lookup_append {α : Type} (a b : List (CStr × α)) (n : CStr) : (a ++ b).lookup n = (a.lookup n).or (b.lookup n) := by
  induction a with
  | nil => rfl
  | cons x a ih =>
    rw [List.cons_append, List.lookup_cons, List.lookup_cons]
    cases n == x.1 with
    | true => rfl
    | false => exact ih

/-- The libraries, without the header of the user. -/
theorem lib_lookup {n : CStr} (h : (libInfo.lookup n).isSome = true) : ∃ c, (library Option.none).lookup n = some c ∧
    (library user).lookup n = some c ∧ Item.once ∈ c := by
  have key : ∀ n ∈ libInfo.map (·.1), ((library Option.none).lookup n).any (fun c => decide (Item.once ∈ c)) = true := by decide +kernel
  have hm : n ∈ libInfo.map (·.1) := by
    obtain ⟨i, hi⟩ := Option.isSome_iff_exists.1 h
    have := List.lookup_eq_some_iff.1 hi
    obtain ⟨a, b, h1, _⟩ := this
    rw [h1]
    simp
  have h1 := key n hm
  cases hc : (library Option.none).lookup n with
  | none => rw [hc] at h1; cases h1
  | some c =>
    rw [hc] at h1
    refine ⟨c, rfl, ?_, of_decide_eq_true h1⟩
    cases user with
    | none => exact hc
    | some l =>
      have e : library (some l) = library Option.none ++ [(b!"user_types.h", [.once, .text (words l) []])] := by
        simp [library]
      rw [e, lookup_append, hc]
      rfl

/-- Generated headers begin with `#pragma once`. -/
theorem made_once (S : Set A v u hs ts user w) {p : CStr} (h : (madeInfo.lookup p).isSome = true) :
    ∃ c, w.file p = some c ∧ Item.once ∈ c := by
  have hm : p ∈ madeInfo.map (·.1) := by
    obtain ⟨i, hi⟩ := Option.isSome_iff_exists.1 h
    obtain ⟨a, b, h1, _⟩ := List.lookup_eq_some_iff.1 hi
    rw [h1]
    simp
  simp only [madeInfo, List.map_cons, List.map_nil, List.mem_cons, List.not_mem_nil, or_false] at hm
  rcases hm with rfl | rfl | rfl | rfl | rfl | rfl | rfl | rfl | rfl | rfl | rfl
  · exact ⟨_, S.file _ (astH v) (by simp [blocks, first]), by simp [astH]⟩
  · exact ⟨_, S.file _ (enumH A) (by simp [blocks, first]), by simp [enumH]⟩
  · exact ⟨_, S.file _ (travDataH v) (by simp [blocks, first]), by simp [travDataH]⟩
  · exact ⟨_, S.file _ actionsH (by simp [blocks, first]), by simp [actionsH]⟩
  · exact ⟨_, S.file _ (equationH A) (by simp [blocks, first]), by simp [equationH]⟩
  · exact ⟨_, S.file _ (visitH v) (by simp [blocks, second]), by simp [visitH]⟩
  · exact ⟨_, S.file _ agH (by simp [blocks, second]), by simp [agH]⟩
  · exact ⟨_, S.file _ travH (by simp [blocks, third]), by simp [travH]⟩
  · exact ⟨_, S.file _ actionH (by simp [blocks, third]), by simp [actionH]⟩
  · exact ⟨_, S.file _ (gateH A) (by simp [blocks, third]), by simp [gateH]⟩
  · exact ⟨_, S.file _ (defsH u) (by simp [blocks, third]), by simp [defsH]⟩

theorem at_header (S : Set A v u hs ts user w) {p : Place} (h : isHeader p = true) (hl : ∀ n, p = .lib n → (libInfo.lookup n).isSome = true) :
    ∃ c, At w p c ∧ Item.once ∈ c := by
  cases p with
  | made p => exact made_once S h
  | lib n =>
    obtain ⟨c, _, h1, h2⟩ := lib_lookup (user := user) (hl n rfl)
    exact ⟨c, by rw [At, S.lib]; exact h1, h2⟩

theorem onPath_find (S : Set A v u hs ts user w) {name : CStr} {p : Place} (h : onPath name = some p) (hh : isHeader p = true) :
    ∃ c, findPath w name = some (p, c) ∧ Item.once ∈ c := by
  unfold onPath at h
  unfold findPath
  split at h
  · cases h
    obtain ⟨c, hc, ho⟩ := made_once S hh
    rw [hc]
    exact ⟨c, rfl, ho⟩
  · rename_i h1 h2
    cases h
    rw [S.none h1]
    obtain ⟨c, _, hc, ho⟩ := lib_lookup (user := user) h2
    refine ⟨c, ?_, ho⟩
    dsimp only
    rw [findLib, S.lib]
    dsimp only
    rw [hc]
    rfl
  · cases h

theorem whereIs_find (S : Set A v u hs ts user w) {dir : Option CStr} {sys : Bool} {name : CStr} {p : Place} (h : whereIs dir sys name = some p)
    (hh : isHeader p = true) : ∃ c, find w dir sys name = some (p, c) ∧ Item.once ∈ c := by
  unfold whereIs at h
  unfold find
  split at h
  · rename_i d
    split at h
    · cases h
      obtain ⟨c, hc, ho⟩ := made_once S hh
      dsimp only
      rw [hc]
      exact ⟨c, rfl, ho⟩
    · rename_i h1
      dsimp only
      rw [S.none h1]
      exact onPath_find S h hh
  · rename_i hx
    cases sys with
    | true => cases dir <;> exact onPath_find S h hh
    | false =>
      cases dir with
      | none => exact onPath_find S h hh
      | some d => exact absurd rfl (hx d rfl)

/-- The header of the user, if it is needed. -/
structure User (A : Parse.Ast) (u : Bool) (user : Option (List CStr)) (l : List CStr) (w : Spec.GenFiles.World) : Prop where
  there : u = true → user = some l
  types : ∀ x, UserType A x → u = true → x ∈ l
  free : u = true → w.file (eqDir ++ b!"user_types.h") = none

theorem user_find (S : Set A v u hs ts user w) (U : User A u user l w) (hu : u = true) {dir : Option CStr}
    (hd : ∀ d ∈ dir, d ∈ dirNames) :
    find w dir false b!"user_types.h" = some (.lib b!"user_types.h", [.once, .text (words l) []]) := by
  have h1 : findPath w b!"user_types.h" = some (.lib b!"user_types.h", [.once, .text (words l) []]) := by
    unfold findPath
    rw [S.none (p := b!"user_types.h") (by decide +kernel)]
    dsimp only
    rw [findLib, S.lib, U.there hu]
    have e : library (some l) = library Option.none ++ [(b!"user_types.h", [.once, .text (words l) []])] := by simp [library]
    dsimp only
    rw [e, lookup_append]
    have : (library Option.none).lookup b!"user_types.h" = .none := by decide +kernel
    rw [this]
    rfl
  unfold find
  cases dir with
  | none => exact h1
  | some d =>
    dsimp only
    have hn : w.file (d ++ b!"user_types.h") = .none := by
      have := hd d rfl
      simp only [dirNames, List.mem_cons, List.not_mem_nil, or_false] at this
      rcases this with rfl | rfl | rfl | rfl
      · exact S.none (by decide +kernel)
      · exact S.none (by decide +kernel)
      · exact U.free hu
      · exact S.none (by decide +kernel)
    rw [hn]
    exact h1

abbrev Flows (A : Parse.Ast) (u : Bool) (l : List CStr) (w : Spec.GenFiles.World) := Flow w rank (cover A u l) need prov (Fine u)

theorem Flow.weaken {K : Type} {w : Spec.GenFiles.World} {rank : Place → Nat} {cover : K → List Sym} {need prov : Place → List K} {Fine : Sym → Prop}
    {dir : Option CStr} {r : Nat} {av : List K} {is : List Item} {fin : List K} : ∀ (l : List K), (∀ k ∈ l, cover k = []) →
    Flow w rank cover need prov Fine dir r (av ++ l) is fin → Flow w rank cover need prov Fine dir r av is fin
  | [], _, h => by rw [List.append_nil] at h; exact h
  | k :: l, hl, h => by
    refine .also k (fun x hx => by rw [hl k List.mem_cons_self] at hx; cases hx) (Flow.weaken l (fun j hj => hl j (List.mem_cons_of_mem _ hj)) ?_)
    rw [List.append_assoc]
    exact h

theorem chk_flow (S : Set A v u hs ts user w) (U : User A u user l w) {dir : Option CStr} {r : Nat} {is : List Item} {as : List AItem}
    (h : Abs A u l is as) : ∀ {av fin : List Cls}, chk dir r av as = some fin → Flows A u l w dir r av is fin := by
  induction h with
  | nil => intro av fin h; cases h; exact .nil
  | once _ ih => exact fun h => .once (ih h)
  | incl _ ih =>
    intro av fin h
    unfold chk at h
    split at h
    · cases h
    · rename_i p hp
      split at h
      · rename_i hd
        obtain ⟨h1, h2, h3⟩ := of_decide_eq_true hd
        obtain ⟨c, hc, ho⟩ := whereIs_find S hp h2
        exact .incl hc h1 ho h3 (ih h)
      · cases h
  | cond _ ih =>
    intro av fin h
    unfold chk at h
    split at h
    · rename_i hd
      obtain ⟨h1, h2, h3⟩ := of_decide_eq_true hd
      cases u with
      | true =>
        refine .on ⟨.mac, h1, List.mem_singleton.2 rfl⟩ (user_find S U rfl h3) ?_ List.mem_cons_self ?_ (ih h)
        · exact h2
        · exact fun k hk => by cases hk
      | false =>
        exact .off (fun hf => by cases hf rfl) (fun k hk => by rw [List.mem_singleton.1 hk]; rfl) (ih h)
    · cases h
  | text h1 h2 h3 _ ih =>
    intro av fin h
    unfold chk at h
    split at h
    · rename_i hd
      have hd := of_decide_eq_true hd
      exact .text h1 (fun x hx => by
        obtain ⟨k, hk, hy⟩ := h2 x hx
        exact ⟨k, hd k hk, hy⟩) h3 (ih h)
    · cases h
  | none h1 _ ih =>
    intro av fin h
    unfold chk at h
    split at h
    · exact Flow.weaken _ h1 (ih h)
    · cases h

end

end Verif.GenFiles
