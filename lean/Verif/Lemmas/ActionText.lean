import Verif.Lemmas.DeclaredFiles
import Verif.Lemmas.TableText
import Verif.Model.ActionText
import Verif.Spec.ActionText

/-!
# Lemmas about the text of `actions.h`
-/

namespace Verif.ActionText
open Verif.Str Verif.Ids Verif.Tables
open Verif.Spec.ActionText
open Verif.Spec.Templates (Tok lex splice keywords declarator head params)
open Verif.Templates (Clean clean_word splice_all lex_word keyword_not)
open Verif.TableText (Lexes Fine)

/-! ### Declarations -/

/-- A text that is read as these declarations. -/
def Says (s : CStr) (l : List Ext) : Prop := Clean s ∧ ∃ ts, l.length ≤ ts.length ∧ Lexes true true s ts ∧
  ∀ n r l', unit n r = some l' → unit (l.length + n) (ts ++ r) = some (l ++ l')

theorem Says.nil : Says [] [] := ⟨nofun, [], Nat.le_refl _, .nil true, fun n r l' h => by simpa using h⟩

theorem Says.append {s s' : CStr} {l l' : List Ext} : Says s l → Says s' l' → Says (s ++ s') (l ++ l') := by
  rintro ⟨h1, ts, h2, h3, h4⟩ ⟨k1, ts', k2, k3, k4⟩
  refine ⟨h1.append k1, ts ++ ts', ?_, h3.append k3, fun n r m hm => ?_⟩
  · simp only [List.length_append]; omega
  · rw [List.append_assoc, List.length_append, List.append_assoc, Nat.add_assoc]
    exact h4 _ _ _ (k4 _ _ _ hm)

theorem says_one {s : CStr} {x : Ext} {k : Tok} {ts : List Tok} (h1 : Clean s) (h2 : Lexes true true s (k :: ts))
    (h3 : ∀ r, external (k :: (ts ++ r)) = some (x, r)) : Says s [x] := by
  refine ⟨h1, k :: ts, by simp, h2, fun n r l' h => ?_⟩
  rw [show [x].length + n = n + 1 from Nat.add_comm _ _]
  show (external (k :: (ts ++ r))).bind _ = _
  rw [h3]
  show (unit n r).bind _ = _
  rw [h]
  rfl

theorem read_of {s : CStr} {l : List Ext} : Says s l → Spec.ActionText.read s = some l := by
  rintro ⟨h1, ts, h2, h3, h4⟩
  have e : lex (.code true) (splice s) = ts := by
    have := h3 []
    rw [List.append_nil, show lex (.code true) [] = [] from rfl, List.append_nil] at this
    rw [splice_all h1, this]
  rw [Spec.ActionText.read, e]
  have := h4 (ts.length - l.length) [] [] (by cases ts.length - l.length <;> rfl)
  rw [List.append_nil, List.append_nil, Nat.add_sub_cancel' h2] at this
  exact this

theorem says_pragma : Says b!"#pragma once\n" [.directive b!"pragma once"] :=
  says_one (by unfold Clean; decide) (fun _ => rfl) fun _ => rfl

theorem says_typedef : Says b!"typedef struct ccn_node ccn_node;\n" [.typedef b!"ccn_node" b!"ccn_node"] := by
  refine says_one (k := .id b!"typedef") (ts := [.id b!"struct", .id b!"ccn_node", .id b!"ccn_node", .sym 59]) (by unfold Clean; decide) (fun _ => rfl) fun r => ?_
  have h : (keywords.contains b!"ccn_node" || keywords.contains b!"ccn_node") = false := by decide +kernel
  show (if keywords.contains b!"ccn_node" || keywords.contains b!"ccn_node" then none else some _) = _
  rw [h]
  rfl

/-- `ccn_node *w(ccn_node *);` -/
def short (w : CStr) : Proto := ⟨[.id b!"ccn_node", .sym 42], w, [.id b!"ccn_node", .sym 42]⟩

/-- `struct ccn_node *w(struct ccn_node *node);` -/
def long (w : CStr) : Proto :=
  ⟨[.id b!"struct", .id b!"ccn_node", .sym 42], w, [.id b!"struct", .id b!"ccn_node", .sym 42, .id b!"node"]⟩

theorem says_short {pre name : CStr} (h : Fine (pre ++ name)) : Says (sig pre name) [.proto (short (pre ++ name))] := by
  rw [sig, ← List.append_assoc pre]
  refine says_one (k := .id b!"ccn_node") (ts := [.sym 42, .id (pre ++ name), .sym 40, .id b!"ccn_node", .sym 42, .sym 41, .sym 59]) ?_ (fun r => ?_) fun r => ?_
  · exact .append (by unfold Clean; decide) (.append h.clean (by unfold Clean; decide))
  · rw [List.append_assoc, List.append_assoc (pre ++ name)]
    show Tok.id _ :: Tok.sym 42 :: lex (.code false) ((pre ++ name) ++ 40 :: _) = _
    rw [lex_word h.1 false (by decide)]
    rfl
  · have h1 : declarator [.id b!"ccn_node", .sym 42, .id (pre ++ name)] = some ([.id b!"ccn_node", .sym 42], pre ++ name) := by
      show (if keywords.contains (pre ++ name) = true then none else some _) = _
      rw [keyword_not h.2]
      rfl
    show (declarator [.id b!"ccn_node", .sym 42, .id (pre ++ name)]).bind _ = _
    rw [h1]
    rfl

theorem says_long {pre name : CStr} (h : Fine (pre ++ name)) :
    Says (b!"struct ccn_node *" ++ (pre ++ (name ++ b!"(struct ccn_node *node);\n"))) [.proto (long (pre ++ name))] := by
  rw [← List.append_assoc pre]
  refine says_one (k := .id b!"struct") (ts := [.id b!"ccn_node", .sym 42, .id (pre ++ name), .sym 40, .id b!"struct", .id b!"ccn_node", .sym 42,
    .id b!"node", .sym 41, .sym 59]) ?_ (fun r => ?_) fun r => ?_
  · exact .append (by unfold Clean; decide) (.append h.clean (by unfold Clean; decide))
  · rw [List.append_assoc, List.append_assoc (pre ++ name)]
    show Tok.id _ :: Tok.id _ :: Tok.sym 42 :: lex (.code false) ((pre ++ name) ++ 40 :: _) = _
    rw [lex_word h.1 false (by decide)]
    rfl
  · have h1 : declarator [.id b!"struct", .id b!"ccn_node", .sym 42, .id (pre ++ name)] =
        some ([.id b!"struct", .id b!"ccn_node", .sym 42], pre ++ name) := by
      show (if keywords.contains (pre ++ name) = true then none else some _) = _
      rw [keyword_not h.2]
      rfl
    show (declarator [.id b!"struct", .id b!"ccn_node", .sym 42, .id (pre ++ name)]).bind _ = _
    rw [h1]
    rfl

/-! ### The header -/

/-- A text of prototypes for these functions. -/
def Tells (s : CStr) (fs : List Declared.Fn) : Prop := (∀ f ∈ fs, Fine f.1) → ∃ ps : List Proto, Says s (ps.map .proto) ∧ ps.map (·.name) = fs.map (·.1) ∧
  ∀ p ∈ ps, p = short p.name ∨ p = long p.name

theorem Tells.nil : Tells [] [] := fun _ => ⟨[], .nil, rfl, nofun⟩

theorem Tells.append {s s' : CStr} {l l' : List Declared.Fn} (h : Tells s l) (h' : Tells s' l') : Tells (s ++ s') (l ++ l') := fun hf => by
  obtain ⟨ps, h1, h2, h3⟩ := h fun f hl => hf f (List.mem_append.2 (.inl hl))
  obtain ⟨qs, k1, k2, k3⟩ := h' fun f hl => hf f (List.mem_append.2 (.inr hl))
  refine ⟨ps ++ qs, ?_, ?_, fun p hp => (List.mem_append.1 hp).elim (h3 p) (k3 p)⟩
  · rw [List.map_append]
    exact h1.append k1
  · rw [List.map_append, List.map_append, h2, k2]

theorem tells_short (pre name : CStr) (s : Declared.Sig) : Tells (sig pre name) [(pre ++ name, s)] := fun hf =>
  ⟨[short (pre ++ name)], says_short (hf _ (.head _)), rfl, fun p hp => by
    cases List.mem_singleton.1 hp
    exact .inl rfl⟩

theorem tells_id (pre : Option CStr) (i : Id) : Tells (DGAHid pre i) (Declared.DGAHid pre i) := by
  cases pre with
  | none => exact .nil
  | some p => exact tells_short _ _ _

theorem tells_set (pre : Option CStr) (t : Sets.Tree) : Tells (DGAHsetliteral pre t) (Declared.DGAHsetliteral pre t) := by
  induction t with
  | null => exact .nil
  | node _ _ i l r ihl ihr => exact (tells_id pre i).append ((tells_id pre i).append (ihl.append ihr))

theorem tells_inodes (pre : CStr) (l : List Id) : Tells (DGTAinode pre l) (Declared.DGTAinode pre l) := by
  induction l with
  | nil => exact .nil
  | cons n l ih =>
    refine Tells.append (l := [(pre ++ n.lwr, .node)]) (fun hf => ?_) ih
    exact ⟨[long (pre ++ n.lwr)], says_long (hf _ (.head _)), rfl, fun p hp => by
      cases List.mem_singleton.1 hp
      exact .inr rfl⟩

theorem tells_travs (nodes : List Id) (l : List (Trav × Sets.Tree)) : Tells (DGAHitraversal nodes l) (Declared.DGAHitraversal nodes l) := by
  induction l with
  | nil => exact .nil
  | cons x l ih =>
    obtain ⟨t, s⟩ := x
    rw [DGAHitraversal, Declared.DGAHitraversal]
    refine Tells.append ?_ ih
    cases s.isNull with
    | true => exact tells_inodes _ _
    | false => exact tells_set _ _

theorem tells_passes (l : List Pass) : Tells (DGAHipass l) (Declared.DGAHipass l) := by
  induction l with
  | nil => exact .nil
  | cons p l ih =>
    rw [DGAHipass, Declared.DGAHipass]
    refine Tells.append (l := [(Declared.passDecl p, .node)]) ?_ ih
    unfold Declared.passDecl
    cases p.iprefix <;> exact tells_short _ _ _

theorem tells_nodes (l : List Id) : Tells (DGAHinode l) (Declared.DGAHinode l) := by
  induction l with
  | nil => exact .nil
  | cons n l ih =>
    exact Tells.append (l := [(sCPY ++ n.lwr, .node)]) (tells_short _ _ _) (Tells.append (l := [(sDEL ++ n.lwr, .node)]) (tells_short _ _ _)
      (Tells.append (l := [(sCHK ++ n.lwr, .node)]) (tells_short _ _ _) ih))

theorem tells_sets (l : List Sets.Tree) : Tells (l.flatMap (DGAHsetliteral none)) (l.flatMap (Declared.DGAHsetliteral none)) := by
  induction l with
  | nil => exact .nil
  | cons n l ih =>
    rw [List.flatMap_cons, List.flatMap_cons]
    exact (tells_set none n).append ih

/-- The header is read. -/
theorem header_says (a : Decls) (sets trees : List Sets.Tree) (hf : ∀ f ∈ Declared.DGAHast a sets trees, Fine f.1) :
    ∃ ps : List Proto, Spec.ActionText.read (DGAHast a sets trees) =
        some (.directive b!"pragma once" :: .typedef b!"ccn_node" b!"ccn_node" :: ps.map .proto) ∧
      ps.map (·.name) = (Declared.DGAHast a sets trees).map (·.1) ∧ ∀ p ∈ ps, p = short p.name ∨ p = long p.name := by
  obtain ⟨ps, h1, h2, h3⟩ := (tells_travs a.nodes (a.travs.zip trees)).append ((tells_passes a.passes).append
    ((tells_nodes a.nodes).append (tells_sets sets))) hf
  exact ⟨ps, read_of (says_pragma.append (says_typedef.append h1)), h2, h3⟩

/-! ### Its functions -/

theorem node_id {pre : Option CStr} {i : Id} : ∀ f ∈ Declared.DGAHid pre i, f.2 = .node := by
  intro f hf
  cases pre with
  | none => cases hf
  | some p =>
    cases List.mem_singleton.1 hf
    rfl

theorem node_set {pre : Option CStr} {t : Sets.Tree} : ∀ f ∈ Declared.DGAHsetliteral pre t, f.2 = .node := by
  induction t with
  | null => exact nofun
  | node _ _ i l r ihl ihr =>
    intro f hf
    simp only [Declared.DGAHsetliteral, List.mem_append] at hf
    rcases hf with h | h | h | h
    · exact node_id f h
    · exact node_id f h
    · exact ihl f h
    · exact ihr f h

theorem node_inodes {pre : CStr} {l : List Id} : ∀ f ∈ Declared.DGTAinode pre l, f.2 = .node := by
  induction l with
  | nil => exact nofun
  | cons n l ih =>
    intro f hf
    rcases List.mem_cons.1 hf with rfl | h
    · rfl
    · exact ih f h

/-- All are for nodes. -/
theorem all_node {a : Decls} {sets trees : List Sets.Tree} : ∀ f ∈ Declared.DGAHast a sets trees, f.2 = .node := by
  intro f hf
  simp only [Declared.DGAHast, List.mem_append, List.mem_flatMap] at hf
  rcases hf with h | h | h | ⟨t, _, h⟩
  · revert h
    induction a.travs.zip trees with
    | nil => exact nofun
    | cons x l ih =>
      obtain ⟨t, s⟩ := x
      intro h
      rw [Declared.DGAHitraversal, List.mem_append] at h
      rcases h with h | h
      · split at h
        · exact node_set f h
        · exact node_inodes f h
      · exact ih h
  · revert h
    induction a.passes with
    | nil => exact nofun
    | cons x l ih =>
      intro h
      rcases List.mem_cons.1 h with rfl | h
      · rfl
      · exact ih h
  · revert h
    induction a.nodes with
    | nil => exact nofun
    | cons x l ih =>
      intro h
      simp only [Declared.DGAHinode, List.mem_cons] at h
      rcases h with rfl | rfl | rfl | h
      · rfl
      · rfl
      · rfl
      · exact ih h
  · exact node_set f h

/-- The others are not. -/
theorem none_node {l : List Trav} : ∀ f ∈ Declared.DGTDCHitraversal l, f.2 = .data := by
  induction l with
  | nil => exact nofun
  | cons t l ih =>
    intro f hf
    rw [Declared.DGTDCHitraversal, List.mem_append] at hf
    rcases hf with h | h
    · split at h
      · simp only [List.mem_cons, List.not_mem_nil, or_false] at h
        rcases h with rfl | rfl <;> rfl
      · cases h
    · exact ih f h

end Verif.ActionText
