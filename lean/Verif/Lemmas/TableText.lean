import Verif.Lemmas.Tables
import Verif.Lemmas.Templates
import Verif.Model.TableText
import Verif.Spec.TableText

/-!
# Lemmas about the text of `enum.h` and `vtables.c`
-/

namespace Verif.TableText
open Verif.Str Verif.Ids Verif.Tables
open Verif.Semantic (idOf)
open Verif.Compiled (declsOf)
open Verif.Spec.TableText
open Verif.Spec.Str (lowerB upperB)
open Verif.Spec.Templates (Tok lex splice keywords declarator Word inWord letter)
open Verif.Templates (Clean clean_word splice_all lex_word keyword_not keywords_small inWord_upper inWord_lower big_upper letter_big)

/-! ### Words -/

/-- A text that is read as these words, from `b` to `b'`. -/
def Lexes (b b' : Bool) (s : CStr) (ts : List Tok) : Prop := ∀ r, lex (.code b) (s ++ r) = ts ++ lex (.code b') r

theorem Lexes.append {b b' b'' : Bool} {s s' : CStr} {ts ts' : List Tok} (h : Lexes b b' s ts) (h' : Lexes b' b'' s' ts') :
    Lexes b b'' (s ++ s') (ts ++ ts') := fun r => by
  rw [List.append_assoc, h, h', List.append_assoc]

theorem Lexes.nil (b : Bool) : Lexes b b [] [] := fun _ => rfl

theorem Lexes.flatMap {α : Type} {b : Bool} {f : α → CStr} {g : α → List Tok} {l : List α} (h : ∀ x ∈ l, Lexes b b (f x) (g x)) :
    Lexes b b (l.flatMap f) (l.flatMap g) := by
  induction l with
  | nil => exact .nil b
  | cons x l ih =>
    rw [List.flatMap_cons, List.flatMap_cons]
    exact (h x List.mem_cons_self).append (ih fun y hy => h y (List.mem_cons_of_mem _ hy))

theorem clean_flatMap {α : Type} {f : α → CStr} {l : List α} (h : ∀ x ∈ l, Clean (f x)) : Clean (l.flatMap f) := fun c hc => by
  obtain ⟨x, hx, hc⟩ := List.mem_flatMap.1 hc
  exact h x hx c hc

/-- A name that may be declared. -/
def Fine (w : CStr) : Prop := Word w ∧ w ∉ keywords

theorem fine_upper {c : UInt8} {r : CStr} (h : 65 ≤ c ∧ c ≤ 90) (hr : ∀ d ∈ r, inWord d = true) : Fine (c :: r) := by
  refine ⟨⟨⟨c, r, rfl, letter_big c h⟩, fun d hd => ?_⟩, fun hk => keywords_small _ hk _ rfl h⟩
  rcases List.mem_cons.1 hd with rfl | hd
  · show (letter d || _) = true
    rw [letter_big d h]
    rfl
  · exact hr d hd

theorem word_append {x y : CStr} (hx : ∀ c ∈ x, inWord c = true) (hy : ∀ c ∈ y, inWord c = true) : ∀ c ∈ x ++ y, inWord c = true :=
  fun c hc => (List.mem_append.1 hc).elim (hx c) (hy c)

theorem upper_all {w : CStr} (h : ∀ c ∈ w, inWord c = true) : ∀ c ∈ w.map upperB, inWord c = true := fun d hd => by
  obtain ⟨e, he, rfl⟩ := List.mem_map.1 hd
  exact inWord_upper e (h e he)

theorem lower_all {w : CStr} (h : ∀ c ∈ w, inWord c = true) : ∀ c ∈ w.map lowerB, inWord c = true := fun d hd => by
  obtain ⟨e, he, rfl⟩ := List.mem_map.1 hd
  exact inWord_lower e (h e he)

theorem fine_uid {u y : CStr} (hu : Ident u) (hy : ∀ c ∈ y, inWord c = true) : Fine (u.map upperB ++ y) := by
  obtain ⟨⟨c, r, rfl, h1⟩, h2⟩ := hu
  exact fine_upper (big_upper c h1) (word_append (upper_all fun d hd => h2 d (List.mem_cons_of_mem _ hd)) hy)

theorem letter_lower (c : UInt8) (h : Spec.Text.isLetter c = true) : letter (lowerB c) = true := by
  revert c; apply u8_forall; decide +kernel

theorem letter_of (c : UInt8) (h : Spec.Text.isLetter c = true) : letter c = true := by
  revert c; apply u8_forall; decide +kernel

theorem keywords_vtable : ∀ k ∈ keywords, k.reverse.take 7 ≠ sVtable.reverse := by decide +kernel

/-- No word of C ends in `_vtable`. -/
theorem not_vtable (w : CStr) : w ++ sVtable ∉ keywords := fun h => keywords_vtable _ h (by
  rw [List.reverse_append, List.take_left' (by rfl)])

theorem fine_table {w : CStr} (h : Ident w) : Fine (w.map lowerB ++ sVtable) := by
  refine ⟨?_, not_vtable _⟩
  obtain ⟨⟨c, r, rfl, h1⟩, h2⟩ := h
  exact ⟨⟨_, _, rfl, letter_lower c h1⟩, word_append (lower_all h2) (by decide)⟩

theorem Fine.clean {w : CStr} (h : Fine w) : Clean w := clean_word h.1.2

/-! ### Declarations -/

/-- A text that is read as these declarations. -/
def Says (s : CStr) (l : List Ext) : Prop := Clean s ∧ ∃ ts, l.length ≤ ts.length ∧ Lexes true true s ts ∧
  ∀ n r l', unit n r = some l' → unit (l.length + n) (ts ++ r) = some (l ++ l')

theorem Says.nil : Says [] [] := ⟨nofun, [], Nat.le_refl _, .nil true, fun n r l' h => by simpa using h⟩

theorem Says.append {s s' : CStr} {l l' : List Ext} : Says s l → Says s' l' → Says (s ++ s') (l ++ l') := by
  rintro ⟨h1, ts, h2, h3, h4⟩ ⟨k1, ts', k2, k3, k4⟩
  refine ⟨h1.append k1, ts ++ ts', ?_, h3.append k3, fun n r m hm => ?_⟩
  · simp only [List.length_append]; omega
  · rw [List.append_assoc, List.length_append, List.append_assoc, Nat.add_assoc]
    exact h4 _ _ _ (k4 _ _ _ hm)

theorem Says.flatMap {α : Type} {f : α → CStr} {g : α → Ext} {l : List α} (h : ∀ x ∈ l, Says (f x) [g x]) : Says (l.flatMap f) (l.map g) := by
  induction l with
  | nil => exact .nil
  | cons x l ih =>
    rw [List.flatMap_cons, List.map_cons]
    exact (h x List.mem_cons_self).append (ih fun y hy => h y (List.mem_cons_of_mem _ hy))

theorem says_one {s : CStr} {x : Ext} {k : Tok} {ts : List Tok} (h1 : Clean s) (h2 : Lexes true true s (k :: ts))
    (h3 : ∀ r, external (k :: (ts ++ r)) = some (x, r)) : Says s [x] := by
  refine ⟨h1, k :: ts, by simp, h2, fun n r l' h => ?_⟩
  rw [show [x].length + n = n + 1 from Nat.add_comm _ _]
  show (external (k :: (ts ++ r))).bind _ = _
  rw [h3]
  show (unit n r).bind _ = _
  rw [h]
  rfl

theorem read_of {s : CStr} {l : List Ext} : Says s l → Spec.TableText.read s = some l := by
  rintro ⟨h1, ts, h2, h3, h4⟩
  have e : lex (.code true) (splice s) = ts := by
    have := h3 []
    rw [List.append_nil, show lex (.code true) [] = [] from rfl, List.append_nil] at this
    rw [splice_all h1, this]
  rw [Spec.TableText.read, e]
  have := h4 (ts.length - l.length) [] [] (by cases ts.length - l.length <;> rfl)
  rw [List.append_nil, List.append_nil, Nat.add_sub_cancel' h2] at this
  exact this

theorem says_dir {s w : CStr} (h : Clean s) (e : Lexes true true s [.dir w]) : Says s [.directive w] := says_one h e fun _ => rfl

/-! ### Enumerations -/

/-- The words of the names. -/
def fieldToks (f : CStr) : List Tok := [.id f, .sym 44]

theorem fields_of {l : List CStr} (h : ∀ f ∈ l, Fine f) (r : List Tok) : fields (l.flatMap fieldToks ++ .sym 125 :: r) = some (l, r) := by
  induction l with
  | nil => rfl
  | cons f l ih =>
    show (if keywords.contains f then none else (fields (l.flatMap fieldToks ++ .sym 125 :: r)).map _) = _
    rw [keyword_not (h f List.mem_cons_self).2, ih fun g hg => h g (List.mem_cons_of_mem _ hg)]
    rfl

theorem lex_field {f : CStr} (h : Fine f) : Lexes true true (field f) (fieldToks f) := fun r => by
  rw [field, List.append_assoc, List.append_assoc]
  show lex (.code true) (f ++ 44 :: _) = _
  rw [lex_word h.1 true (by decide)]
  rfl

theorem clean_field {f : CStr} (h : Fine f) : Clean (field f) :=
  .append (by unfold Clean; decide) (.append h.clean (by unfold Clean; decide))

theorem says_enum {tag : CStr} {fs : List CStr} (ht : Fine tag) (hn : fs ≠ []) (h : ∀ f ∈ fs, Fine f) :
    Says (b!"enum " ++ (tag ++ (b!" {\n" ++ (fs.flatMap field ++ b!"};\n\n")))) [.enum tag fs] := by
  refine says_one (k := .id b!"enum") (ts := .id tag :: .sym 123 :: (fs.flatMap fieldToks ++ [.sym 125, .sym 59])) ?_ (fun r => ?_) fun r => ?_
  · exact .append (by unfold Clean; decide) (.append ht.clean (.append (by unfold Clean; decide)
      (.append (clean_flatMap fun f hf => clean_field (h f hf)) (by unfold Clean; decide))))
  · simp only [List.append_assoc]
    show Tok.id _ :: lex (.code false) (tag ++ 32 :: _) = _
    rw [lex_word ht.1 false (by decide)]
    show Tok.id b!"enum" :: Tok.id tag :: Tok.sym 123 :: lex (.code true) (fs.flatMap field ++ (b!"};\n\n" ++ r)) = _
    rw [Lexes.flatMap (f := field) (fun f hf => lex_field (h f hf))]
    simp only [List.cons_append, List.append_assoc]
    rfl
  · simp only [external, if_true]
    show (if keywords.contains tag then none else match fields ((fs.flatMap fieldToks ++ [.sym 125, .sym 59]) ++ r) with
      | some (f :: fs, .sym 59 :: rest) => some (Ext.enum tag (f :: fs), rest)
      | _ => none) = _
    rw [keyword_not ht.2, List.append_assoc]
    show (match fields (fs.flatMap fieldToks ++ .sym 125 :: (.sym 59 :: r)) with
      | some (f :: fs, .sym 59 :: rest) => some (Ext.enum tag (f :: fs), rest)
      | _ => none) = _
    rw [fields_of h]
    cases fs with
    | nil => exact absurd rfl hn
    | cons f fs => rfl

/-! ### Arrays -/

/-- The words of a value. -/
def initToks : Init → List Tok
  | .name w => [.id w]
  | .addr w => [.sym 38, .id w]

/-- The words of a value, and a comma. -/
def entryToks (i : Init) : List Tok := initToks i ++ [.sym 44]

/-- The name in a value. -/
def word : Init → CStr
  | .name w => w
  | .addr w => w

theorem inits_append {l : List Init} (h : ∀ i ∈ l, word i ∉ keywords) {r r' : List Tok} {l' : List Init} (e : inits r = some (l', r')) :
    inits (l.flatMap entryToks ++ r) = some (l ++ l', r') := by
  induction l with
  | nil => exact e
  | cons i l ih =>
    have hi := h i List.mem_cons_self
    have ih := ih fun g hg => h g (List.mem_cons_of_mem _ hg)
    cases i with
    | name w =>
      show (if keywords.contains w then none else (inits (l.flatMap entryToks ++ r)).map _) = _
      rw [keyword_not (show w ∉ keywords from hi), ih]
      rfl
    | addr w =>
      show (if keywords.contains w then none else (inits (l.flatMap entryToks ++ r)).map _) = _
      rw [keyword_not (show w ∉ keywords from hi), ih]
      rfl

/-- An array whose values all have a comma, and `l'` behind. -/
theorem external_array {type : List Tok} {name size : CStr} {l l' : List Init} {ts : List Tok} (hk : type = [.id b!"const", .id b!"ccn_trav_ft"] ∨
    type = [.id b!"const", .id b!"ccn_trav_ft", .sym 42] ∨ type = [.id b!"const", .id b!"ccn_pass_ft"] ∨ type = [.id b!"const", .id b!"ccn_trav_data_ft"])
    (hn : name ∉ keywords) (hl : ∀ i ∈ l, word i ∉ keywords) (hne : l ≠ []) (r : List Tok)
    (e : inits (ts ++ r) = some (l', .sym 59 :: r)) :
    external (type ++ (.id name :: .sym 91 :: .id size :: .sym 93 :: .sym 61 :: .sym 123 :: (l.flatMap entryToks ++ (ts ++ r)))) =
      some (.array ⟨type, name, size, l ++ l'⟩, r) := by
  have h1 : ∀ ty tys, type = ty :: tys → declarator (type ++ [.id name]) = some (type, name) := by
    rintro ty tys rfl
    rw [declarator, List.dropLast_concat, List.getLast?_concat]
    show (if keywords.contains name then none else some _) = _
    rw [keyword_not hn]
    rfl
  have h2 := inits_append hl e
  have key : array (type ++ (.id name :: .sym 91 :: .id size :: .sym 93 :: .sym 61 :: .sym 123 :: (l.flatMap entryToks ++ (ts ++ r)))) =
      some (.array ⟨type, name, size, l ++ l'⟩, r) := by
    have h3 : head (type ++ (.id name :: .sym 91 :: .id size :: .sym 93 :: .sym 61 :: .sym 123 :: (l.flatMap entryToks ++ (ts ++ r)))) =
        some (type ++ [.id name], .id size :: .sym 93 :: .sym 61 :: .sym 123 :: (l.flatMap entryToks ++ (ts ++ r))) := by
      rcases hk with rfl | rfl | rfl | rfl <;> rfl
    have h4 : declarator (type ++ [.id name]) = some (type, name) := by
      rcases hk with hk | hk | hk | hk <;> exact h1 _ _ hk
    cases l with
    | nil => exact absurd rfl hne
    | cons i l =>
      rw [array, h3]
      simp only [h4, h2, List.cons_append]
  rcases hk with rfl | rfl | rfl | rfl <;> exact key

/-- A text of a value and a comma. -/
structure Shows (s : CStr) (i : Init) : Prop where
  clean : Clean s
  lexes : Lexes false false s (entryToks i)
  word : word i ∉ keywords

theorem shows_addr {w : CStr} (h : Fine w) : Shows (b!"&" ++ (w ++ b!", ")) (.addr w) := by
  refine ⟨.append (by unfold Clean; decide) (.append h.clean (by unfold Clean; decide)), fun r => ?_, h.2⟩
  simp only [List.append_assoc]
  show Tok.sym 38 :: lex (.code false) (w ++ 44 :: _) = _
  rw [lex_word h.1 false (by decide)]
  rfl

theorem shows_name {w : CStr} (h : Fine w) : Shows (w ++ b!",") (.name w) := by
  refine ⟨.append h.clean (by unfold Clean; decide), fun r => ?_, h.2⟩
  rw [List.append_assoc]
  show lex (.code false) (w ++ 44 :: _) = _
  rw [lex_word h.1 false (by decide)]
  rfl

theorem Shows.space {s : CStr} {i : Init} (h : Shows s i) : Shows (s ++ b!" ") i :=
  ⟨h.clean.append (by unfold Clean; decide), fun r => by rw [List.append_assoc, h.lexes]; rfl, h.word⟩

/-- What is before the values of an array. -/
theorem says_array {type : List Tok} {name size pre close : CStr} {k : Tok} {ts us : List Tok} {α : Type} {f : α → CStr} {g : α → Init} {l : List α} {l' : List Init}
    (hk : type = [.id b!"const", .id b!"ccn_trav_ft"] ∨ type = [.id b!"const", .id b!"ccn_trav_ft", .sym 42] ∨
      type = [.id b!"const", .id b!"ccn_pass_ft"] ∨ type = [.id b!"const", .id b!"ccn_trav_data_ft"])
    (hn : name ∉ keywords) (hp : Clean pre) (e : Lexes true false pre (k :: ts))
    (et : k :: ts = type ++ [.id name, .sym 91, .id size, .sym 93, .sym 61, .sym 123]) (hl : ∀ x ∈ l, Shows (f x) (g x)) (hne : l ≠ [])
    (hc : Clean close) (ec : Lexes false true close us) (ei : ∀ r, inits (us ++ r) = some (l', .sym 59 :: r)) :
    Says (pre ++ (l.flatMap f ++ close)) [.array ⟨type, name, size, l.map g ++ l'⟩] := by
  have h1 := e.append ((Lexes.flatMap fun x hx => (hl x hx).lexes).append ec)
  refine says_one (hp.append (.append (clean_flatMap fun x hx => (hl x hx).clean) hc)) h1 fun r => ?_
  show external (((k :: ts) ++ (l.flatMap (fun x => entryToks (g x)) ++ us)) ++ r) = _
  rw [et, List.append_assoc, List.append_assoc, List.append_assoc]
  have := external_array (size := size) hk hn (l := l.map g) (fun i hi => by
    obtain ⟨x, hx, rfl⟩ := List.mem_map.1 hi
    exact (hl x hx).word) (by simpa using hne) r (ei r)
  rw [List.flatMap_map] at this
  exact this

/-! ### `enum.h` -/

/-- `Fine`, to be computed. -/
def fineB : CStr → Bool
  | [] => false
  | c :: r => letter c && (c :: r).all inWord && !keywords.contains (c :: r)

theorem fine_of {w : CStr} (h : fineB w = true) : Fine w := by
  cases w with
  | nil => cases h
  | cons c r =>
    simp only [fineB, Bool.and_eq_true, Bool.not_eq_true', List.all_eq_true] at h
    exact ⟨⟨⟨c, r, rfl, h.1.1⟩, h.1.2⟩, by simpa using h.2⟩

theorem text_inodeset (l : List Id) : DGEinodeset l = (Tables.DGEinodeset l).flatMap field := by
  induction l with
  | nil => rfl
  | cons x l ih => rw [DGEinodeset, ih]; rfl

theorem text_inode (l : List Id) : DGEinode l = (Tables.DGEinode l).flatMap field := by
  induction l with
  | nil => rfl
  | cons x l ih => rw [DGEinode, ih]; rfl

theorem text_itraversal (l : List Trav) : DGEitraversal l = (Tables.DGEitraversal l).flatMap field := by
  induction l with
  | nil => rfl
  | cons x l ih => rw [DGEitraversal, ih]; rfl

theorem text_ipass (l : List Pass) : DGEipass l = (Tables.DGEipass l).flatMap field := by
  induction l with
  | nil => rfl
  | cons x l ih => rw [DGEipass, ih]; rfl

theorem text_id (pre : CStr) (l : List Id) : DGEVid pre l = (EnumHeader.DGEVid pre l).flatMap field := by
  induction l with
  | nil => rfl
  | cons x l ih => rw [DGEVid, ih]; rfl

theorem text_enum (name pre : CStr) (fs : List CStr) : do_enum name (fs.flatMap field) pre =
    b!"enum " ++ (name ++ (b!" {\n" ++ ((Tables.do_enum fs pre).flatMap field ++ b!"};\n\n"))) := by
  rw [do_enum, Tables.do_enum]
  cases h : STReq (some sTRAV) (some pre) with
  | true =>
    rw [show STReq (some b!"TRAV_") (some pre) = true from h]
    simp only [List.flatMap_cons, List.flatMap_append, List.flatMap_nil, List.append_assoc, List.append_nil, List.cons_append]
    rfl
  | false =>
    rw [show STReq (some b!"TRAV_") (some pre) = false from h]
    simp only [List.flatMap_cons, List.flatMap_append, List.flatMap_nil, List.append_assoc, List.append_nil, List.cons_append, List.nil_append]
    rfl

theorem mem_enum {fs : List CStr} {pre f : CStr} (h : f ∈ Tables.do_enum fs pre) : f ∈ fs ∨ f = pre ++ sNULL ∨ f = 95 :: pre ++ sSIZE ∨
    f ∈ [sTRAV ++ sFree, sTRAV ++ sCheck, sTRAV ++ sCpy] := by
  rw [Tables.do_enum] at h
  rcases List.mem_append.1 h with h | h
  · rcases List.mem_append.1 h with h | h
    · rcases List.mem_cons.1 h with rfl | h
      · exact .inr (.inl rfl)
      · exact .inl h
    · split at h
      · exact .inr (.inr (.inr h))
      · cases h
  · exact .inr (.inr (.inl (List.mem_singleton.1 h)))

theorem fine_enum {fs : List CStr} {pre : CStr} (h1 : fineB (pre ++ sNULL) = true) (h2 : fineB (95 :: pre ++ sSIZE) = true) (h : ∀ f ∈ fs, Fine f) :
    ∀ f ∈ Tables.do_enum fs pre, Fine f := fun f hf => by
  rcases mem_enum hf with hf | rfl | rfl | hf
  · exact h f hf
  · exact fine_of h1
  · exact fine_of h2
  · exact fine_of ((by decide +kernel : ∀ f ∈ [sTRAV ++ sFree, sTRAV ++ sCheck, sTRAV ++ sCpy], fineB f = true) f hf)

theorem enum_ne (fs : List CStr) (pre : CStr) : Tables.do_enum fs pre ≠ [] := by rw [Tables.do_enum]; exact nofun

theorem says_do_enum {name pre : CStr} {fs : List CStr} (h0 : fineB name = true) (h1 : fineB (pre ++ sNULL) = true)
    (h2 : fineB (95 :: pre ++ sSIZE) = true) (h : ∀ f ∈ fs, Fine f) : Says (do_enum name (fs.flatMap field) pre) [.enum name (Tables.do_enum fs pre)] := by
  rw [text_enum]
  exact says_enum (fine_of h0) (enum_ne _ _) (fine_enum h1 h2 h)

/-- The declarations of `enum.h`. -/
def enumExts (A : Parse.Ast) : List Ext := .directive b!"pragma once" :: (EnumHeader.header A).map fun h => .enum h.1 h.2

theorem says_values {l : List EnumHeader.Enum} (h : ∀ e ∈ l, Fine e.name.orig ∧ Fine (e.iprefix.upr ++ b!"_NULL") ∧
    ∀ v ∈ e.vals, Fine (e.iprefix.upr ++ (b!"_" ++ v.lwr))) : Says (DGEVienum l) ((EnumHeader.DGEVienum l).map fun h => .enum h.1 h.2) := by
  induction l with
  | nil => exact .nil
  | cons e l ih =>
    obtain ⟨h1, h2, h3⟩ := h e List.mem_cons_self
    have h4 : ∀ f ∈ (e.iprefix.upr ++ 95 :: sNULL) :: EnumHeader.DGEVid e.iprefix.upr e.vals, Fine f := fun f hf => by
      rcases List.mem_cons.1 hf with rfl | hf
      · exact h2
      · have h5 : ∀ l, EnumHeader.DGEVid e.iprefix.upr l = l.map fun v => e.iprefix.upr ++ 95 :: v.lwr := fun l => by
          induction l with
          | nil => rfl
          | cons v l ih => rw [EnumHeader.DGEVid, ih]; rfl
        rw [h5] at hf
        obtain ⟨v, hv, rfl⟩ := List.mem_map.1 hf
        exact h3 v hv
    have h5 := says_enum h1 (by exact nofun) h4
    rw [List.flatMap_cons, List.append_assoc, ← text_id] at h5
    exact h5.append (ih fun x hx => h x (List.mem_cons_of_mem _ hx))

theorem fine_field {c : UInt8} {pre w : CStr} (hc : 65 ≤ c ∧ c ≤ 90) (hp : pre.all inWord = true) (h : Ident w) : Fine ((c :: pre) ++ w.map upperB) :=
  fine_upper hc (word_append (List.all_eq_true.1 hp) (upper_all h.2))

theorem says_enumText {A : Parse.Ast} (hw : Wordy A) : Says (enumText A) (enumExts A) := by
  rw [enumText, enumExts]
  have h0 : Says b!"#pragma once\n" [.directive b!"pragma once"] := says_dir (by unfold Clean; decide) fun r => rfl
  refine h0.append (l' := (EnumHeader.header A).map fun h => .enum h.1 h.2) ?_
  rw [EnumHeader.header, List.map_append, DGEast, text_inodeset, text_inode, text_itraversal, text_ipass]
  refine Says.append (l := [_, _, _, _]) (Says.append (l := [_]) (says_do_enum (by decide +kernel) (by decide +kernel) (by decide +kernel) ?_)
    (Says.append (l := [_]) (says_do_enum (by decide +kernel) (by decide +kernel) (by decide +kernel) ?_)
    (Says.append (l := [_]) (says_do_enum (by decide +kernel) (by decide +kernel) (by decide +kernel) ?_)
    (says_do_enum (by decide +kernel) (by decide +kernel) (by decide +kernel) ?_)))) (says_values ?_)
  · intro f hf
    rw [inodeset_map] at hf
    obtain ⟨n, hn, rfl⟩ := List.mem_map.1 hf
    obtain ⟨m, hm, rfl⟩ := List.mem_map.1 hn
    exact fine_field (by decide) (by decide) (hw.nodesets m hm)
  · intro f hf
    rw [inode_map] at hf
    obtain ⟨n, hn, rfl⟩ := List.mem_map.1 hf
    obtain ⟨m, hm, rfl⟩ := List.mem_map.1 hn
    exact fine_field (by decide) (by decide) (hw.nodes m hm)
  · intro f hf
    rw [itraversal_map] at hf
    obtain ⟨n, hn, rfl⟩ := List.mem_map.1 hf
    obtain ⟨m, hm, rfl⟩ := List.mem_map.1 hn
    exact fine_field (by decide) (by decide) (hw.uids m hm)
  · intro f hf
    rw [ipass_map] at hf
    obtain ⟨n, hn, rfl⟩ := List.mem_map.1 hf
    obtain ⟨m, hm, rfl⟩ := List.mem_map.1 hn
    exact fine_field (by decide) (by decide) (hw.passes m hm)
  · intro e he
    obtain ⟨m, hm, rfl⟩ := List.mem_map.1 he
    refine ⟨⟨?_, (hw.tags m hm).2⟩, fine_uid (hw.prefixes m hm) (by decide), fun v hv => ?_⟩
    · obtain ⟨⟨c, r, h1, h2⟩, h3⟩ := (hw.tags m hm).1
      exact ⟨⟨c, r, h1, letter_of c h2⟩, h3⟩
    · obtain ⟨n, hn, rfl⟩ := List.mem_map.1 hv
      exact fine_uid (hw.prefixes m hm) (word_append (by decide) (lower_all (hw.values m hm n hn).2))

/-! ### `vtables.c` -/

/-- The function of an entry. -/
def funName : Fun → CStr
  | .named w => w
  | .travChildren => b!"TRAVchildren"
  | .travNop => b!"TRAVnop"
  | .travError => b!"TRAVerror"
  | .dataNop => []
  | .passError => []

/-- What a table of a traversal may have. -/
def Shown : Fun → Prop
  | .named w => Fine w
  | .travChildren => True
  | .travNop => True
  | .travError => True
  | .dataNop => False
  | .passError => False

theorem shows_fun {f : Fun} (h : Shown f) : Shows (DGNFTTinode f) (.addr (funName f)) := by
  cases f with
  | named w => exact shows_addr h
  | travChildren => exact shows_addr (w := b!"TRAVchildren") (fine_of (by decide +kernel))
  | travNop => exact shows_addr (w := b!"TRAVnop") (fine_of (by decide +kernel))
  | travError => exact shows_addr (w := b!"TRAVerror") (fine_of (by decide +kernel))
  | dataNop => exact h.elim
  | passError => exact h.elim

/-- The table of a traversal of the user. -/
def userExt (x : Table) : Ext := .array ⟨const b!"ccn_trav_ft", x.name, b!"_NT_SIZE", x.entries.map fun f => .addr (funName f)⟩

theorem close_comma : Clean b!"};\n" ∧ Lexes false true b!"};\n" [.sym 125, .sym 59] ∧ ∀ r, inits ([.sym 125, .sym 59] ++ r) = some ([], .sym 59 :: r) :=
  ⟨by unfold Clean; decide, fun _ => rfl, fun _ => rfl⟩

theorem says_user {x : Table} (hn : Fine x.name) (he : x.entries ≠ []) (h : ∀ f ∈ x.entries, Shown f) : Says (DGTVitraversal x) [userExt x] := by
  have := says_array (type := const b!"ccn_trav_ft") (name := x.name) (size := b!"_NT_SIZE") (pre := b!"const ccn_trav_ft " ++ (x.name ++ b!"[_NT_SIZE] = { "))
    (k := .id b!"const") (ts := [.id b!"ccn_trav_ft", .id x.name, .sym 91, .id b!"_NT_SIZE", .sym 93, .sym 61, .sym 123])
    (.inl rfl) hn.2 (.append (by unfold Clean; decide) (.append hn.clean (by unfold Clean; decide))) (fun r => by
      simp only [List.append_assoc]
      show Tok.id _ :: Tok.id _ :: lex (.code false) (x.name ++ 91 :: _) = _
      rw [lex_word hn.1 false (by decide)]
      rfl) rfl (fun f hf => shows_fun (h f hf)) he close_comma.1 close_comma.2.1 close_comma.2.2
  rw [List.append_assoc, List.append_assoc, List.append_nil] at this
  exact this

/-- The table of passes. -/
def passExt (l : List Pass) : Ext :=
  .array ⟨const b!"ccn_pass_ft", b!"ccn_pass_vtable", b!"_PASS_SIZE", .addr b!"PASSerror" :: l.map fun p => .addr (DGHpassFuncName p)⟩

theorem says_passes {l : List Pass} (h : ∀ p ∈ l, Fine (DGHpassFuncName p)) : Says (DGPTast l) [passExt l] := by
  have := says_array (type := const b!"ccn_pass_ft") (name := b!"ccn_pass_vtable") (size := b!"_PASS_SIZE")
    (pre := b!"const ccn_pass_ft ccn_pass_vtable[_PASS_SIZE] = { ")
    (k := .id b!"const") (ts := [.id b!"ccn_pass_ft", .id b!"ccn_pass_vtable", .sym 91, .id b!"_PASS_SIZE", .sym 93, .sym 61, .sym 123])
    (l := b!"PASSerror" :: l.map DGHpassFuncName) (f := fun w => b!"&" ++ (w ++ b!", ")) (g := .addr)
    (.inr (.inr (.inl rfl))) (not_vtable b!"ccn_pass") (by unfold Clean; decide) (fun r => rfl) rfl (fun w hw => shows_addr (by
      rcases List.mem_cons.1 hw with rfl | hw
      · exact fine_of (by decide +kernel)
      · obtain ⟨p, hp, rfl⟩ := List.mem_map.1 hw
        exact h p hp)) (by exact nofun) close_comma.1 close_comma.2.1 close_comma.2.2
  have e : ∀ l, DGPTipass l = (l.map DGHpassFuncName).flatMap fun w => b!"&" ++ (w ++ b!", ") := fun l => by
    induction l with
    | nil => rfl
    | cons p l ih => rw [DGPTipass, ih]; rfl
  rw [List.append_nil, List.map_cons, List.map_map, List.flatMap_cons, ← e] at this
  exact this

/-- A table of the system. -/
def systemExt (name : CStr) (l : List CStr) : Ext :=
  .array ⟨const b!"ccn_trav_ft", b!"ccn_" ++ (name ++ b!"_vtable"), b!"_NT_SIZE", .addr b!"TRAVerror" :: l.map .addr⟩

theorem says_system {name pre : CStr} {l : List Id} (hn : Fine (b!"ccn_" ++ (name ++ b!"_vtable"))) (hp : STReq (some pre) (some b!"ERR") = false)
    (h : ∀ n ∈ l, Fine (pre ++ n.lwr)) : Says (GenSystemTraversalVtable pre name l) [systemExt name (l.map fun n => pre ++ n.lwr)] := by
  have := says_array (type := const b!"ccn_trav_ft") (name := b!"ccn_" ++ (name ++ b!"_vtable")) (size := b!"_NT_SIZE")
    (pre := b!"const ccn_trav_ft " ++ ((b!"ccn_" ++ (name ++ b!"_vtable")) ++ b!"[_NT_SIZE] = { "))
    (k := .id b!"const") (ts := [.id b!"ccn_trav_ft", .id (b!"ccn_" ++ (name ++ b!"_vtable")), .sym 91, .id b!"_NT_SIZE", .sym 93, .sym 61, .sym 123])
    (l := b!"TRAVerror" :: l.map fun n => pre ++ n.lwr) (f := fun w => b!"&" ++ (w ++ b!", ")) (g := .addr)
    (.inl rfl) hn.2 (.append (by unfold Clean; decide) (.append hn.clean (by unfold Clean; decide))) (fun r => by
      rw [List.append_assoc, List.append_assoc]
      show Tok.id _ :: Tok.id _ :: lex (.code false) ((b!"ccn_" ++ (name ++ b!"_vtable")) ++ 91 :: _) = _
      rw [lex_word hn.1 false (by decide)]
      rfl) rfl (fun w hw => shows_addr (by
      rcases List.mem_cons.1 hw with rfl | hw
      · exact fine_of (by decide +kernel)
      · obtain ⟨p, hp, rfl⟩ := List.mem_map.1 hw
        exact h p hp)) (by exact nofun) close_comma.1 close_comma.2.1 close_comma.2.2
  have e : ∀ l : List Id, DGSTinode pre l = (l.map fun n => pre ++ n.lwr).flatMap fun w => b!"&" ++ (w ++ b!", ") := fun l => by
    induction l with
    | nil => rfl
    | cons p l ih =>
      rw [DGSTinode, ih, hp]
      simp only [List.map_cons, List.flatMap_cons, List.append_assoc]
  rw [List.append_nil, List.flatMap_cons, ← e] at this
  simp only [List.append_assoc] at this
  exact this

theorem says_error (l : List Id) : Says (GenSystemTraversalVtable b!"ERR" b!"error" l) [systemExt b!"error" (l.map fun _ => b!"TRAVerror")] := by
  have f : Fine b!"TRAVerror" := fine_of (by decide +kernel)
  have := says_array (type := const b!"ccn_trav_ft") (name := b!"ccn_error_vtable") (size := b!"_NT_SIZE")
    (pre := b!"const ccn_trav_ft ccn_error_vtable[_NT_SIZE] = { ")
    (k := .id b!"const") (ts := [.id b!"ccn_trav_ft", .id b!"ccn_error_vtable", .sym 91, .id b!"_NT_SIZE", .sym 93, .sym 61, .sym 123])
    (l := b!"&TRAVerror, " :: l.map fun _ => b!"&TRAVerror,") (f := fun x => x) (g := fun _ => Init.addr b!"TRAVerror")
    (.inl rfl) (not_vtable b!"ccn_error") (by unfold Clean; decide) (fun r => rfl) rfl (fun w hw => by
      rcases List.mem_cons.1 hw with rfl | hw
      · exact shows_addr f
      · obtain ⟨p, hp, rfl⟩ := List.mem_map.1 hw
        exact ⟨by unfold Clean; decide, fun r => rfl, f.2⟩) (by exact nofun) close_comma.1 close_comma.2.1 close_comma.2.2
  have e : ∀ l : List Id, DGSTinode b!"ERR" l = (l.map fun _ => b!"&TRAVerror,").flatMap fun x => x := fun l => by
    induction l with
    | nil => rfl
    | cons p l ih =>
      rw [DGSTinode, ih, show STReq (some b!"ERR") (some b!"ERR") = true by decide]
      rfl
  rw [List.append_nil, List.flatMap_cons, ← e, List.map_cons, List.map_map] at this
  rw [systemExt, List.map_map]
  exact this

/-- The table of traversals. -/
def travExt (l : List Trav) : Ext :=
  .array ⟨const b!"ccn_trav_ft" ++ [.sym 42], b!"ccn_trav_vtable", b!"_TRAV_SIZE", .name b!"ccn_error_vtable" ::
    ((l.map fun t => .name (t.name.lwr ++ sVtable)) ++ [.name b!"ccn_free_vtable", .name b!"ccn_check_vtable", .name b!"ccn_copy_vtable"])⟩

theorem says_travs {l : List Trav} (h : ∀ t ∈ l, Fine (t.name.lwr ++ sVtable)) : Says (DGTTast l) [travExt l] := by
  have := says_array (type := const b!"ccn_trav_ft" ++ [.sym 42]) (name := b!"ccn_trav_vtable") (size := b!"_TRAV_SIZE")
    (pre := b!"const ccn_trav_ft *ccn_trav_vtable[_TRAV_SIZE] = { ")
    (k := .id b!"const") (ts := [.id b!"ccn_trav_ft", .sym 42, .id b!"ccn_trav_vtable", .sym 91, .id b!"_TRAV_SIZE", .sym 93, .sym 61, .sym 123])
    (l := b!"ccn_error_vtable" :: ((l.map fun t => t.name.lwr ++ sVtable) ++ [b!"ccn_free_vtable", b!"ccn_check_vtable", b!"ccn_copy_vtable"]))
    (f := fun w => (w ++ b!",") ++ b!" ") (g := .name)
    (.inr (.inl rfl)) (not_vtable b!"ccn_trav") (by unfold Clean; decide) (fun r => rfl) rfl (fun w hw => (shows_name (by
      rcases List.mem_cons.1 hw with rfl | hw
      · exact fine_of (by decide +kernel)
      · rcases List.mem_append.1 hw with hw | hw
        · obtain ⟨p, hp, rfl⟩ := List.mem_map.1 hw
          exact h p hp
        · exact fine_of ((by decide +kernel : ∀ f ∈ [b!"ccn_free_vtable", b!"ccn_check_vtable", b!"ccn_copy_vtable"], fineB f = true) w hw))).space)
    (by exact nofun) close_comma.1 close_comma.2.1 close_comma.2.2
  have e : ∀ l : List Trav, DGTTitraversal l = (l.map fun t => t.name.lwr ++ sVtable).flatMap fun w => (w ++ b!",") ++ b!" " := fun l => by
    induction l with
    | nil => rfl
    | cons p l ih =>
      rw [DGTTitraversal, ih]
      simp only [List.map_cons, List.flatMap_cons, List.append_assoc]
      rfl
  rw [List.append_nil, List.flatMap_cons, List.flatMap_append, ← e, List.append_assoc, List.append_assoc, List.append_assoc, List.append_assoc, List.map_cons,
    List.map_append, List.map_map] at this
  exact this

/-- What makes (or releases) the data of a traversal. -/
def dataName (pre : CStr) (t : Trav) : CStr :=
  match t.data with
  | true => pre ++ t.name.orig
  | false => b!"TRAVdataNOP"

/-- The tables for the data of traversals. -/
def dataExt (name pre : CStr) (l : List Trav) : Ext :=
  .array ⟨const b!"ccn_trav_data_ft", name, b!"_TRAV_SIZE", (.name b!"TRAVdataNOP" ::
    ((l.map fun t => .name (dataName pre t)) ++ [.name b!"TRAVdataNOP", .name b!"TRAVdataNOP"])) ++ [.name b!"TRAVdataNOP"]⟩

theorem close_nop : Clean b!"TRAVdataNOP};\n" ∧ Lexes false true b!"TRAVdataNOP};\n" [.id b!"TRAVdataNOP", .sym 125, .sym 59] ∧
    ∀ r, inits ([.id b!"TRAVdataNOP", .sym 125, .sym 59] ++ r) = some ([.name b!"TRAVdataNOP"], .sym 59 :: r) :=
  ⟨by unfold Clean; decide, fun _ => rfl, fun r => by
    show (if keywords.contains b!"TRAVdataNOP" then none else some _) = _
    rw [keyword_not (by decide +kernel)]
    rfl⟩

/-- The texts of the values, and the values. -/
theorem says_data {name pre : CStr} {init : Bool} {l : List Trav} {text : CStr} (hd : ∀ t l, DGTDTitraversal init (t :: l) = (dataName pre t ++ b!",") ++ DGTDTitraversal init l)
    (hn : name ∉ keywords) (hp : Clean text)
    (e : Lexes true false text ([.id b!"const", .id b!"ccn_trav_data_ft", .id name, .sym 91, .id b!"_TRAV_SIZE", .sym 93, .sym 61, .sym 123]))
    (h : ∀ t ∈ l, Fine (dataName pre t)) :
    Says (text ++ (b!"TRAVdataNOP," ++ (DGTDTitraversal init l ++ (b!"TRAVdataNOP, TRAVdataNOP, TRAVdataNOP" ++ b!"};\n")))) [dataExt name pre l] := by
  have f : Fine b!"TRAVdataNOP" := fine_of (by decide +kernel)
  have := says_array (type := const b!"ccn_trav_data_ft") (name := name) (size := b!"_TRAV_SIZE") (pre := text)
    (l := (b!"TRAVdataNOP,", b!"TRAVdataNOP") :: ((l.map fun t => (dataName pre t ++ b!",", dataName pre t)) ++ [(b!"TRAVdataNOP, ", b!"TRAVdataNOP"),
      (b!"TRAVdataNOP, ", b!"TRAVdataNOP")]))
    (f := (·.1)) (g := fun x => .name x.2)
    (.inr (.inr (.inr rfl))) hn hp e rfl (fun w hw => by
      rcases List.mem_cons.1 hw with rfl | hw
      · exact shows_name f
      · rcases List.mem_append.1 hw with hw | hw
        · obtain ⟨p, hp, rfl⟩ := List.mem_map.1 hw
          exact shows_name (h p hp)
        · simp only [List.mem_cons, List.not_mem_nil, or_false, or_self] at hw
          subst hw
          exact (shows_name f).space)
    (by exact nofun) close_nop.1 close_nop.2.1 close_nop.2.2
  have e : ∀ l : List Trav, DGTDTitraversal init l = (l.map fun t => (dataName pre t ++ b!",", dataName pre t)).flatMap (·.1) := fun l => by
    induction l with
    | nil => rfl
    | cons p l ih =>
      rw [hd, ih]
      rfl
  rw [List.flatMap_cons, List.flatMap_append, ← e, List.append_assoc, List.append_assoc, List.map_cons, List.map_append,
    List.map_map] at this
  exact this

/-- The declarations of `vtables.c`. -/
def tableExts (a : Decls) (user : List Table) : List Ext :=
  .directive b!"include \"ccngen/actions.h\"" :: .directive b!"include \"ccn/ccn_types.h\"" :: .directive b!"include \"ccn/dynamic_core.h\"" ::
  (user.map userExt ++ [passExt a.passes, systemExt b!"copy" (a.nodes.map fun n => b!"CPY" ++ n.lwr),
    systemExt b!"check" (a.nodes.map fun n => b!"CHK" ++ n.lwr), systemExt b!"free" (a.nodes.map fun n => b!"DEL" ++ n.lwr),
    systemExt b!"error" (a.nodes.map fun _ => b!"TRAVerror"), travExt a.travs, dataExt b!"trav_data_init_vtable" b!"TRAVdataInit" a.travs,
    dataExt b!"trav_data_free_vtable" b!"TRAVdataFree" a.travs])

theorem says_tables {a : Decls} {user : List Table} (hu : ∀ x ∈ user, Fine x.name ∧ x.entries ≠ [] ∧ ∀ f ∈ x.entries, Shown f)
    (hp : ∀ p ∈ a.passes, Fine (DGHpassFuncName p)) (hn : ∀ n ∈ a.nodes, ∀ c ∈ n.lwr, inWord c = true)
    (ht : ∀ t ∈ a.travs, Fine (t.name.lwr ++ sVtable) ∧ ∀ c ∈ t.name.orig, inWord c = true) : Says (tableText a user) (tableExts a user) := by
  have hd : ∀ pre : CStr, (∃ c r, pre = c :: r ∧ (65 ≤ c ∧ c ≤ 90) ∧ ∀ d ∈ r, inWord d = true) → ∀ t ∈ a.travs, Fine (dataName pre t) := by
    rintro _ ⟨c, r, rfl, h1, h2⟩ t h
    unfold dataName
    split
    · exact fine_upper h1 (word_append h2 (ht t h).2)
    · exact fine_of (by decide +kernel)
  refine Says.append (l := [_]) (says_dir (by unfold Clean; decide) fun r => rfl) (Says.append (l := [_]) (says_dir (by unfold Clean; decide) fun r => rfl) ?_)
  rw [DGTVast, List.append_assoc]
  refine Says.append (l := [_]) (says_dir (by unfold Clean; decide) fun r => rfl) (Says.append (.flatMap fun x hx => says_user (hu x hx).1 (hu x hx).2.1 (hu x hx).2.2) ?_)
  refine Says.append (l := [_]) (says_passes hp) ?_
  rw [DGSTast]
  simp only [List.append_assoc]
  refine Says.append (l := [_]) (says_system (fine_of (by decide +kernel)) (by decide) fun n h => fine_upper (by decide) (word_append (by decide) (hn n h))) ?_
  refine Says.append (l := [_]) (says_system (fine_of (by decide +kernel)) (by decide) fun n h => fine_upper (by decide) (word_append (by decide) (hn n h))) ?_
  refine Says.append (l := [_]) (says_system (fine_of (by decide +kernel)) (by decide) fun n h => fine_upper (by decide) (word_append (by decide) (hn n h))) ?_
  refine Says.append (l := [_]) (says_error _) (Says.append (l := [_]) (says_travs fun t h => (ht t h).1) ?_)
  have h1 := says_data (name := b!"trav_data_init_vtable") (pre := b!"TRAVdataInit") (init := true) (l := a.travs)
    (text := b!"const ccn_trav_data_ft trav_data_init_vtable[_TRAV_SIZE] = {") (fun t l => by
      obtain ⟨_, _, _, d⟩ := t
      cases d <;> simp only [dataName, DGTDTitraversal, List.append_assoc] <;> rfl) (not_vtable b!"trav_data_init") (by unfold Clean; decide) (fun r => rfl)
    (hd _ ⟨_, _, rfl, by decide, by decide⟩)
  have h2 := says_data (name := b!"trav_data_free_vtable") (pre := b!"TRAVdataFree") (init := false) (l := a.travs)
    (text := b!"const ccn_trav_data_ft trav_data_free_vtable[_TRAV_SIZE] = {") (fun t l => by
      obtain ⟨_, _, _, d⟩ := t
      cases d <;> simp only [dataName, DGTDTitraversal, List.append_assoc] <;> rfl) (not_vtable b!"trav_data_free") (by unfold Clean; decide) (fun r => rfl)
    (hd _ ⟨_, _, rfl, by decide, by decide⟩)
  have h3 := h1.append h2
  simp only [List.append_assoc] at h3
  exact h3

end Verif.TableText
