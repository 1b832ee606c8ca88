import Verif.Lemmas.GenFilesTypes
import Verif.Lemmas.GenFilesWalk

/-!
# Lemmas about the files that are generated
-/

namespace Verif.GenFiles
open Verif.Str Verif.Ids Verif.Semantic
open Verif.Spec.Str (lowerB upperB SameName)
open Verif.Spec.Semantic (Pairs NodeAttr SetAttr TypesNamed)
open Verif.Spec.Described (cType)
open Verif.Spec.GenFiles (IsLink Refers UserType UsersNamed UserSeen SetTypesSeen EnumsAsDeclared NoLinks NoStrings NoSlash)
open Verif.NodeGen (AT CTy Rhs attrType FMTattributeDefaultVal)
open Verif.Described (nodeProg attrGen Known From)

/-- A file with its lines. -/
abbrev Block := CStr × List Item

/-- The steps that write files. -/
def unblock (bs : List Block) : List Step := bs.flatMap fun b => .fopen b.1 :: b.2.map .emit

theorem unblock_append (a b : List Block) : unblock (a ++ b) = unblock a ++ unblock b := by simp [unblock]

theorem unblock_cons (b : Block) (bs : List Block) : unblock (b :: bs) = .fopen b.1 :: (b.2.map .emit ++ unblock bs) := by simp [unblock]

/-! ## Writing -/

theorem exec_emits (dir : CStr) (rest : List Step) {path : CStr} : ∀ (c : List Item) {k : Disk} {old : List Item}, k.cur = some path →
    k.file path = some old → ∃ k', exec dir (c.map .emit ++ rest) k = exec dir rest k' ∧ k'.dirs = k.dirs ∧ k'.file path = some (old ++ c) ∧
      ∀ q, q ≠ path → k'.file q = k.file q
  | [], k, old, hc, hf => ⟨k, rfl, rfl, by rw [hf, List.append_nil], fun _ _ => rfl⟩
  | i :: c, k, old, hc, hf => by
    obtain ⟨k', h1, h2, h3, h4⟩ := exec_emits dir rest c (k := { k with file := fun q => if q = path then some (old ++ [i]) else k.file q })
      (old := old ++ [i]) hc (if_pos rfl)
    refine ⟨k', ?_, h2, by rw [h3, List.append_assoc]; rfl, fun q hq => (h4 q hq).trans (if_neg hq)⟩
    rw [List.map_cons, List.cons_append, exec, GNprint]
    simp only [hc, hf, Res.bind_ok]
    rw [hc] at h1
    exact h1

theorem exec_blocks (dir : CStr) : ∀ (bs : List Block) {k : Disk}, (bs.map (·.1)).Nodup → (∀ b ∈ bs, dirName (dir ++ b.1) ∈ k.dirs) →
    ∃ k', exec dir (unblock bs) k = .ok k' ∧ k'.dirs = k.dirs ∧ (∀ p c, (p, c) ∈ bs → k'.file (dir ++ p) = some c) ∧
      ∀ q, (∀ b ∈ bs, q ≠ dir ++ b.1) → k'.file q = k.file q
  | [], k, _, _ => ⟨k, rfl, rfl, (fun _ _ h => by cases h), fun _ _ => rfl⟩
  | b :: bs, k, hn, hd => by
    rw [List.map_cons, List.nodup_cons] at hn
    have hdir : k.dirs.contains (dirName (dir ++ b.1)) = true := List.contains_iff_mem.2 (hd b List.mem_cons_self)
    obtain ⟨k1, h1, h2, h3, h4⟩ := exec_emits dir (unblock bs) (path := dir ++ b.1) b.2
      (k := { k with file := fun q => if q = dir ++ b.1 then some [] else k.file q, cur := some (dir ++ b.1) }) rfl (if_pos rfl)
    obtain ⟨k', g1, g2, g3, g4⟩ := exec_blocks dir bs (k := k1) hn.2 fun x hx => by rw [h2]; exact hd x (List.mem_cons_of_mem _ hx)
    refine ⟨k', ?_, g2.trans h2, fun p c h => ?_, fun q hq => ?_⟩
    · rw [unblock_cons, exec, GNopenFile]
      simp only [hdir, Res.bind_ok]
      rw [h1, g1]
    · rcases List.mem_cons.1 h with rfl | h
      · rw [g4 _ fun x hx e => ?_]
        · exact h3
        · rw [List.append_cancel_left_eq] at e
          exact hn.1 (List.mem_map.2 ⟨x, hx, e.symm⟩)
      · exact g3 p c h
    · rw [g4 q fun x hx => hq x (List.mem_cons_of_mem _ hx), h4 q (hq b List.mem_cons_self)]
      exact if_neg (hq b List.mem_cons_self)

theorem dirName_append {d : CStr} (hd : d.getLast? = some 47) (p : CStr) : dirName (d ++ p) = d ++ dirName p := by
  obtain ⟨e, rfl⟩ : ∃ e, d = e ++ [47] := by
    obtain ⟨e, he⟩ := List.getLast?_eq_some_iff.1 hd
    exact ⟨e, he⟩
  unfold dirName
  rw [List.reverse_append, List.dropWhile_append]
  split
  · rename_i h
    rw [List.isEmpty_iff.1 h]
    simp
  · simp

theorem dirName_noSlash {p : CStr} (h : (47 : UInt8) ∉ p) : dirName p = [] := by
  unfold dirName
  rw [List.reverse_eq_nil_iff]
  have key : ∀ l : CStr, (47 : UInt8) ∉ l → l.dropWhile (fun c => c != 47) = [] := by
    intro l
    induction l with
    | nil => exact fun _ => rfl
    | cons c l ih =>
      intro hl
      rw [List.dropWhile_cons_of_pos (by rw [bne_iff_ne]; rintro rfl; exact hl List.mem_cons_self)]
      exact ih fun h => hl (List.mem_cons_of_mem _ h)
  exact key _ fun hm => h (List.mem_reverse.1 hm)

/-! ## Equations -/

section
variable {A : Parse.Ast} {o : Out}

/-- The words of the types of references. -/
structure RefWords (A : Parse.Ast) (k : Nat) (n : Parse.Node) (rs : List Parse.Ref) (ws : List Sym) : Prop where
  from' : ∀ x ∈ ws, ∃ r ∈ rs, ∃ a c, Refers A k n r a ∧ TyOf A a c ∧ x ∈ typeWords c
  all : ∀ r ∈ rs, ∃ a c, Refers A k n r a ∧ TyOf A a c ∧ ∀ x ∈ typeWords c, x ∈ ws

theorem RefWords.cons {k : Nat} {n : Parse.Node} {r : Parse.Ref} {rs : List Parse.Ref} {ws : List Sym} {a : Parse.Attr} {c : CTy}
    (hr : Refers A k n r a) (hc : TyOf A a c) (h : RefWords A k n rs ws) : RefWords A k n (r :: rs) (typeWords c ++ ws) := by
  refine ⟨fun x hx => ?_, fun s hs => ?_⟩
  · rcases List.mem_append.1 hx with hx | hx
    · exact ⟨r, List.mem_cons_self, a, c, hr, hc, hx⟩
    · obtain ⟨s, hs, h⟩ := h.from' x hx
      exact ⟨s, List.mem_cons_of_mem _ hs, h⟩
  · rcases List.mem_cons.1 hs with rfl | hs
    · exact ⟨a, c, hr, hc, fun x hx => List.mem_append_left _ hx⟩
    · obtain ⟨a, c, h1, h2, h3⟩ := h.all s hs
      exact ⟨a, c, h1, h2, fun x hx => List.mem_append_right _ (h3 x hx)⟩

/-- The word of the result of a template. -/
def Returns (A : Parse.Ast) (k : Nat) (n : Parse.Node) (r : Parse.Ref) (us : List Sym) : Prop :=
  ∃ a, Refers A k n r a ∧ ((a.type = .string ∨ IsLink A a) → us = words [b!"NULL"]) ∧
    (¬ (a.type = .string ∨ IsLink A a) → us = [] ∨ us = words [b!"false"])

/-- The lines of a header for equations. -/
structure EqLines (A : Parse.Ast) (k : Nat) (n : Parse.Node) (es : List Parse.Equation) (is : List Item) : Prop where
  from' : ∀ i ∈ is, ∃ e ∈ es, ∃ ws, i = .text [] ws ∧ RefWords A k n (e.rule :: e.args) ws
  all : ∀ e ∈ es, ∃ ws, Item.text [] ws ∈ is ∧ RefWords A k n (e.rule :: e.args) ws

/-- The lines of a file of templates. -/
structure UserLines (A : Parse.Ast) (k : Nat) (n : Parse.Node) (es : List Parse.Equation) (is : List Item) : Prop where
  from' : ∀ i ∈ is, ∃ e ∈ es, ∃ ws us, i = .text [] (ws ++ us) ∧ RefWords A k n (e.rule :: e.args) ws ∧ Returns A k n e.rule us
  all : ∀ e ∈ es, ∃ ws us, Item.text [] (ws ++ us) ∈ is ∧ RefWords A k n (e.rule :: e.args) ws ∧ Returns A k n e.rule us

variable {addr : Loc → Nat} {members : Nat → List Propagate.Entry} {S : Induce.Spec}

theorem args_words (w : World addr A o.attrs (cprEnv A o.tab o.attrs) members S) (kn : Known A o) (hu : UsersNamed A) {k : Nat}
    {n : Parse.Node} (hn : A.nodes[k]? = some n) {e : Parse.Equation} (he : e ∈ n.equations) : ∀ {rs : List Parse.Ref},
    (∀ r ∈ rs, r ∈ e.rule :: e.args) → ∃ ws, argsWords (nodeProg A o) (cprEnv A o.tab o.attrs) (nodeD o k n) (rs.map Semantic.refOf) = .ok ws ∧
      RefWords A k n rs ws
  | [], _ => ⟨[], rfl, (fun _ h => by cases h), fun _ h => by cases h⟩
  | r :: rs, h => by
    obtain ⟨ws, b, a, c, h1, _, _, h4, h5, rfl⟩ := ref_words w kn hu hn he (h r List.mem_cons_self)
    obtain ⟨vs, g1, g2⟩ := args_words w kn hu hn he (rs := rs) fun s hs => h s (List.mem_cons_of_mem _ hs)
    exact ⟨typeWords c ++ vs, by simp only [List.map_cons, argsWords, h1, g1, Res.bind_ok], g2.cons h4 h5⟩

theorem eq_lines (w : World addr A o.attrs (cprEnv A o.tab o.attrs) members S) (kn : Known A o) (hu : UsersNamed A) {k : Nat}
    {n : Parse.Node} (hn : A.nodes[k]? = some n) : ∀ {es : List Parse.Equation}, (∀ e ∈ es, e ∈ n.equations) →
    ∃ is, DGEFequation (nodeProg A o) (cprEnv A o.tab o.attrs) (nodeD o k n) (es.map eqnOf) = .ok is ∧ EqLines A k n es is
  | [], _ => ⟨[], rfl, (fun _ h => by cases h), fun _ h => by cases h⟩
  | e :: es, h => by
    have he := h e List.mem_cons_self
    obtain ⟨ws, b, a, c, h1, _, _, h4, h5, rfl⟩ := ref_words w kn hu hn he List.mem_cons_self
    obtain ⟨vs, g1, g2⟩ := args_words w kn hu hn he (rs := e.args) fun s hs => List.mem_cons_of_mem _ hs
    obtain ⟨is, i1, i2⟩ := eq_lines w kn hu hn (es := es) fun s hs => h s (List.mem_cons_of_mem _ hs)
    refine ⟨.text [] (typeWords c ++ vs) :: is, ?_, fun i hi => ?_, fun e' he' => ?_⟩
    · rw [List.map_cons, DGEFequation]
      simp only [i1]
      simp only [eqnOf, h1, g1, Res.bind_ok]
    · rcases List.mem_cons.1 hi with rfl | hi
      · exact ⟨e, List.mem_cons_self, _, rfl, g2.cons h4 h5⟩
      · obtain ⟨e', he', hh⟩ := i2.from' i hi
        exact ⟨e', List.mem_cons_of_mem _ he', hh⟩
    · rcases List.mem_cons.1 he' with rfl | he'
      · exact ⟨_, List.mem_cons_self, g2.cons h4 h5⟩
      · obtain ⟨ws, hw, hh⟩ := i2.all e' he'
        exact ⟨ws, List.mem_cons_of_mem _ hw, hh⟩

theorem return_words (kn : Known A o) {k : Nat} {n : Parse.Node} {r : Parse.Ref} {a : Parse.Attr} {b : Propagate.Attr} (hf : From A a b)
    (hr : Refers A k n r a) : ∃ us, returnWords b = .ok us ∧ Returns A k n r us := by
  cases hb : b.type with
  | link =>
    have hty : (attrGen b).type = .link := by simp [attrGen, hb]
    obtain ⟨h1, q, h2, h3⟩ := hf.typed.link hb
    refine ⟨words [b!"NULL"], by simp only [returnWords, hty, FMTattributeDefaultVal, Res.bind_ok, valueWords], a, hr, fun _ => rfl, fun h => ?_⟩
    exact absurd (Or.inr ⟨h1, q, h2, node_link h3⟩) h
  | user =>
    have hty : (attrGen b).type = .user := by simp [attrGen, hb]
    refine ⟨[], by simp only [returnWords, hty], a, hr, fun h => ?_, fun _ => Or.inl rfl⟩
    have hu := hf.typed.user.1 hb
    rcases h with h | h
    · rw [hu] at h; cases h
    · have := h.1
      rw [hu] at this; cases this
  | basic t =>
    obtain ⟨h1, h2, h3⟩ := hf.typed.basic t hb
    have hty : (attrGen b).type = cType a.type := by simp only [attrGen, hb, h1, Described.basicOf_prim h2 h3]
    have hnl : ¬ IsLink A a := fun h => h3 h.1
    have key : ∀ us, returnWords b = .ok us → (a.type = .string → us = words [b!"NULL"]) → (a.type ≠ .string → us = [] ∨ us = words [b!"false"]) →
        ∃ us, returnWords b = .ok us ∧ Returns A k n r us := fun us e1 e2 e3 => ⟨us, e1, a, hr, fun h => h.elim e2 fun h => absurd h hnl,
          fun h => e3 fun hs => h (Or.inl hs)⟩
    have val : returnWords b = .ok (match a.type with
        | .string => words [b!"NULL"]
        | .bool => words [b!"false"]
        | _ => []) := by
      unfold returnWords
      rw [hty]
      cases ha : a.type <;> first | exact absurd ha h2 | exact absurd ha h3 | rfl
    refine key _ val (fun h => by rw [h]) fun h => ?_
    cases ha : a.type <;> simp_all
  | linkOrEnum =>
    have hty : (attrGen b).type = .linkOrEnum := by simp [attrGen, hb]
    refine ⟨[], by simp only [returnWords, hty, FMTattributeDefaultVal, Res.bind_ok, valueWords], a, hr, fun h => ?_, fun _ => Or.inl rfl⟩
    obtain ⟨h1, q, h2, h3⟩ := hf.typed.enum hb
    rcases h with h | ⟨_, q', h4, h5⟩
    · rw [h1] at h; cases h
    · have := (Described.attrAs kn.facts.right hf).type.link h1 q' h4 h5
      rw [hty] at this
      cases this

theorem user_lines (w : World addr A o.attrs (cprEnv A o.tab o.attrs) members S) (kn : Known A o) (hu : UsersNamed A) {k : Nat}
    {n : Parse.Node} (hn : A.nodes[k]? = some n) : ∀ {es : List Parse.Equation}, (∀ e ∈ es, e ∈ n.equations) →
    ∃ is, DUGEequation (nodeProg A o) (cprEnv A o.tab o.attrs) (nodeD o k n) (es.map eqnOf) = .ok is ∧ UserLines A k n es is
  | [], _ => ⟨[], rfl, (fun _ h => by cases h), fun _ h => by cases h⟩
  | e :: es, h => by
    have he := h e List.mem_cons_self
    obtain ⟨ws, b, a, c, h1, h2, h3, h4, h5, rfl⟩ := ref_words w kn hu hn he List.mem_cons_self
    obtain ⟨vs, g1, g2⟩ := args_words w kn hu hn he (rs := e.args) fun s hs => List.mem_cons_of_mem _ hs
    obtain ⟨us, u1, u2⟩ := return_words kn h3 h4
    obtain ⟨is, i1, i2⟩ := user_lines w kn hu hn (es := es) fun s hs => h s (List.mem_cons_of_mem _ hs)
    refine ⟨.text [] (typeWords c ++ vs ++ us) :: is, ?_, fun i hi => ?_, fun e' he' => ?_⟩
    · rw [List.map_cons, DUGEequation]
      simp only [i1]
      simp only [eqnOf, h1, h2, g1, u1, Res.bind_ok]
    · rcases List.mem_cons.1 hi with rfl | hi
      · exact ⟨e, List.mem_cons_self, _, us, rfl, g2.cons h4 h5, u2⟩
      · obtain ⟨e', he', hh⟩ := i2.from' i hi
        exact ⟨e', List.mem_cons_of_mem _ he', hh⟩
    · rcases List.mem_cons.1 he' with rfl | he'
      · exact ⟨_, us, List.mem_cons_self, g2.cons h4 h5, u2⟩
      · obtain ⟨ws, us, hw, hh⟩ := i2.all e' he'
        exact ⟨ws, us, List.mem_cons_of_mem _ hw, hh⟩

/-! ## Files for nodes and traversals -/

/-- The header for the equations of a node. -/
def headerOf (n : Parse.Node) : CStr := b!"ccngen/equations/" ++ ((idOf n.name).lwr ++ b!".h")

/-- The templates for the equations of a node. -/
def templateOf (n : Parse.Node) : CStr := b!"user/" ++ (b!"eq_" ++ (idOf n.name).lwr ++ b!".c")

/-- The templates for a traversal. -/
def travOf (x : Parse.Traversal) : CStr := b!"user/" ++ (b!"trav_" ++ (idOf x.name).lwr ++ b!".c")

/-- The include of the header for the equations of a node. -/
def includeOf (n : Parse.Node) : Item := .incl false (b!"ccngen/equations/" ++ (idOf n.name).lwr ++ b!".h")

/-- The first lines of the header for the equations of a node. -/
def headerTop : List Item :=
  [.once, .incl false b!"ccngen/ccn_defs.h", .incl false b!"ccn/ccn_types.h", .incl false b!"ccngen/enum.h", .ifUnsafe b!"user_types.h"]

/-- The file is the header for the equations of a node. -/
def IsHeader (A : Parse.Ast) (b : Block) : Prop :=
  ∃ (k : Nat) (n : Parse.Node) (is : List Item), A.nodes[k]? = some n ∧ n.equations ≠ [] ∧ b = (headerOf n, headerTop ++ is) ∧
    EqLines A k n n.equations is

/-- The file has the templates for the equations of a node. -/
def IsTemplate (A : Parse.Ast) (b : Block) : Prop :=
  ∃ (k : Nat) (n : Parse.Node) (is : List Item), A.nodes[k]? = some n ∧ n.equations ≠ [] ∧ b = (templateOf n, includeOf n :: is) ∧
    UserLines A k n n.equations is

/-- The nodes with equations. -/
def withEqs (l : List Parse.Node) : List Parse.Node := l.filter fun n => decide (n.equations ≠ [])

/-- The list has nodes of the description with what the check of equations reads of them. -/
def Zipped (A : Parse.Ast) (o : Out) (l : List (Parse.Node × ProductRules.NodeD)) : Prop :=
  ∀ x ∈ l, ∃ k : Nat, A.nodes[k]? = some x.1 ∧ x.2 = nodeD o k x.1

theorem zipped : Zipped A o (A.nodes.zip (cprEnv A o.tab o.attrs).nodes) := by
  intro x hx
  obtain ⟨k, hk⟩ := List.getElem?_of_mem hx
  obtain ⟨h1, h2⟩ := List.getElem?_zip_eq_some.1 hk
  obtain ⟨n, hn, he⟩ := cpr_node.1 h2
  cases h1.symm.trans hn
  exact ⟨k, h1, he⟩

theorem zip_fst : (A.nodes.zip (cprEnv A o.tab o.attrs).nodes).map (·.1) = A.nodes := by
  rw [List.map_fst_zip]
  simp [cprEnv]

theorem eq_headers (w : World addr A o.attrs (cprEnv A o.tab o.attrs) members S) (kn : Known A o) (hu : UsersNamed A) :
    ∀ {l : List (Parse.Node × ProductRules.NodeD)}, Zipped A o l →
    ∃ bs, DGEFinode (nodeProg A o) (cprEnv A o.tab o.attrs) l = .ok (unblock bs) ∧ bs.map (·.1) = (withEqs (l.map (·.1))).map headerOf ∧
      ∀ b ∈ bs, IsHeader A b
  | [], _ => ⟨[], rfl, rfl, fun _ h => by cases h⟩
  | x :: l, h => by
    obtain ⟨n, nd⟩ := x
    obtain ⟨k, hk, hx⟩ := h _ List.mem_cons_self
    dsimp only at hk hx
    subst hx
    obtain ⟨bs, b1, b2, b3⟩ := eq_headers w kn hu (l := l) fun y hy => h y (List.mem_cons_of_mem _ hy)
    cases he : n.equations with
    | nil =>
      refine ⟨bs, ?_, ?_, b3⟩
      · rw [DGEFinode]
        simp only [nodeD, he, List.map_nil]
        exact b1
      · rw [b2]
        simp [withEqs, he]
    | cons e es =>
      obtain ⟨is, i1, i2⟩ := eq_lines w kn hu hk (es := n.equations) fun _ h => h
      refine ⟨(headerOf n, headerTop ++ is) :: bs, ?_, ?_, fun b hb => ?_⟩
      · rw [DGEFinode]
        rw [he] at i1
        simp only [nodeD, he] at i1 ⊢
        simp only [List.map_cons] at i1 ⊢
        simp only [i1, b1, Res.bind_ok, unblock_cons, GNopenEquationIncludeFile, headerOf, headerTop]
        simp
      · rw [List.map_cons, b2]
        simp [withEqs, he]
      · rcases List.mem_cons.1 hb with rfl | hb
        · exact ⟨k, n, is, hk, by rw [he]; exact List.cons_ne_nil _ _, rfl, i2⟩
        · exact b3 b hb

theorem templates (w : World addr A o.attrs (cprEnv A o.tab o.attrs) members S) (kn : Known A o) (hu : UsersNamed A) :
    ∀ {l : List (Parse.Node × ProductRules.NodeD)}, Zipped A o l →
    ∃ bs, DUGEinode (nodeProg A o) (cprEnv A o.tab o.attrs) l = .ok (unblock bs) ∧ bs.map (·.1) = (withEqs (l.map (·.1))).map templateOf ∧
      ∀ b ∈ bs, IsTemplate A b
  | [], _ => ⟨[], rfl, rfl, fun _ h => by cases h⟩
  | x :: l, h => by
    obtain ⟨n, nd⟩ := x
    obtain ⟨k, hk, hx⟩ := h _ List.mem_cons_self
    dsimp only at hk hx
    subst hx
    obtain ⟨bs, b1, b2, b3⟩ := templates w kn hu (l := l) fun y hy => h y (List.mem_cons_of_mem _ hy)
    cases he : n.equations with
    | nil =>
      refine ⟨bs, ?_, ?_, b3⟩
      · rw [DUGEinode]
        simp only [nodeD, he, List.map_nil]
        exact b1
      · rw [b2]
        simp [withEqs, he]
    | cons e es =>
      obtain ⟨is, i1, i2⟩ := user_lines w kn hu hk (es := n.equations) fun _ h => h
      refine ⟨(templateOf n, includeOf n :: is) :: bs, ?_, ?_, fun b hb => ?_⟩
      · rw [DUGEinode]
        rw [he] at i1
        simp only [nodeD, he] at i1 ⊢
        simp only [List.map_cons] at i1 ⊢
        simp only [i1, b1, Res.bind_ok, unblock_cons, GNopenUserFile, templateOf, includeOf]
        simp
      · rw [List.map_cons, b2]
        simp [withEqs, he]
      · rcases List.mem_cons.1 hb with rfl | hb
        · exact ⟨k, n, is, hk, by rw [he]; exact List.cons_ne_nil _ _, rfl, i2⟩
        · exact b3 b hb

/-- The lines of the templates for a traversal. -/
def travLines : List Item :=
  [.incl false b!"ccn/ccn.h", .incl false b!"ccngen/ast.h", .incl false b!"ccngen/trav.h", .text [] (words [b!"node_st", b!"TRAVchildren"])]

theorem trav_files : ∀ (l : List Parse.Traversal), DUGTitraversal l = unblock (l.map fun x => (travOf x, travLines))
  | [] => rfl
  | x :: l => by
    rw [DUGTitraversal, List.map_cons, unblock_cons, trav_files l]
    simp [GNopenUserFile, travOf, travLines]

theorem equation_header : ∀ {l : List (Parse.Node × ProductRules.NodeD)}, Zipped A o l →
    DGEIinode l = ((withEqs (l.map (·.1))).map includeOf).map .emit
  | [], _ => rfl
  | x :: l, h => by
    obtain ⟨n, nd⟩ := x
    obtain ⟨k, hk, hx⟩ := h _ List.mem_cons_self
    dsimp only at hk hx
    subst hx
    have ih := equation_header (l := l) fun y hy => h y (List.mem_cons_of_mem _ hy)
    cases he : n.equations with
    | nil =>
      rw [DGEIinode]
      simp only [nodeD, he, List.map_nil]
      rw [ih]
      simp [withEqs, he]
    | cons e es =>
      rw [DGEIinode]
      simp only [nodeD, he, List.map_cons]
      rw [ih]
      simp [withEqs, he, includeOf]

end

end Verif.GenFiles
