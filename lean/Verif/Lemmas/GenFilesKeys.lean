import Verif.Lemmas.GenFilesBlocks

/-!
# The names of generated files
-/

namespace Verif.GenFiles
open Verif.Str Verif.Ids Verif.Semantic
open Verif.Spec.Str (lowerB upperB SameName)
open Verif.Spec.GenFiles (NoSlash Made Source)

/-- The names that all descriptions have in common. -/
def always : List CStr :=
  [b!"ccngen/ast.h", b!"ast.c", b!"ccngen/enum.h", b!"ccngen/trav_data.h", b!"trav_data.c", b!"vtables.c", b!"ccngen/actions.h",
    b!"ccn_copy.c", b!"ccn_free.c", b!"ccn_check.c", b!"ccngen/equation.h"] ++
  ([b!"ccngen/visit.h", b!"visit.c", b!"ccngen/ag.h", b!"ag.c", b!"user/passes.c"] ++
  [b!"trav.c", b!"ccngen/trav.h", b!"ccngen/action_handling.h", b!"action_handling.c", b!"ccngen/gate.h", b!"ast.dot", b!"ccngen/ccn_defs.h"])

/-- Where the headers for equations are. -/
abbrev eqDir : CStr := b!"ccngen/equations/"

/-- Names that a generated file may have. -/
def isKey (p : CStr) : Bool :=
  always.contains p || (eqDir.isPrefixOf p && !(p.drop 17).contains 47) || b!"user/eq_".isPrefixOf p || b!"user/trav_".isPrefixOf p

section
variable {A : Parse.Ast} {o : Out} {v : Words} {u : Bool} {hs ts : List Block}

/-- The name is that of a file for the description. -/
inductive IsKey (A : Parse.Ast) : CStr → Prop where
  | always {p : CStr} : p ∈ always → IsKey A p
  | header {n : Parse.Node} : n ∈ A.nodes → n.equations ≠ [] → IsKey A (headerOf n)
  | template {n : Parse.Node} : n ∈ A.nodes → n.equations ≠ [] → IsKey A (templateOf n)
  | trav {x : Parse.Traversal} : x ∈ A.traversals → IsKey A (travOf x)

theorem keys_eq (hw : Written A v u hs ts) : (blocks A v u hs ts).map (·.1) =
    (first A v).map (·.1) ++ ((withEqs A.nodes).map headerOf ++ ((second A v).map (·.1) ++ (A.traversals.map travOf ++
      ((withEqs A.nodes).map templateOf ++ (third A u).map (·.1))))) := by
  rw [← hw.keysH, ← hw.keysT]
  simp [blocks, Function.comp_def]

theorem keys_perm (hw : Written A v u hs ts) : List.Perm ((blocks A v u hs ts).map (·.1))
    (always ++ ((withEqs A.nodes).map headerOf ++ ((withEqs A.nodes).map templateOf ++ A.traversals.map travOf))) := by
  rw [keys_eq hw]
  have : always = (first A v).map (·.1) ++ ((second A v).map (·.1) ++ (third A u).map (·.1)) := rfl
  rw [this, List.perm_iff_count]
  intro a
  simp only [List.count_append]
  omega

theorem mem_withEqs {l : List Parse.Node} {n : Parse.Node} : n ∈ withEqs l ↔ n ∈ l ∧ n.equations ≠ [] := by
  simp [withEqs]

theorem mem_keys (hw : Written A v u hs ts) {p : CStr} : p ∈ (blocks A v u hs ts).map (·.1) ↔ IsKey A p := by
  rw [(keys_perm hw).mem_iff]
  simp only [List.mem_append, List.mem_map]
  constructor
  · rintro (h | ⟨n, hn, rfl⟩ | ⟨n, hn, rfl⟩ | ⟨x, hx, rfl⟩)
    · exact .always h
    · exact .header (mem_withEqs.1 hn).1 (mem_withEqs.1 hn).2
    · exact .template (mem_withEqs.1 hn).1 (mem_withEqs.1 hn).2
    · exact .trav hx
  · intro h
    cases h with
    | always h => exact Or.inl h
    | header h1 h2 => exact Or.inr (Or.inl ⟨_, mem_withEqs.2 ⟨h1, h2⟩, rfl⟩)
    | template h1 h2 => exact Or.inr (Or.inr (Or.inl ⟨_, mem_withEqs.2 ⟨h1, h2⟩, rfl⟩))
    | trav h => exact Or.inr (Or.inr (Or.inr ⟨_, h, rfl⟩))

/-! ### All names are different -/

theorem always_other {p : CStr} (h : p ∈ always) :
    eqDir.isPrefixOf p = false ∧ b!"user/eq_".isPrefixOf p = false ∧ b!"user/trav_".isPrefixOf p = false :=
  (by decide +kernel : ∀ p ∈ always, eqDir.isPrefixOf p = false ∧ b!"user/eq_".isPrefixOf p = false ∧ b!"user/trav_".isPrefixOf p = false) p h

theorem header_pre (n : Parse.Node) : eqDir.isPrefixOf (headerOf n) = true ∧ b!"user/".isPrefixOf (headerOf n) = false := ⟨rfl, rfl⟩
theorem template_pre (n : Parse.Node) : b!"user/eq_".isPrefixOf (templateOf n) = true ∧ b!"user/".isPrefixOf (templateOf n) = true ∧
    b!"user/trav_".isPrefixOf (templateOf n) = false := ⟨rfl, rfl, rfl⟩
theorem trav_pre (x : Parse.Traversal) : b!"user/trav_".isPrefixOf (travOf x) = true ∧ b!"user/".isPrefixOf (travOf x) = true := ⟨rfl, rfl⟩

theorem lwr_eq (n : Parse.Name) : (idOf n).lwr = n.orig.map lowerB := rfl

theorem header_inj {n m : Parse.Node} (h : headerOf n = headerOf m) : SameName n.name.orig m.name.orig := by
  unfold headerOf at h
  rw [List.append_cancel_left_eq, List.append_cancel_right_eq] at h
  exact h

theorem template_inj {n m : Parse.Node} (h : templateOf n = templateOf m) : SameName n.name.orig m.name.orig := by
  unfold templateOf at h
  rw [List.append_cancel_left_eq, List.append_cancel_right_eq, List.append_cancel_left_eq] at h
  exact h

theorem travOf_inj {n m : Parse.Traversal} (h : travOf n = travOf m) : SameName n.name.orig m.name.orig := by
  unfold travOf at h
  rw [List.append_cancel_left_eq, List.append_cancel_right_eq, List.append_cancel_left_eq] at h
  exact h

theorem keys_nodup (hr : Right A o.tab) (hw : Written A v u hs ts) : ((blocks A v u hs ts).map (·.1)).Nodup := by
  rw [(keys_perm hw).nodup_iff]
  have hH : ((withEqs A.nodes).map headerOf).Nodup :=
    TravData.pairwise_filter (TravData.pairwise_of_inj fun i j a b ha hb e => Compiled.node_inj hr ha hb (header_inj e))
  have hT : ((withEqs A.nodes).map templateOf).Nodup :=
    TravData.pairwise_filter (TravData.pairwise_of_inj fun i j a b ha hb e => Compiled.node_inj hr ha hb (template_inj e))
  have hS : (A.traversals.map travOf).Nodup :=
    TravData.pairwise_of_inj fun i j a b ha hb e => Compiled.trav_inj hr ha hb (travOf_inj e)
  refine List.nodup_append.2 ⟨by decide +kernel, List.nodup_append.2 ⟨hH, List.nodup_append.2 ⟨hT, hS, ?_⟩, ?_⟩, ?_⟩
  · intro a ha b hb e
    obtain ⟨n, _, rfl⟩ := List.mem_map.1 ha
    obtain ⟨x, _, rfl⟩ := List.mem_map.1 hb
    have := (template_pre n).2.2
    rw [e] at this
    cases this.symm.trans (trav_pre x).1
  · intro a ha b hb e
    obtain ⟨n, _, rfl⟩ := List.mem_map.1 ha
    have h1 := (header_pre n).2
    rw [e] at h1
    rcases List.mem_append.1 hb with hb | hb
    · obtain ⟨m, _, rfl⟩ := List.mem_map.1 hb
      cases h1.symm.trans (template_pre m).2.1
    · obtain ⟨x, _, rfl⟩ := List.mem_map.1 hb
      cases h1.symm.trans (trav_pre x).2
  · intro a ha b hb e
    subst e
    obtain ⟨h1, h2, h3⟩ := always_other ha
    rcases List.mem_append.1 hb with hb | hb
    · obtain ⟨n, _, rfl⟩ := List.mem_map.1 hb
      cases h1.symm.trans (header_pre n).1
    rcases List.mem_append.1 hb with hb | hb
    · obtain ⟨m, _, rfl⟩ := List.mem_map.1 hb
      cases h2.symm.trans (template_pre m).1
    · obtain ⟨x, _, rfl⟩ := List.mem_map.1 hb
      cases h3.symm.trans (trav_pre x).1

/-! ### Names and directories -/

theorem lower_slash {l : CStr} (h : (47 : UInt8) ∉ l) : (47 : UInt8) ∉ l.map lowerB := by
  intro hm
  obtain ⟨b, hb, he⟩ := List.mem_map.1 hm
  have : b = 47 := by
    revert he
    revert b
    intro b _ he
    unfold lowerB at he
    split at he
    · rename_i hc
      have h1 := congrArg UInt8.toNat he
      have h2 : (b + 32).toNat = (b.toNat + 32) % 256 := UInt8.toNat_add b 32
      have h3 : (65 : UInt8).toNat ≤ b.toNat := hc.1
      have h4 : b.toNat ≤ (90 : UInt8).toNat := hc.2
      simp at h1 h2 h3 h4
      omega
    · exact he
  exact h (this ▸ hb)

theorem isKey_of (hn : NoSlash A) {p : CStr} (h : IsKey A p) : isKey p = true := by
  unfold isKey
  cases h with
  | always h => rw [List.contains_iff_mem.2 h]; rfl
  | @header n h1 h2 =>
    have h3 : ((headerOf n).drop 17).contains 47 = false := by
      have : (headerOf n).drop 17 = n.name.orig.map lowerB ++ b!".h" := rfl
      rw [this, List.contains_eq_mem]
      have := lower_slash (hn.nodes n h1)
      simp [this]
    rw [(header_pre n).1, h3]
    simp
  | @template n h1 h2 => rw [(template_pre n).1]; simp
  | @trav x h => rw [(trav_pre x).1]; simp

/-- The directories with files. -/
def dirNames : List CStr := [[], b!"ccngen/", eqDir, b!"user/"]

theorem folder_eq (p : CStr) : Spec.GenFiles.folder p = dirName p := rfl

theorem dir_in {d : CStr} (hd : d.getLast? = some 47) {p : CStr} (h : (47 : UInt8) ∉ p) : dirName (d ++ p) = d := by
  rw [dirName_append hd, dirName_noSlash h, List.append_nil]

theorem dir_header {n : Parse.Node} (h : (47 : UInt8) ∉ n.name.orig) : dirName (headerOf n) = eqDir :=
  dir_in rfl (by rw [lwr_eq]; have := lower_slash h; simp [this])

theorem dir_template {n : Parse.Node} (h : (47 : UInt8) ∉ n.name.orig) : dirName (templateOf n) = b!"user/" :=
  dir_in rfl (by rw [lwr_eq]; have := lower_slash h; simp [this])

theorem dir_trav {n : Parse.Traversal} (h : (47 : UInt8) ∉ n.name.orig) : dirName (travOf n) = b!"user/" :=
  dir_in rfl (by rw [lwr_eq]; have := lower_slash h; simp [this])

theorem dir_key (hn : NoSlash A) {p : CStr} (h : IsKey A p) : dirName p ∈ dirNames := by
  cases h with
  | always h => exact (by decide +kernel : ∀ p ∈ always, dirName p ∈ dirNames) p h
  | header h1 _ => rw [dir_header (hn.nodes _ h1)]; decide
  | template h1 _ => rw [dir_template (hn.nodes _ h1)]; decide
  | trav h1 => rw [dir_trav (hn.travs _ h1)]; decide

theorem eqSource_eq (n : Parse.Node) : Spec.GenFiles.eqSource n = templateOf n := by
  have : Spec.GenFiles.t "user/eq_" = b!"user/" ++ b!"eq_" ∧ Spec.GenFiles.t ".c" = b!".c" := by decide +kernel
  rw [Spec.GenFiles.eqSource, this.1, this.2, templateOf, lwr_eq, List.append_assoc, List.append_assoc, List.append_assoc]

theorem made_iff {p : CStr} : Made A p ↔ IsKey A p := by
  have e1 : ∀ n, Spec.GenFiles.eqHeader n = headerOf n := by
    intro n
    have : Spec.GenFiles.t "ccngen/equations/" = eqDir ∧ Spec.GenFiles.t ".h" = b!".h" := by decide +kernel
    rw [Spec.GenFiles.eqHeader, this.1, this.2, headerOf, lwr_eq, List.append_assoc]
  have e2 := eqSource_eq
  have e3 : ∀ x, Spec.GenFiles.travSource x = travOf x := by
    intro n
    have : Spec.GenFiles.t "user/trav_" = b!"user/" ++ b!"trav_" ∧ Spec.GenFiles.t ".c" = b!".c" := by decide +kernel
    rw [Spec.GenFiles.travSource, this.1, this.2, travOf, lwr_eq, List.append_assoc, List.append_assoc, List.append_assoc]
  constructor
  · intro h
    cases h with
    | source h =>
      cases h with
      | always h => exact .always ((by decide +kernel : ∀ p ∈ Spec.GenFiles.sources, p ∈ always) p h)
      | trav h => rw [e3]; exact .trav h
      | eqs h1 h2 => rw [e2]; exact .template h1 h2
    | header h => exact .always ((by decide +kernel : ∀ p ∈ Spec.GenFiles.headers, p ∈ always) p h)
    | eqs h1 h2 => rw [e1]; exact .header h1 h2
    | dot => exact .always (by decide +kernel)
  · intro h
    cases h with
    | always h =>
      rcases (by decide +kernel : ∀ p ∈ always, p ∈ Spec.GenFiles.sources ∨ p ∈ Spec.GenFiles.headers ∨ p = Spec.GenFiles.t "ast.dot") p h
        with h | h | rfl
      · exact .source (.always h)
      · exact .header h
      · exact .dot
    | header h1 h2 => rw [← e1]; exact .eqs h1 h2
    | template h1 h2 => rw [← e2]; exact .source (.eqs h1 h2)
    | trav h => rw [← e3]; exact .source (.trav h)

end

end Verif.GenFiles
