import Verif.Lemmas.EnumHeader
import Verif.Props.Declared

/-!
# Property C69: the enumerations of a generated compiler

The phase `semantic` and the generators of `enum.h` together, for all descriptions.
-/

namespace Verif.Props
open Verif.Str Verif.Ids Verif.EnumHeader Verif.Semantic Verif.Spec.EnumHeader
open Verif.Spec.Semantic (TypesNamed)

/-- C69, names: the C compiler accepts the enumerations that are generated for an accepted description if and only if its names are clear.
So the conditions of `Clear` are all that the user has to see to; that prefixes differ from each other and from the reserved ones, and that
names differ, is checked.

Missing: descriptions with names that are not clear; they are accepted, and `enum.h` does not compile (`C69_value_false`, `C69_tag_false`,
`C69_prefix_false`, `C69_null_false`). -/
theorem C69_accepted_partial {addr : Loc → Nat} {fuel : Nat} {A : Parse.Ast} {o : Semantic.Out} (hp : TypesNamed A)
    (h : checks addr fuel A = .ok o) (hl : Spec.EnumHeader.Lettered A) : Accepted (header A) ↔ Spec.EnumHeader.Clear A := by
  unfold checks at h
  obtain ⟨tab, hb, h⟩ := Res.bind_eq_ok.1 h
  obtain ⟨o1, hc, h⟩ := Res.bind_eq_ok.1 h
  exact accepted_iff ⟨hb, table_right hb, (exist_ok hp hb hc).1⟩ hl

/-- C69, values: behind the four enumerations of the generator there is one for each enumeration of the description and no other, with its
name.  The added value is 0, the values are 1, 2, … in their order, each with the prefix. -/
theorem C69_values (A : Parse.Ast) : (header A).map (·.1) = ownTags ++ A.enums.map (·.name.orig) ∧
    (header A).drop 4 = A.enums.map enumeration ∧
    ∀ e ∈ A.enums, Stands (header A) (first e) 0 ∧ ∀ (i : Nat) v, e.vals[i]? = some v → Stands (header A) (entry e v) (i + 1) := by
  have hd : (header A).drop 4 = A.enums.map enumeration := by rw [← user_eq]; rfl
  refine ⟨header_tags A, hd, fun e he => ?_⟩
  have hm : enumeration e ∈ header A := List.mem_of_mem_drop (hd ▸ List.mem_map.2 ⟨e, he, rfl⟩)
  exact ⟨⟨_, hm, rfl⟩, fun i v hv => ⟨_, hm, by simp [enumeration, hv]⟩⟩

/-- C69, numbers: if the enumerations are accepted, a name stands for one number only. -/
theorem C69_number {H : List (CStr × List CStr)} (h : Accepted H) {x : CStr} {j k : Nat} (hj : Stands H x j) (hk : Stands H x k) : j = k := by
  obtain ⟨a, ha, hj⟩ := hj
  obtain ⟨b, hb, hk⟩ := hk
  have hn := h.entries
  rw [List.Nodup, List.pairwise_flatMap] at hn
  have hab : a = b := by
    obtain ⟨i, hi, rfl⟩ := List.getElem_of_mem ha
    obtain ⟨l, hl, rfl⟩ := List.getElem_of_mem hb
    have h2 := List.pairwise_iff_getElem.1 hn.2
    rcases Nat.lt_trichotomy i l with h3 | h3 | h3
    · exact absurd rfl (h2 i l hi hl h3 x (List.mem_of_getElem? hj) x (List.mem_of_getElem? hk))
    · subst h3; rfl
    · exact absurd rfl (h2 l i hl hi h3 x (List.mem_of_getElem? hk) x (List.mem_of_getElem? hj))
  subst hab
  obtain ⟨h1, h2⟩ := List.getElem?_eq_some_iff.1 hj
  obtain ⟨h3, h4⟩ := List.getElem?_eq_some_iff.1 hk
  exact (List.getElem_inj (hn.1 a ha)).1 (h2.trans h4.symm)

/-! ## Samples -/

/-- As a check. -/
def acceptedB (H : List (CStr × List CStr)) : Bool := decide ((H.map (·.1)).Nodup) && decide ((H.flatMap (·.2)).Nodup)

theorem acceptedB_iff (H : List (CStr × List CStr)) : acceptedB H = true ↔ Accepted H := by
  simp only [acceptedB, Bool.and_eq_true, decide_eq_true_eq]
  exact ⟨fun h => ⟨h.1, h.2⟩, fun h => ⟨h.tags, h.entries⟩⟩

/-- As a check. -/
def letteredB (A : Parse.Ast) : Bool := A.enums.all fun e => e.vals.all fun v => match v.orig with
  | c :: _ => Spec.Text.isLetter c
  | [] => false

theorem letteredB_of {A : Parse.Ast} (h : letteredB A = true) : Spec.EnumHeader.Lettered A := by
  intro e he v hv
  have := List.all_eq_true.1 (List.all_eq_true.1 h e he) v hv
  revert this
  cases v.orig with
  | nil => exact fun h => by cases h
  | cons c cs => exact fun h => ⟨c, cs, rfl, h⟩

/-- The description is one for the theorems about C69, it is accepted, and its enumerations compile, or not. -/
structure Heads (b : Bool) (f : List Spec.Syntax.Entry) : Prop where
  named : TypesNamed (ast f)
  lettered : Spec.EnumHeader.Lettered (ast f)
  accepted : ∃ o, checks sampleAddr 60 (ast f) = .ok o ∧ o.errors = 0
  compiles : Accepted (header (ast f)) ↔ b = true

theorem heads_of {b : Bool} {f : List Spec.Syntax.Entry} (h1 : TypesNamed (ast f))
    (h2 : (match checks sampleAddr 60 (ast f) with
      | .ok o => o.errors == 0 && letteredB (ast f) && (acceptedB (header (ast f)) == b)
      | _ => false) = true) : Heads b f := by
  split at h2
  · rename_i o ho
    simp only [Bool.and_eq_true, beq_iff_eq] at h2
    exact ⟨h1, letteredB_of h2.1.2, ⟨o, ho, h2.1.1⟩, by rw [← acceptedB_iff, h2.2]⟩
  · cases h2

/-- `start phase All { pass scan; }  root node Prog { children { <leaf> v } }  node <leaf>;  enum <name> { prefix = <pre>, values … };` -/
def enumFile (leaf name pre : String) (vals : List String) : List Spec.Syntax.Entry :=
  small leaf (.one (.pass (.plain (nm "scan" 0)))) ++ [.enum ⟨nm name 0, none, nm pre 0, vals.map (nm · 0)⟩]

/-- The enum of the manual (`docs/source/dsl_syntax.rst:47-52`).  The theorems about C69 apply, and the header is this one. -/
example : Heads true (enumFile "Var" "binop" "BO" ["add", "sub", "mul", "div", "rem"]) ∧
    header (ast (enumFile "Var" "binop" "BO" ["add", "sub", "mul", "div", "rem"])) =
      [(by8 "nodesettype", [by8 "NS_NULL", by8 "_NS_SIZE"]), (by8 "ccn_nodetype", [by8 "NT_NULL", by8 "NT_VAR", by8 "NT_PROG", by8 "_NT_SIZE"]),
        (by8 "ccn_traversal_type", [by8 "TRAV_NULL", by8 "TRAV_free", by8 "TRAV_check", by8 "TRAV_cpy", by8 "_TRAV_SIZE"]),
        (by8 "ccn_pass_type", [by8 "PASS_NULL", by8 "PASS_SCAN", by8 "_PASS_SIZE"]),
        (by8 "binop", [by8 "BO_NULL", by8 "BO_add", by8 "BO_sub", by8 "BO_mul", by8 "BO_div", by8 "BO_rem"])] :=
  ⟨heads_of (named_of_plain (by decide +kernel)) (by decide +kernel), by decide +kernel⟩

/-- `C69_number` applies to it. -/
example : Accepted (header (ast (enumFile "Var" "binop" "BO" ["add", "sub", "mul", "div", "rem"]))) ∧
    Stands (header (ast (enumFile "Var" "binop" "BO" ["add", "sub", "mul", "div", "rem"]))) (by8 "BO_mul") 3 :=
  ⟨(acceptedB_iff _).1 (by decide +kernel), ⟨(by8 "binop", [by8 "BO_NULL", by8 "BO_add", by8 "BO_sub", by8 "BO_mul", by8 "BO_div", by8 "BO_rem"]),
    by decide +kernel, by decide +kernel⟩⟩

/-! ## Where it is false -/

/-- C69 is false for values that differ in letter case only, and for a value that is there twice: nothing checks values, and the C
enumeration has an entry twice. -/
theorem C69_value_false : Heads false (enumFile "Var" "binop" "BO" ["add", "Add"]) ∧ Heads false (enumFile "Var" "binop" "BO" ["add", "add"]) :=
  ⟨heads_of (named_of_plain (by decide +kernel)) (by decide +kernel), heads_of (named_of_plain (by decide +kernel)) (by decide +kernel)⟩

/-- C69 is false for an enum with the name of an enumeration of the generator: the tag is there twice. -/
theorem C69_tag_false : Heads false (enumFile "Var" "nodesettype" "BO" ["add"]) :=
  heads_of (named_of_plain (by decide +kernel)) (by decide +kernel)

/-- C69 is false for a prefix that is not reserved but starts with a reserved one: `NT_X_NULL` is the first value of the enum and the
number of the node `X_Null`. -/
theorem C69_prefix_false : Heads false (enumFile "X_Null" "binop" "NT_X" ["add"]) :=
  heads_of (named_of_plain (by decide +kernel)) (by decide +kernel)

/-- C69 is false for a node `Null`: `NT_NULL` is there twice. -/
theorem C69_null_false : Heads false (enumFile "Null" "binop" "BO" ["add"]) :=
  heads_of (named_of_plain (by decide +kernel)) (by decide +kernel)

/-- The name of the C enumeration is not the name in lower case, as the manual has it (`docs/source/codegen.rst:11-12`), but the name as it
is written. -/
theorem C69_lower_false : Heads true (enumFile "Var" "BinOp" "BO" ["add"]) ∧
    by8 "binop" ∉ (header (ast (enumFile "Var" "BinOp" "BO" ["add"]))).map (·.1) ∧
    by8 "BinOp" ∈ (header (ast (enumFile "Var" "BinOp" "BO" ["add"]))).map (·.1) :=
  ⟨heads_of (named_of_plain (by decide +kernel)) (by decide +kernel), by decide +kernel, by decide +kernel⟩

end Verif.Props
