import Verif.Model.CommandLine
import Verif.Spec.CommandLine

/-!
# Lemmas for the command line
-/

namespace Verif.CommandLine
open Verif.Str Verif.GenFiles
open Verif.Spec.CommandLine

/-- The entry of an option in the table (`cocogen/commandline.c:73-90`). -/
def flagEntry : Flag → LongOpt
  | .verbose => ⟨b!"verbose", false, true, 1⟩
  | .profiling => ⟨b!"profiling", false, false, 24⟩
  | .breakpoints => ⟨b!"breakpoints", false, false, 25⟩
  | .consistencyChecks => ⟨b!"consistency-checks", false, false, 26⟩
  | .serialise => ⟨b!"serialise", false, false, 27⟩
  | .inspectpoints => ⟨b!"inspectpoints", false, false, 28⟩
  | .showAst => ⟨b!"show-ast", false, false, 32⟩
  | .debug => ⟨b!"debug", false, false, 35⟩
  | .help => ⟨b!"help", false, false, 104⟩
  | .version => ⟨b!"version", false, false, 20⟩
  | .showStructure => ⟨b!"show-structure", false, false, 34⟩

/-- The entry of an option with a value (`cocogen/commandline.c:73-90`). -/
def valueEntry : Value → LongOpt
  | .dot => ⟨b!"dot", true, false, 23⟩
  | .backend => ⟨b!"backend", true, false, 30⟩
  | .genDir => ⟨b!"gen-dir", true, false, 31⟩
  | .breakpoint => ⟨b!"breakpoint", true, false, 33⟩
  | .maxIter => ⟨b!"ag-scheduler-max-iter", true, false, 36⟩

theorem flag_name (f : Flag) : (flagEntry f).name = flagName f := by cases f <;> decide +kernel
theorem value_name (v : Value) : (valueEntry v).name = valueName v := by cases v <;> decide +kernel
theorem flag_mem (f : Flag) : flagEntry f ∈ long_options := by cases f <;> decide +kernel
theorem value_mem (v : Value) : valueEntry v ∈ long_options := by cases v <;> decide +kernel
theorem flag_arg (f : Flag) : (flagEntry f).hasArg = false := by cases f <;> rfl
theorem value_arg (v : Value) : (valueEntry v).hasArg = true := by cases v <;> rfl
theorem value_flag (v : Value) : (valueEntry v).flag = false := by cases v <;> rfl

theorem entries {o : LongOpt} (h : o ∈ long_options) : (∃ f, o = flagEntry f) ∨ ∃ v, o = valueEntry v := by
  simp only [long_options, List.mem_cons, List.not_mem_nil, or_false] at h
  rcases h with h | h | h | h | h | h | h | h | h | h | h | h | h | h | h | h <;> subst h
  · exact .inl ⟨.verbose, rfl⟩
  · exact .inl ⟨.help, rfl⟩
  · exact .inr ⟨.dot, rfl⟩
  · exact .inl ⟨.version, rfl⟩
  · exact .inl ⟨.profiling, rfl⟩
  · exact .inl ⟨.breakpoints, rfl⟩
  · exact .inl ⟨.consistencyChecks, rfl⟩
  · exact .inl ⟨.serialise, rfl⟩
  · exact .inl ⟨.inspectpoints, rfl⟩
  · exact .inr ⟨.backend, rfl⟩
  · exact .inr ⟨.genDir, rfl⟩
  · exact .inl ⟨.showAst, rfl⟩
  · exact .inr ⟨.breakpoint, rfl⟩
  · exact .inl ⟨.showStructure, rfl⟩
  · exact .inl ⟨.debug, rfl⟩
  · exact .inr ⟨.maxIter, rfl⟩

theorem isName_of {o : LongOpt} (h : o ∈ long_options) : IsName o.name := by
  rcases entries h with ⟨f, rfl⟩ | ⟨v, rfl⟩
  · rw [flag_name]; exact .flag f
  · rw [value_name]; exact .value v

theorem names_apart : ∀ o ∈ long_options, ∀ o' ∈ long_options, o.name = o'.name → o = o' := by decide +kernel

theorem long_nodup : long_options.Nodup := by decide +kernel

theorem no_eq : ∀ o ∈ long_options, ∀ c ∈ o.name, (c != 61) = true := by decide +kernel

theorem filter_single {α : Type} {p : α → Bool} {o : α} : ∀ {l : List α}, l.Nodup → o ∈ l → p o = true → (∀ x ∈ l, p x = true → x = o) →
    l.filter p = [o]
  | [], _, h, _, _ => by cases h
  | x :: l, hn, h, hp, hu => by
    have hn' := List.nodup_cons.1 hn
    by_cases e : x = o
    · subst e
      rw [List.filter_cons_of_pos hp]
      congr 1
      refine List.filter_eq_nil_iff.2 fun y hy hpy => ?_
      exact hn'.1 (hu y (.tail _ hy) hpy ▸ hy)
    · have hx : p x ≠ true := fun hpx => e (hu x (.head _) hpx)
      rw [List.filter_cons_of_neg hx]
      have : o ∈ l := by cases h with
        | head => exact absurd rfl e
        | tail _ h => exact h
      exact filter_single hn'.2 this hp fun y hy => hu y (.tail _ hy)

theorem find_of {n : CStr} {o : LongOpt} (ho : o ∈ long_options) (h : Abbrev n o.name) : findLong n = some o := by
  unfold findLong
  cases hf : long_options.find? (fun o => o.name == n) with
  | some o' =>
    have e' := beq_iff_eq.1 (List.find?_some (p := fun o : LongOpt => o.name == n) hf)
    have hm := List.mem_of_find?_eq_some hf
    simp only [Option.some.injEq]
    rcases h with e | ⟨_, hu⟩
    · exact names_apart _ hm _ ho (e'.trans e)
    · refine names_apart _ hm _ ho ?_
      exact hu _ (isName_of hm) ⟨[], by simp [e']⟩
  | none =>
    rcases h with e | ⟨hp, hu⟩
    · have := List.find?_eq_none.1 hf o ho
      exact absurd (beq_iff_eq.2 e.symm) (by simpa using this)
    · have : long_options.filter (fun o => n.isPrefixOf o.name) = [o] :=
        filter_single long_nodup ho (List.isPrefixOf_iff_prefix.2 hp) fun x hx hpx =>
          names_apart _ hx _ ho (hu _ (isName_of hx) (List.isPrefixOf_iff_prefix.1 hpx))
      simp only [this]

theorem of_find {n : CStr} {o : LongOpt} (h : findLong n = some o) : o ∈ long_options ∧ Abbrev n o.name := by
  unfold findLong at h
  cases hf : long_options.find? (fun o => o.name == n) with
  | some o' =>
    rw [hf] at h
    cases h
    exact ⟨List.mem_of_find?_eq_some hf, .inl (beq_iff_eq.1 (List.find?_some (p := fun o : LongOpt => o.name == n) hf)).symm⟩
  | none =>
    rw [hf] at h
    simp only at h
    split at h
    · rename_i o' he
      cases h
      have hm : o ∈ long_options.filter (fun o => n.isPrefixOf o.name) := he ▸ .head _
      obtain ⟨hm, hp⟩ := List.mem_filter.1 hm
      refine ⟨hm, .inr ⟨List.isPrefixOf_iff_prefix.1 hp, fun m hmn hpm => ?_⟩⟩
      have key : ∀ x ∈ long_options, n <+: x.name → x.name = o.name := by
        intro x hx hpx
        have : x ∈ long_options.filter (fun o => n.isPrefixOf o.name) := List.mem_filter.2 ⟨hx, List.isPrefixOf_iff_prefix.2 hpx⟩
        rw [he] at this
        cases this with
        | head => rfl
        | tail _ h => cases h
      cases hmn with
      | flag f => rw [← flag_name] at hpm ⊢; exact key _ (flag_mem f) hpm
      | value v => rw [← value_name] at hpm ⊢; exact key _ (value_mem v) hpm
    · cases h

/-- An abbreviation is not empty and has no `=`. -/
theorem abbrev_ne {n : CStr} {o : LongOpt} (ho : o ∈ long_options) (h : Abbrev n o.name) : n ≠ [] := by
  rintro rfl
  rcases h with e | ⟨_, hu⟩
  · revert e ho; revert o; decide +kernel
  · have h1 := hu _ (.flag .help) (List.nil_prefix)
    have h2 := hu _ (.flag .debug) (List.nil_prefix)
    exact absurd (h1.trans h2.symm) (by decide +kernel)

theorem abbrev_eq {n : CStr} {o : LongOpt} (ho : o ∈ long_options) (h : Abbrev n o.name) : ∀ c ∈ n, (c != 61) = true := by
  intro c hc
  rcases h with e | ⟨hp, _⟩
  · exact no_eq o ho c (e ▸ hc)
  · exact no_eq o ho c (hp.subset hc)

theorem take_all {p : UInt8 → Bool} {n r : CStr} (h : ∀ c ∈ n, p c = true) (hr : ∀ c, r.head? = some c → p c = false) :
    (n ++ r).takeWhile p = n := by
  induction n with
  | nil =>
    cases r with
    | nil => rfl
    | cons c r => simp [hr c rfl]
  | cons c n ih => simp [h c (.head _), ih fun c hc => h c (.tail _ hc)]

theorem take_whole {p : UInt8 → Bool} {n : CStr} (h : ∀ c ∈ n, p c = true) : n.takeWhile p = n := by
  have := take_all (r := []) h (by intro c hc; cases hc)
  simpa using this

theorem long_flag {n : CStr} {f : Flag} (h : Abbrev n (flagName f)) (s : Scan) :
    longOption s n = .opt (if (flagEntry f).flag then 0 else (flagEntry f).val) none (flagEntry f).flag s := by
  rw [← flag_name] at h
  unfold longOption
  simp only [take_whole (abbrev_eq (flag_mem f) h), find_of (flag_mem f) h, List.drop_length, flag_arg]

theorem long_joined {n x : CStr} {v : Value} (h : Abbrev n (valueName v)) (s : Scan) :
    longOption s (n ++ 61 :: x) = .opt (valueEntry v).val (some x) false s := by
  rw [← value_name] at h
  unfold longOption
  simp only [take_all (r := 61 :: x) (abbrev_eq (value_mem v) h) (by intro c hc; cases hc; rfl), find_of (value_mem v) h, List.drop_left,
    value_arg, value_flag]
  rfl

theorem long_apart {n x : CStr} {v : Value} (h : Abbrev n (valueName v)) (sk : List CStr) (rest : List CStr) :
    longOption ⟨[], sk, x :: rest⟩ n = .opt (valueEntry v).val (some x) false ⟨[], sk, rest⟩ := by
  rw [← value_name] at h
  unfold longOption
  simp only [take_whole (abbrev_eq (value_mem v) h), find_of (value_mem v) h, List.drop_length, value_arg, value_flag]
  rfl

/-- What a long option is. -/
theorem long_cases (sk rest : List CStr) (text : CStr) :
    longOption ⟨[], sk, rest⟩ text = bad ⟨[], sk, rest⟩ ∨
      (∃ f, Abbrev text (flagName f) ∧
        longOption ⟨[], sk, rest⟩ text = .opt (if (flagEntry f).flag then 0 else (flagEntry f).val) none (flagEntry f).flag ⟨[], sk, rest⟩) ∨
      (∃ n v x, Abbrev n (valueName v) ∧ text = n ++ 61 :: x ∧
        longOption ⟨[], sk, rest⟩ text = .opt (valueEntry v).val (some x) false ⟨[], sk, rest⟩) ∨
      ∃ v x rest', Abbrev text (valueName v) ∧ rest = x :: rest' ∧
        longOption ⟨[], sk, rest⟩ text = .opt (valueEntry v).val (some x) false ⟨[], sk, rest'⟩ := by
  cases hf : findLong (text.takeWhile (fun c => c != 61)) with
  | none => exact .inl (by unfold longOption; simp only [hf])
  | some o =>
    obtain ⟨hm, ha⟩ := of_find hf
    have hsplit : text.takeWhile (fun c => c != 61) ++ text.drop (text.takeWhile (fun c => c != 61)).length = text := by
      have h1 := List.takeWhile_append_dropWhile (p := fun c : UInt8 => c != 61) (l := text)
      have h2 : text.drop (text.takeWhile (fun c => c != 61)).length = text.dropWhile (fun c => c != 61) := by
        conv => lhs; rw [← h1]
        have : List.takeWhile (fun c => c != 61) (List.takeWhile (fun c => c != 61) text ++ List.dropWhile (fun c => c != 61) text) =
          List.takeWhile (fun c => c != 61) text := by rw [h1]
        rw [this, List.drop_left]
      rw [h2, h1]
    cases hd : text.drop (text.takeWhile (fun c => c != 61)).length with
    | nil =>
      rw [hd, List.append_nil] at hsplit
      rw [hsplit] at ha
      rcases entries hm with ⟨f, rfl⟩ | ⟨v, rfl⟩
      · rw [flag_name] at ha
        exact .inr (.inl ⟨f, ha, long_flag ha _⟩)
      · rw [value_name] at ha
        cases rest with
        | nil =>
          left
          unfold longOption
          simp only [hf, hd, value_arg]
        | cons x rest => exact .inr (.inr (.inr ⟨v, x, rest, ha, rfl, long_apart ha _ _⟩))
    | cons c x =>
      have hc : c = 61 := by
        have h1 : text.dropWhile (fun c => c != 61) = c :: x := by
          have h1 := List.takeWhile_append_dropWhile (p := fun c : UInt8 => c != 61) (l := text)
          rw [← hd]
          apply List.append_cancel_left (as := text.takeWhile (fun c => c != 61))
          rw [hsplit, h1]
        have := List.head?_dropWhile_not (p := fun c : UInt8 => c != 61) (l := text)
        rw [h1] at this
        simpa using this
      subst hc
      rcases entries hm with ⟨f, rfl⟩ | ⟨v, rfl⟩
      · left
        unfold longOption
        simp only [hf, hd, flag_arg]
      · rw [value_name] at ha
        rw [hd] at hsplit
        refine .inr (.inr (.inl ⟨_, v, x, ha, hsplit.symm, ?_⟩))
        unfold longOption
        simp only [hf, hd, value_arg, value_flag]
        rfl

/-! ## Options -/

/-- The flags that end the program (`cocogen/commandline.c:104-106`, `141-143`, `156-158`). -/
def ends : Flag → Option Said
  | .help => some .usage
  | .version => some .version
  | .showStructure => some .tree
  | _ => none

/-- What one option does (`cocogen/commandline.c:103-162`). -/
def one : Opt → Cl → Option Cl
  | .short, g => some { g with verbosity := 2, verbose := 1 }
  | .flag .verbose, g => some { g with verbose := 1 }
  | .flag .profiling, g => some { g with profiling := true }
  | .flag .breakpoints, g => some { g with break_inspect_points := true }
  | .flag .consistencyChecks, g => some { g with consistcheck := true }
  | .flag .serialise, g => some { g with serialise := true }
  | .flag .inspectpoints, g => some { g with break_inspect_points := true }
  | .flag .showAst, g => some { g with show_ast := true }
  | .flag .debug, g => some { g with debug := true }
  | .flag .help, _ => none
  | .flag .version, _ => none
  | .flag .showStructure, _ => none
  | .value .dot _, g => some g
  | .value .backend x, g => some { g with backend := some x }
  | .value .genDir x, g => some { g with gen_dir := some x }
  | .value .breakpoint x, g => some { g with breakpoint := some x }
  | .value .maxIter x, g => (strtoul x).map fun n => { g with ag_scheduler_max_iter := n }

/-- What options do, one after the other (`cocogen/commandline.c:96-163`). -/
def steps : List Opt → Cl → Option Cl
  | [], g => some g
  | o :: os, g => (one o g).bind (steps os)

theorem steps_append : ∀ (a b : List Opt) (g : Cl), steps (a ++ b) g = (steps a g).bind (steps b)
  | [], _, _ => rfl
  | o :: a, b, g => by
    simp only [List.cons_append, steps]
    cases one o g with
    | none => rfl
    | some g' => exact steps_append a b g'

/-- The settings when an option is handled, with its variable set. -/
abbrev set (flag : Bool) (g : Cl) : Cl := match flag with | true => { g with verbose := 1 } | false => g

theorem handle_flag {f : Flag} {g g' : Cl} (h : one (.flag f) g = some g') :
    handle (if (flagEntry f).flag then 0 else (flagEntry f).val) none (set (flagEntry f).flag g) = .ok (.go g') := by
  cases f <;> cases h <;> rfl

theorem handle_end {f : Flag} {said : Said} (g : Cl) (h : ends f = some said) :
    handle (if (flagEntry f).flag then 0 else (flagEntry f).val) none (set (flagEntry f).flag g) = .ok (.exit 0 said) := by
  cases f <;> cases h <;> rfl

theorem flag_cases (f : Flag) (g : Cl) : (∃ g', one (.flag f) g = some g') ∨ ∃ said, ends f = some said := by
  cases f <;> first | exact .inl ⟨_, rfl⟩ | exact .inr ⟨_, rfl⟩

theorem handle_value {v : Value} {x : CStr} {g g' : Cl} (h : one (.value v x) g = some g') :
    handle (valueEntry v).val (some x) (set false g) = .ok (.go g') := by
  cases v with
  | maxIter =>
    simp only [one, Option.map_eq_some_iff] at h
    obtain ⟨n, hn, rfl⟩ := h
    simp only [valueEntry, handle, hn]
  | _ => cases h; rfl

theorem value_cases (v : Value) (x : CStr) (g : Cl) : (∃ g', one (.value v x) g = some g') ∨ (v = .maxIter ∧ strtoul x = none) := by
  cases v with
  | maxIter =>
    cases h : strtoul x with
    | none => exact .inr ⟨rfl, rfl⟩
    | some n => exact .inl ⟨_, by simp only [one, h, Option.map]; rfl⟩
  | _ => exact .inl ⟨_, rfl⟩

theorem handle_number {x : CStr} (g : Cl) (h : strtoul x = none) :
    handle (valueEntry .maxIter).val (some x) g = .ok (.exit 1 (.noNumber x)) := by
  simp only [valueEntry, handle, h]

/-! ## The loop -/

theorem loop_opt {n : Nat} {s s' : Scan} {g g' : Cl} {c : Nat} {a : Option CStr} {f : Bool} (h : getopt_long s = .opt c a f s')
    (hh : handle c a (set f g) = .ok (.go g')) : loop (n + 1) s g = loop n s' g' := by
  simp only [loop, h]
  exact (congrArg (· >>= _) hh).trans (Res.bind_ok _ _)

theorem loop_exit {n : Nat} {s s' : Scan} {g : Cl} {c : Nat} {a : Option CStr} {f : Bool} {st : Nat} {said : Said}
    (h : getopt_long s = .opt c a f s') (hh : handle c a (set f g) = .ok (.exit st said)) : loop (n + 1) s g = .ok (.exit st said) := by
  simp only [loop, h]
  exact (congrArg (· >>= _) hh).trans (Res.bind_ok _ _)

theorem next_operand {a : CStr} (h : Operand a) (sk args : List CStr) : nextArg sk (a :: args) = nextArg (sk ++ [a]) args := by
  rcases h with rfl | h
  · rw [show t "-" = [45] by decide +kernel]
    rfl
  · match a, h with
    | [], _ => rfl
    | c :: r, h =>
      have hc : c ≠ 45 := fun e => h (e ▸ rfl)
      rw [nextArg] <;> (intros; rename_i e; cases e; exact absurd rfl hc)

theorem next_long {n : CStr} (h : n ≠ []) (sk args : List CStr) : nextArg sk ((t "--" ++ n) :: args) = longOption ⟨[], sk, args⟩ n := by
  rw [show t "--" = [45, 45] by decide +kernel]
  match n, h with
  | c :: r, _ => rfl

theorem loop_operand {a : CStr} (h : Operand a) (n : Nat) (sk args : List CStr) (g : Cl) :
    loop n ⟨[], sk, a :: args⟩ g = loop n ⟨[], sk ++ [a], args⟩ g := by
  cases n with
  | zero => rfl
  | succ n => simp only [loop, getopt_long, next_operand h]

theorem loop_shorts : ∀ (k n : Nat) (sk args : List CStr) (g g' : Cl), steps (List.replicate k .short) g = some g' →
    loop (k + n) ⟨List.replicate k 118, sk, args⟩ g = loop n ⟨[], sk, args⟩ g'
  | 0, n, sk, args, g, g', h => by cases h; simp
  | k + 1, n, sk, args, g, g', h => by
    rw [show k + 1 + n = (k + n) + 1 by omega]
    rw [loop_opt (s' := ⟨List.replicate k 118, sk, args⟩) (g' := { g with verbosity := 2, verbose := 1 }) (c := 118) (a := none) (f := false)
      (by rfl) (by rfl)]
    exact loop_shorts k n sk args _ _ h

theorem loop_begins {args : List CStr} {os : List Opt} {ops rest : List CStr} (h : Begins args os ops rest) :
    ∀ (n : Nat) (sk : List CStr) (g g' : Cl), steps os g = some g' →
      loop (os.length + n) ⟨[], sk, args⟩ g = loop n ⟨[], sk ++ ops, rest⟩ g' := by
  induction h with
  | none rest => intro n sk g g' h; cases h; simp
  | operand ho _ ih =>
    intro n sk g g' h
    rw [loop_operand ho, ih n _ g g' h]
    simp
  | @flag m f args os ops rest ha _ ih =>
    intro n sk g g' h
    simp only [steps, Option.bind_eq_some_iff] at h
    obtain ⟨g1, h1, h2⟩ := h
    have hne := abbrev_ne (flag_mem f) (by rw [flag_name]; exact ha)
    simp only [List.length_cons]
    rw [show os.length + 1 + n = (os.length + n) + 1 by omega,
      loop_opt (s' := ⟨[], sk, args⟩) (by rw [getopt_long, next_long hne, long_flag ha]) (handle_flag h1)]
    exact ih n sk g1 g' h2
  | @joined m v x args os ops rest ha _ ih =>
    intro n sk g g' h
    simp only [steps, Option.bind_eq_some_iff] at h
    obtain ⟨g1, h1, h2⟩ := h
    simp only [List.length_cons]
    rw [show os.length + 1 + n = (os.length + n) + 1 by omega,
      loop_opt (s' := ⟨[], sk, args⟩) (f := false)
        (by rw [getopt_long, show t "--" ++ m ++ t "=" ++ x = t "--" ++ (m ++ 61 :: x) by
              rw [show t "=" = [61] by decide +kernel]; simp]
            rw [next_long (by simp), long_joined ha]) (handle_value h1)]
    exact ih n sk g1 g' h2
  | @apart m v x args os ops rest ha _ ih =>
    intro n sk g g' h
    simp only [steps, Option.bind_eq_some_iff] at h
    obtain ⟨g1, h1, h2⟩ := h
    have hne := abbrev_ne (value_mem v) (by rw [value_name]; exact ha)
    simp only [List.length_cons]
    rw [show os.length + 1 + n = (os.length + n) + 1 by omega,
      loop_opt (s' := ⟨[], sk, args⟩) (f := false) (by rw [getopt_long, next_long hne, long_apart ha]) (handle_value h1)]
    exact ih n sk g1 g' h2
  | @short k args os ops rest _ ih =>
    intro n sk g g' h
    rw [steps_append, Option.bind_eq_some_iff] at h
    obtain ⟨g1, h1, h2⟩ := h
    rw [show t "-" = [45] by decide +kernel, List.length_append, List.length_replicate,
      show k + 1 + os.length + n = (k + (os.length + n)) + 1 by omega]
    have h1' : steps (List.replicate k .short) { g with verbosity := 2, verbose := 1 } = some g1 := h1
    rw [loop_opt (s' := ⟨List.replicate k 118, sk, args⟩) (g' := { g with verbosity := 2, verbose := 1 }) (c := 118) (a := none) (f := false)
      (by rfl) (by rfl), loop_shorts k _ sk args _ _ h1']
    exact ih n sk g1 g' h2

/-- How the loop ends. -/
inductive Ends (g : Cl) (sk args : List CStr) : Ended (Cl × List CStr) → Prop
  | all {os ops g'} : Begins args os ops [] → steps os g = some g' → Ends g sk args (.go (g', sk ++ ops))
  | marked {os a b g'} : Begins args os a (t "--" :: b) → steps os g = some g' → Ends g sk args (.go (g', sk ++ (a ++ b)))
  | flag {os ops n f rest g' said} : Begins args os ops ((t "--" ++ n) :: rest) → steps os g = some g' → Abbrev n (flagName f) →
      ends f = some said → Ends g sk args (.exit 0 said)
  | number {os ops rest ys x g'} : Begins args os ops rest → Begins rest [.value .maxIter x] [] ys → steps os g = some g' →
      strtoul x = none → Ends g sk args (.exit 1 (.noNumber x))
  | wrong : Ends g sk args (.exit 1 .usage)

theorem Begins.then {args : List CStr} {os : List Opt} {ops mid : List CStr} (h : Begins args os ops mid) :
    ∀ {os' : List Opt} {ops' rest : List CStr}, Begins mid os' ops' rest → Begins args (os ++ os') (ops ++ ops') rest := by
  induction h with
  | none _ => intro _ _ _ h; exact h
  | operand ho _ ih => intro _ _ _ h; exact .operand ho (ih h)
  | flag ha _ ih => intro _ _ _ h; exact .flag ha (ih h)
  | joined ha _ ih => intro _ _ _ h; exact .joined ha (ih h)
  | apart ha _ ih => intro _ _ _ h; exact .apart ha (ih h)
  | short _ ih => intro _ _ _ h; rw [List.append_assoc]; exact .short (ih h)

/-- An end behind a start. -/
theorem Ends.after {g g1 : Cl} {sk args args1 : List CStr} {os : List Opt} {ops : List CStr} {r : Ended (Cl × List CStr)}
    (hb : Begins args os ops args1) (hs : steps os g = some g1) (h : Ends g1 (sk ++ ops) args1 r) : Ends g sk args r := by
  have hst : ∀ {os' g'}, steps os' g1 = some g' → steps (os ++ os') g = some g' := by
    intro os' g' h
    rw [steps_append, hs]
    exact h
  cases h with
  | all hb' hs' =>
    have := Ends.all (sk := sk) (Begins.then hb hb') (hst hs')
    rwa [← List.append_assoc] at this
  | marked hb' hs' =>
    have := Ends.marked (sk := sk) (Begins.then hb hb') (hst hs')
    rwa [List.append_assoc, ← List.append_assoc] at this
  | flag hb' hs' ha he => exact .flag (Begins.then hb hb') (hst hs') ha he
  | number hb' h1 hs' hn => exact .number (Begins.then hb hb') h1 (hst hs') hn
  | wrong => exact .wrong

theorem loop_cluster : ∀ (more : CStr) (n : Nat) (sk args : List CStr) (g : Cl), more.length < n →
    (∃ g', steps (List.replicate more.length .short) g = some g' ∧ more = List.replicate more.length 118 ∧
      loop n ⟨more, sk, args⟩ g = loop (n - more.length) ⟨[], sk, args⟩ g') ∨ loop n ⟨more, sk, args⟩ g = .ok (.exit 1 .usage)
  | [], n, sk, args, g, _ => .inl ⟨g, rfl, rfl, rfl⟩
  | c :: more, 0, sk, args, g, h => by cases h
  | c :: more, n + 1, sk, args, g, h => by
    by_cases hc : c = 118
    · subst hc
      have h1 : loop (n + 1) ⟨118 :: more, sk, args⟩ g = loop n ⟨more, sk, args⟩ { g with verbosity := 2, verbose := 1 } :=
        loop_opt (c := 118) (a := none) (f := false) rfl rfl
      rw [h1]
      have hl : more.length < n := by simp only [List.length_cons] at h; omega
      rcases loop_cluster more n sk args { g with verbosity := 2, verbose := 1 } hl with ⟨g', hs, he, hr⟩ | hr
      · refine .inl ⟨g', hs, ?_, ?_⟩
        · simp only [List.length_cons, List.replicate_succ]
          rw [← he]
        · rw [hr]
          simp only [List.length_cons, Nat.add_sub_add_right]
      · exact .inr hr
    · right
      refine loop_exit (c := 63) (a := none) (f := false) (s' := ⟨more, sk, args⟩) ?_ rfl
      have : (c == 118) = false := by simpa using hc
      simp only [getopt_long, shortOption, this]

theorem loop_ends : ∀ (m : Nat) (args : List CStr) (n : Nat) (sk : List CStr) (g : Cl), args.length ≤ m → rounds args ≤ n →
    ∃ r, loop n ⟨[], sk, args⟩ g = .ok r ∧ Ends g sk args r
  | _, [], 0, sk, g, _, hn => by simp [rounds] at hn
  | _, [], n + 1, sk, g, _, _ => ⟨_, rfl, by have := Ends.all (g := g) (sk := sk) (.none []) rfl; simpa using this⟩
  | 0, a :: args, _, _, _, hm, _ => by simp at hm
  | m + 1, a :: args, 0, sk, g, _, hn => by simp [rounds] at hn
  | m + 1, a :: args, n + 1, sk, g, hm, hn => by
    have hm' : args.length ≤ m := by simpa using hm
    have hr : rounds args + a.length ≤ n + 1 := by
      simp only [rounds, List.map_cons, List.sum_cons] at hn ⊢; omega
    by_cases ho : Operand a
    · rw [loop_operand ho]
      obtain ⟨r, h1, h2⟩ := loop_ends m args (n + 1) (sk ++ [a]) g hm' (by omega)
      exact ⟨r, h1, h2.after (.operand ho (.none _)) rfl⟩
    · match a, ho, hr with
      | [], ho, _ => exact absurd (.inr nofun) ho
      | c :: b, ho, hr =>
        by_cases hc : c = 45
        · subst hc
          match b, ho, hr with
          | [], ho, _ => exact absurd (.inl (by decide +kernel)) ho
          | d :: e, _, hr =>
            by_cases hd : d = 45
            · subst hd
              match e, hr with
              | [], _ =>
                refine ⟨.go (g, sk ++ args), rfl, ?_⟩
                have h0 : Begins ([45, 45] :: args) [] [] (t "--" :: args) := by
                  rw [show t "--" = [45, 45] by decide +kernel]; exact .none _
                exact Ends.marked (a := []) (sk := sk) h0 rfl
              | x :: text, hr =>
                have ht : (45 :: 45 :: x :: text : CStr) = t "--" ++ (x :: text) := by
                  rw [show t "--" = [45, 45] by decide +kernel]; rfl
                have hg : getopt_long ⟨[], sk, (45 :: 45 :: x :: text) :: args⟩ = longOption ⟨[], sk, args⟩ (x :: text) := rfl
                have hl : rounds args ≤ n := by simp only [List.length_cons] at hr; omega
                rcases long_cases sk args (x :: text) with hb | ⟨f, ha, hb⟩ | ⟨w, v, y, ha, he, hb⟩ | ⟨v, y, rest', ha, he, hb⟩
                · exact ⟨_, loop_exit (hg.trans hb) rfl, .wrong⟩
                · rcases flag_cases f g with ⟨g', h1⟩ | ⟨said, h1⟩
                  · rw [loop_opt (hg.trans hb) (handle_flag h1)]
                    obtain ⟨r, h2, h3⟩ := loop_ends m args n sk g' hm' hl
                    rw [ht]
                    refine ⟨r, h2, Ends.after (ops := []) (.flag ha (.none args)) (g1 := g') ?_ (by simpa using h3)⟩
                    simp [steps, h1]
                  · refine ⟨_, loop_exit (hg.trans hb) (handle_end g h1), ?_⟩
                    rw [ht]
                    exact .flag (.none _) rfl ha h1
                · have hb2 : Begins ((45 :: 45 :: x :: text) :: args) [.value v y] [] args := by
                    rw [ht, he, show t "--" ++ (w ++ 61 :: y) = t "--" ++ w ++ t "=" ++ y by
                      rw [show t "=" = [61] by decide +kernel]; simp]
                    exact .joined ha (.none args)
                  rcases value_cases v y g with ⟨g', h1⟩ | ⟨rfl, h1⟩
                  · rw [loop_opt (hg.trans hb) (handle_value h1)]
                    obtain ⟨r, h2, h3⟩ := loop_ends m args n sk g' hm' hl
                    refine ⟨r, h2, Ends.after (ops := []) hb2 (g1 := g') ?_ (by simpa using h3)⟩
                    simp [steps, h1]
                  · exact ⟨_, loop_exit (hg.trans hb) (handle_number _ h1), .number (.none _) hb2 rfl h1⟩
                · subst he
                  have hb2 : Begins ((45 :: 45 :: x :: text) :: y :: rest') [.value v y] [] rest' := by
                    rw [ht]
                    exact .apart ha (.none _)
                  rcases value_cases v y g with ⟨g', h1⟩ | ⟨rfl, h1⟩
                  · rw [loop_opt (hg.trans hb) (handle_value h1)]
                    obtain ⟨r, h2, h3⟩ := loop_ends m rest' n sk g' (by simp only [List.length_cons] at hm'; omega)
                      (by simp only [rounds, List.map_cons, List.sum_cons] at hl ⊢; omega)
                    refine ⟨r, h2, Ends.after (ops := []) hb2 (g1 := g') ?_ (by simpa using h3)⟩
                    simp [steps, h1]
                  · exact ⟨_, loop_exit (hg.trans hb) (handle_number _ h1), .number (.none _) hb2 rfl h1⟩
            · have hg : ∀ k, loop k ⟨[], sk, (45 :: d :: e) :: args⟩ g = loop k ⟨d :: e, sk, args⟩ g := by
                intro k
                cases k with
                | zero => rfl
                | succ k =>
                  have : getopt_long ⟨[], sk, (45 :: d :: e) :: args⟩ = getopt_long ⟨d :: e, sk, args⟩ := by
                    simp only [getopt_long]
                    rw [nextArg] <;> (intros; exact absurd ‹d = 45› hd)
                  simp only [loop, this]
              rw [hg]
              rcases loop_cluster (d :: e) (n + 1) sk args g (by simp only [rounds, List.length_cons] at hr ⊢; omega) with ⟨g', h1, h2, h3⟩ | h3
              · rw [h3]
                obtain ⟨r, h4, h5⟩ := loop_ends m args (n + 1 - (d :: e).length) sk g' hm'
                  (by simp only [List.length_cons] at hr ⊢; omega)
                refine ⟨r, h4, ?_⟩
                have hb : Begins ((45 :: d :: e) :: args) (List.replicate (d :: e).length .short) [] args := by
                  have := Begins.short (k := e.length) (.none args)
                  rw [show t "-" = [45] by decide +kernel, List.append_nil] at this
                  rw [h2]
                  simpa using this
                exact Ends.after (ops := []) hb h1 (by simpa using h5)
              · exact ⟨_, h3, .wrong⟩
        · exact absurd (.inr (fun h => hc (by simpa using h))) ho

theorem begins_rounds {args : List CStr} {os : List Opt} {ops rest : List CStr} (h : Begins args os ops rest) :
    os.length + rounds rest ≤ rounds args := by
  induction h with
  | none rest => simp
  | operand _ _ ih => simp only [rounds, List.map_cons, List.sum_cons] at ih ⊢; omega
  | flag _ _ ih =>
    simp only [rounds, List.map_cons, List.sum_cons, List.length_cons, List.length_append, show (t "--").length = 2 by decide +kernel] at ih ⊢
    omega
  | joined _ _ ih =>
    simp only [rounds, List.map_cons, List.sum_cons, List.length_cons, List.length_append, show (t "--").length = 2 by decide +kernel] at ih ⊢
    omega
  | apart _ _ ih =>
    simp only [rounds, List.map_cons, List.sum_cons, List.length_cons, List.length_append, show (t "--").length = 2 by decide +kernel] at ih ⊢
    omega
  | short _ ih =>
    simp only [rounds, List.map_cons, List.sum_cons, List.length_append, List.length_replicate, show (t "-").length = 1 by decide +kernel] at ih ⊢
    omega

/-- The loop, when all arguments are options and operands. -/
theorem loop_says {args : List CStr} {os : List Opt} {ops : List CStr} (h : Says args os ops) {g g' : Cl} (hs : steps os g = some g') :
    loop (rounds args) ⟨[], [], args⟩ g = .ok (.go (g', ops)) := by
  rcases h with h | ⟨a, b, h, rfl⟩
  · have hr := begins_rounds h
    rw [show rounds args = os.length + (rounds args - os.length) by omega, loop_begins h _ _ _ _ hs]
    obtain ⟨n, hn⟩ : ∃ n, rounds args - os.length = n + 1 := ⟨rounds args - os.length - 1, by simp only [rounds] at hr ⊢; omega⟩
    rw [hn]
    rfl
  · have hr := begins_rounds h
    rw [show rounds args = os.length + (rounds args - os.length) by omega, loop_begins h _ _ _ _ hs]
    obtain ⟨n, hn⟩ : ∃ n, rounds args - os.length = n + 1 := ⟨rounds args - os.length - 1, by simp only [rounds] at hr ⊢; omega⟩
    rw [hn, show t "--" = [45, 45] by decide +kernel]
    rfl

/-- The loop, when options come to a further argument. -/
theorem loop_at {args : List CStr} {os : List Opt} {ops rest : List CStr} (h : Begins args os ops rest) {g g' : Cl} (hs : steps os g = some g') :
    ∃ n, loop (rounds args) ⟨[], [], args⟩ g = loop (n + 1) ⟨[], ops, rest⟩ g' := by
  have hr := begins_rounds h
  refine ⟨rounds args - os.length - 1, ?_⟩
  conv => lhs; rw [show rounds args = os.length + (rounds args - os.length - 1 + 1) by simp only [rounds] at hr ⊢; omega]
  rw [loop_begins h _ _ _ _ hs, List.nil_append]

theorem CL_exit {prog : CStr} {args : List CStr} {st : Nat} {said : Said}
    (h : loop (rounds args) ⟨[], [], args⟩ InitGlobalOptions = .ok (.exit st said)) : CLprocessArgs (prog :: args) = .ok (.exit st said) := by
  unfold CLprocessArgs
  simp only [List.drop_one, List.tail_cons, h, Res.bind_ok]

theorem CL_go {prog : CStr} {args : List CStr} {g : Cl} {operands : List CStr}
    (h : loop (rounds args) ⟨[], [], args⟩ InitGlobalOptions = .ok (.go (g, operands))) : CLprocessArgs (prog :: args) =
      (FSdirifyString (g.gen_dir.getD b!"ccngen/") >>= fun d =>
        match (generalizing := false) operands with
        | [f] => .ok (.go { g with gen_dir := some d, input_file := f })
        | _ => .ok (.exit 1 .usage)) := by
  unfold CLprocessArgs
  simp only [List.drop_one, List.tail_cons, h, Res.bind_ok]
  refine congrArg _ (funext fun d => ?_)
  rcases operands with _ | ⟨f, _ | _⟩ <;> rfl

/-! ## Numbers -/

theorem digits_from (x : CStr) : ∀ n, x.foldl (fun n c => n * 10 + (c.toNat - 48)) n = number x n := by
  induction x with
  | nil => intro n; rfl
  | cons c x ih => intro n; simp only [List.foldl_cons, number, ih, Nat.mul_comm]

theorem digit_eq (c : UInt8) : isDigit c = digit c := by
  unfold isDigit digit
  rw [Bool.eq_iff_iff]
  simp only [Bool.and_eq_true, decide_eq_true_eq, UInt8.le_iff_toNat_le]
  rfl

theorem not_space {c : UInt8} (h : digit c = true) : isSpace c = false ∧ c ≠ 45 ∧ c ≠ 43 := by
  simp only [digit, decide_eq_true_eq] at h
  refine ⟨?_, ?_, ?_⟩
  · unfold isSpace
    rw [Bool.eq_false_iff]
    intro hh
    simp only [Bool.or_eq_true, Bool.and_eq_true, decide_eq_true_eq, beq_iff_eq, UInt8.le_iff_toNat_le] at hh
    rcases hh with rfl | ⟨_, hh⟩
    · exact absurd h.1 (by decide)
    · have : (13 : UInt8).toNat = 13 := rfl
      omega
  · rintro rfl; exact absurd h.1 (by decide)
  · rintro rfl; exact absurd h.1 (by decide)

theorem strtoul_decimal {x : CStr} {n : Nat} (h : Decimal x n) : strtoul x = some n := by
  obtain ⟨hne, hd, rfl, hlt⟩ := h
  have ht : x.takeWhile isDigit = x := take_whole fun c hc => by rw [digit_eq]; exact hd c hc
  match x, hne with
  | c :: r, _ =>
    obtain ⟨h1, h2, h3⟩ := not_space (hd c (.head _))
    have hs : signOf ((c :: r).dropWhile isSpace) = (false, c :: r) := by
      rw [List.dropWhile_cons_of_neg (by simp [h1]), signOf] <;> (intros; rename_i e; cases e; first | exact absurd rfl h2 | exact absurd rfl h3)
    simp only [strtoul, hs, ht, convert, digits, digits_from]
    rw [if_neg (by omega)]
    rfl

theorem digits_none {x : CStr} : x.takeWhile isDigit = [] ↔ ∀ c, x.head? = some c → digit c = false := by
  cases x with
  | nil => simp
  | cons c r =>
    cases h : isDigit c with
    | true => simp [h, ← digit_eq]
    | false => simp [h, ← digit_eq]

theorem space_eq (c : UInt8) : isSpace c = blankB c := by
  unfold isSpace blankB
  rw [Bool.eq_iff_iff]
  simp only [Bool.or_eq_true, Bool.and_eq_true, decide_eq_true_eq, beq_iff_eq, UInt8.le_iff_toNat_le, ← UInt8.toNat_inj]
  have e : (9 : UInt8).toNat = 9 ∧ (13 : UInt8).toNat = 13 ∧ (32 : UInt8).toNat = 32 ∧ (10 : UInt8).toNat = 10 ∧ (11 : UInt8).toNat = 11 ∧
    (12 : UInt8).toNat = 12 := ⟨rfl, rfl, rfl, rfl, rfl, rfl⟩
  omega

theorem drop_spaces {b r : CStr} (h : ∀ c ∈ b, isSpace c = true) : (b ++ r).dropWhile isSpace = r.dropWhile isSpace := by
  induction b with
  | nil => rfl
  | cons c b ih => rw [List.cons_append, List.dropWhile_cons_of_pos (h c (.head _)), ih fun c hc => h c (.tail _ hc)]

theorem convert_none {neg : Bool} {ds : CStr} : convert neg ds = none ↔ ds = [] := by
  cases ds with
  | nil => exact ⟨fun _ => rfl, fun _ => rfl⟩
  | cons c r =>
    simp only [convert, reduceCtorEq, iff_false]
    split <;> exact nofun

theorem sign_cases (s : CStr) : ∃ sign r, s = sign ++ r ∧ (sign = [] ∨ sign = t "+" ∨ sign = t "-") ∧ (signOf s).2 = r := by
  have e : t "+" = [43] ∧ t "-" = [45] := by decide +kernel
  rw [e.1, e.2]
  unfold signOf
  split
  · exact ⟨[45], _, rfl, .inr (.inr rfl), rfl⟩
  · exact ⟨[43], _, rfl, .inr (.inl rfl), rfl⟩
  · exact ⟨[], _, rfl, .inl rfl, rfl⟩

theorem sign_of {sign : CStr} {d : UInt8} {r : CStr} (h : sign = [] ∨ sign = t "+" ∨ sign = t "-") (hd : digit d = true) :
    (signOf ((sign ++ d :: r).dropWhile isSpace)).2 = d :: r := by
  have e : t "+" = [43] ∧ t "-" = [45] := by decide +kernel
  rw [e.1, e.2] at h
  obtain ⟨h1, h2, h3⟩ := not_space hd
  rcases h with rfl | rfl | rfl
  · rw [List.nil_append, List.dropWhile_cons_of_neg (by simp [h1]), signOf] <;>
      (intros; rename_i e; cases e; first | exact absurd rfl h2 | exact absurd rfl h3)
  · rfl
  · rfl

/-- `strtoul` finds a number exactly if there is one. -/
theorem strtoul_none {x : CStr} : strtoul x = none ↔ ¬ Starts x := by
  rw [strtoul, convert_none, digits_none]
  constructor
  · rintro h ⟨b, sign, d, r, rfl, hb, hs, hd⟩
    rw [List.append_assoc, drop_spaces fun c hc => (space_eq c).trans (hb c hc), sign_of hs hd] at h
    rw [h d rfl] at hd
    cases hd
  · intro h c hc
    obtain ⟨sign, r, e, hs, hr⟩ := sign_cases (x.dropWhile isSpace)
    rw [hr] at hc
    cases hd : digit c with
    | false => rfl
    | true =>
      match r, hc with
      | c' :: r, hc =>
        cases hc
        refine absurd ⟨x.takeWhile isSpace, sign, c, r, ?_, ?_, hs, hd⟩ h
        · rw [List.append_assoc, ← e, List.takeWhile_append_dropWhile]
        · intro c hc
          rw [← space_eq]
          exact List.all_eq_true.1 List.all_takeWhile c hc

/-! ## Settings -/

/-- The settings that the program has (`cocogen/commandline.h:7-20`). -/
def View (g : Cl) (s : Settings) : Prop :=
  g.backend.getD b!"dynamic" = s.backend ∧ g.gen_dir.getD b!"ccngen/" = s.genDir ∧ g.show_ast = s.showAst ∧ g.debug = s.debug ∧
    g.ag_scheduler_max_iter = s.maxIter ∧ g.verbosity = (if s.messages then 2 else 0) ∧ g.breakpoint = s.breakpoint

theorem view_init : View InitGlobalOptions usual := by
  have e : t "dynamic" = b!"dynamic" ∧ t "ccngen/" = b!"ccngen/" := by decide +kernel
  simp only [View, usual, e.1, e.2]
  exact ⟨rfl, rfl, rfl, rfl, rfl, rfl, rfl⟩

theorem change_one {o : Opt} {s s' : Settings} {g : Cl} (h : Change o s s') (hv : o ≠ .flag .verbose) (h0 : View g s) :
    ∃ g', one o g = some g' ∧ View g' s' := by
  obtain ⟨h1, h2, h3, h4, h5, h6, h7⟩ := h0
  cases h with
  | maxIter x n _ hd => exact ⟨{ g with ag_scheduler_max_iter := n }, by simp only [one, strtoul_decimal hd, Option.map], h1, h2, h3, h4, rfl, h6, h7⟩
  | verbose => exact absurd rfl hv
  | nothing f _ hf =>
    simp only [List.mem_cons, List.not_mem_nil, or_false] at hf
    rcases hf with rfl | rfl | rfl | rfl <;> exact ⟨_, rfl, h1, h2, h3, h4, h5, h6, h7⟩
  | backend => exact ⟨_, rfl, rfl, h2, h3, h4, h5, h6, h7⟩
  | genDir => exact ⟨_, rfl, h1, rfl, h3, h4, h5, h6, h7⟩
  | breakpoint => exact ⟨_, rfl, h1, h2, h3, h4, h5, h6, rfl⟩
  | showAst => exact ⟨_, rfl, h1, h2, rfl, h4, h5, h6, h7⟩
  | debug => exact ⟨_, rfl, h1, h2, h3, rfl, h5, h6, h7⟩
  | short => exact ⟨_, rfl, h1, h2, h3, h4, h5, rfl, h7⟩
  | dot => exact ⟨_, rfl, h1, h2, h3, h4, h5, h6, h7⟩
  | consistencyChecks => exact ⟨_, rfl, h1, h2, h3, h4, h5, h6, h7⟩

theorem changes_steps {os : List Opt} {s s' : Settings} (h : Changes os s s') : ∀ {g : Cl}, (.flag .verbose ∉ os) → View g s →
    ∃ g', steps os g = some g' ∧ View g' s' := by
  induction h with
  | nil s => intro g _ h; exact ⟨g, rfl, h⟩
  | cons hc _ ih =>
    intro g hv h
    obtain ⟨g1, h1, h2⟩ := change_one hc (fun e => hv (e ▸ .head _)) h
    obtain ⟨g', h3, h4⟩ := ih (fun hm => hv (.tail _ hm)) h2
    exact ⟨g', by simp only [steps, h1, Option.bind_some, h3], h4⟩

/-- An option as the help has it: not `--verbose`, and a number is a number. -/
theorem one_change {o : Opt} {s : Settings} {g g' : Cl} (h : one o g = some g') (hv : o ≠ .flag .verbose)
    (hn : ∀ x, o = .value .maxIter x → ∃ n, Decimal x n) (h0 : View g s) : ∃ s', Change o s s' ∧ View g' s' := by
  have fin : ∀ s', Change o s s' → ∃ s', Change o s s' ∧ View g' s' := by
    intro s' hc
    obtain ⟨g1, h1, h2⟩ := change_one hc hv h0
    rw [h] at h1
    cases h1
    exact ⟨s', hc, h2⟩
  match o, h, hn with
  | .short, _, _ => exact fin _ (.short s)
  | .flag .verbose, _, _ => exact absurd rfl hv
  | .flag .profiling, _, _ => exact fin _ (.nothing _ s (by decide))
  | .flag .breakpoints, _, _ => exact fin _ (.nothing _ s (by decide))
  | .flag .consistencyChecks, _, _ => exact fin _ (.consistencyChecks s)
  | .flag .serialise, _, _ => exact fin _ (.nothing _ s (by decide))
  | .flag .inspectpoints, _, _ => exact fin _ (.nothing _ s (by decide))
  | .flag .showAst, _, _ => exact fin _ (.showAst s)
  | .flag .debug, _, _ => exact fin _ (.debug s)
  | .value .dot x, _, _ => exact fin _ (.dot x s)
  | .value .backend x, _, _ => exact fin _ (.backend x s)
  | .value .genDir x, _, _ => exact fin _ (.genDir x s)
  | .value .breakpoint x, _, _ => exact fin _ (.breakpoint x s)
  | .value .maxIter x, _, hn =>
    obtain ⟨n, hd⟩ := hn x rfl
    exact fin _ (.maxIter x n s hd)

theorem steps_changes : ∀ {os : List Opt} {s : Settings} {g g' : Cl}, steps os g = some g' → (.flag .verbose ∉ os) →
    (∀ x, .value .maxIter x ∈ os → ∃ n, Decimal x n) → View g s → ∃ s', Changes os s s' ∧ View g' s'
  | [], s, g, g', h, _, _, h0 => by cases h; exact ⟨s, .nil s, h0⟩
  | o :: os, s, g, g', h, hv, hn, h0 => by
    simp only [steps, Option.bind_eq_some_iff] at h
    obtain ⟨g1, h1, h2⟩ := h
    obtain ⟨s1, hc, h3⟩ := one_change h1 (fun e => hv (e ▸ .head _)) (fun x e => hn x (e ▸ .head _)) h0
    obtain ⟨s', hc', h4⟩ := steps_changes h2 (fun hm => hv (.tail _ hm)) (fun x hx => hn x (.tail _ hx)) h3
    exact ⟨s', .cons hc hc', h4⟩

/-- Options that do not end the program. -/
theorem one_goes {o : Opt} {g : Cl} : (∃ g', one o g = some g') ↔ Goes o := by
  cases o with
  | short => exact ⟨fun _ => ⟨nofun, nofun⟩, fun _ => ⟨_, rfl⟩⟩
  | flag f =>
    cases f <;> first
      | exact ⟨fun _ => ⟨(by decide), nofun⟩, fun _ => ⟨_, rfl⟩⟩
      | exact ⟨(fun h => by obtain ⟨_, h⟩ := h; cases h), fun h => absurd rfl (h.1 _ (by decide : _ ∈ [Flag.help, .version, .showStructure]))⟩
  | value v x =>
    cases v with
    | maxIter =>
      constructor
      · rintro ⟨g', h⟩
        refine ⟨nofun, fun y e => ?_⟩
        cases e
        simp only [one, Option.map_eq_some_iff] at h
        obtain ⟨n, hn, _⟩ := h
        exact Classical.byContradiction fun hs => by rw [strtoul_none.2 hs] at hn; cases hn
      · rintro ⟨_, h⟩
        cases hs : strtoul x with
        | none => exact absurd (h x rfl) (strtoul_none.1 hs)
        | some n => exact ⟨_, by simp only [one, hs, Option.map]; rfl⟩
    | _ => exact ⟨fun _ => ⟨nofun, nofun⟩, fun _ => ⟨_, rfl⟩⟩

theorem steps_goes : ∀ {os : List Opt} {g : Cl}, (∃ g', steps os g = some g') ↔ ∀ o ∈ os, Goes o
  | [], g => ⟨fun _ => nofun, fun _ => ⟨g, rfl⟩⟩
  | o :: os, g => by
    simp only [steps, Option.bind_eq_some_iff, List.mem_cons, forall_eq_or_imp]
    constructor
    · rintro ⟨g', g1, h1, h2⟩
      exact ⟨one_goes.1 ⟨g1, h1⟩, steps_goes.1 ⟨g', h2⟩⟩
    · rintro ⟨h1, h2⟩
      obtain ⟨g1, h1⟩ := (one_goes (g := g)).2 h1
      obtain ⟨g', h2⟩ := (steps_goes (g := g1)).2 h2
      exact ⟨g', g1, h1, h2⟩

theorem dirify_iff {g d : CStr} : FSdirifyString g = .ok d ↔ Slashed g d := by
  unfold FSdirifyString Slashed
  rw [show t "/" = [47] by decide +kernel]
  cases h : g.getLast? with
  | none =>
    rw [List.getLast?_eq_none_iff] at h
    simp [h]
  | some c =>
    have hg : g ≠ [] := by rintro rfl; cases h
    by_cases hc : c = 47
    · subst hc
      simp only [bne_self_eq_false, Res.ok.injEq]
      simp [hg, eq_comm]
    · have : (c != 47) = true := by simpa using hc
      simp only [this, Res.ok.injEq]
      simp [hg, hc, eq_comm]

end Verif.CommandLine
