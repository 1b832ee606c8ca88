import Verif.Lemmas.CommandLine
import Verif.Props.GenFiles

/-!
# Property theorems C74: the command line

The theorems quantify over all lists of arguments.  `Spec.CommandLine.Says` is what the arguments say, `Changes` is what the help of the
program says about the options.
-/

namespace Verif.Props
open Verif.Str Verif.CommandLine
open Verif.GenFiles (Disk)
open Verif.Spec.CommandLine (Flag Value Opt IsName valueName Abbrev Begins Says Settings usual Decimal Starts Goes Change Changes Slashed flagName)
open Verif.Spec.GenFiles (t GenDir Room Made UsersNamed NoSlash below Translates worldOf)
open Verif.Spec.Semantic (TypesNamed Earlier)
open Verif.Semantic (checks Out)
open Verif.GenFiles (backendIsDynamic library)

/-- The run has these settings. -/
def RunsWith (g : Cl) (file dir : CStr) (s : Settings) : Prop :=
  globalsOf g = ⟨file, dir, s.backend, s.showAst, s.maxIter, s.debug, if s.messages then 2 else 0, s.breakpoint⟩

theorem runs_of {g : Cl} {s : Settings} (h : View g s) (file dir : CStr) :
    RunsWith { g with gen_dir := some dir, input_file := file } file dir s := by
  obtain ⟨h1, _, h3, h4, h5, h6, h7⟩ := h
  unfold RunsWith globalsOf
  simp only [Globals.mk.injEq, Option.getD_some, true_and]
  refine ⟨?_, h3, h5, h4, h6, h7⟩
  rw [← h1]
  cases g.backend <;> rfl

/-- C74: a command line with one operand sets what its options say, the last one of each kind, in whatever way and order they are written.
Missing: the option `--verbose`, for which it is false (`C74_verbose_false`). -/
theorem C74_settings_partial (prog : CStr) (args : List CStr) (os : List Opt) (file : CStr) (h : Says args os [file])
    (hv : .flag .verbose ∉ os) (s : Settings) (hc : Changes os usual s) (dir : CStr) (hd : Slashed s.genDir dir) :
    ∃ g, CLprocessArgs (prog :: args) = .ok (.go g) ∧ RunsWith g file dir s := by
  obtain ⟨g, hs, hg⟩ := changes_steps hc hv view_init
  refine ⟨{ g with gen_dir := some dir, input_file := file }, ?_, runs_of hg file dir⟩
  rw [CL_go (loop_says h hs), hg.2.1, dirify_iff.2 hd]
  rfl

theorem ends_of (args : List CStr) : ∃ r, loop (rounds args) ⟨[], [], args⟩ InitGlobalOptions = .ok r ∧ Ends InitGlobalOptions [] args r :=
  loop_ends args.length args (rounds args) [] InitGlobalOptions (Nat.le_refl _) (Nat.le_refl _)

/-- What the loop read, if it came to its end. -/
theorem go_says {args : List CStr} {g : Cl} {ops : List CStr} (h : Ends InitGlobalOptions [] args (.go (g, ops))) :
    ∃ os, Says args os ops ∧ steps os InitGlobalOptions = some g := by
  generalize hr : Ended.go (g, ops) = r at h
  cases h with
  | all hb hs => cases hr; exact ⟨_, .inl hb, hs⟩
  | marked hb hs => cases hr; exact ⟨_, .inr ⟨_, _, hb, rfl⟩, hs⟩
  | flag => cases hr
  | number => cases hr
  | wrong => cases hr

/-- C74: nothing else runs: the arguments of a run say options that do not end the program, and one operand; and the settings are those of
the options.  Missing: the settings with `--verbose` and with values for `--ag-scheduler-max-iter` that are no decimal numbers. -/
theorem C74_only_partial (prog : CStr) (args : List CStr) (g : Cl) (h : CLprocessArgs (prog :: args) = .ok (.go g)) :
    ∃ os file, Says args os [file] ∧ (∀ o ∈ os, Goes o) ∧ ((.flag .verbose ∉ os) → (∀ x, .value .maxIter x ∈ os → ∃ n, Decimal x n) →
      ∃ s dir, Changes os usual s ∧ Slashed s.genDir dir ∧ RunsWith g file dir s) := by
  obtain ⟨r, hr, he⟩ := ends_of args
  match r, hr, he with
  | .exit st said, hr, _ => rw [CL_exit hr] at h; cases h
  | .go (g', ops), hr, he =>
    rw [CL_go hr] at h
    obtain ⟨dir, hd, h⟩ := Res.bind_eq_ok.1 h
    obtain ⟨os, hs, hst⟩ := go_says he
    match ops, h, hs with
    | [file], h, hs =>
      cases h
      refine ⟨os, file, hs, steps_goes.1 ⟨g', hst⟩, fun hv hn => ?_⟩
      obtain ⟨s, hc, hw⟩ := steps_changes hst hv hn view_init
      refine ⟨s, dir, hc, ?_, runs_of hw file dir⟩
      rw [← hw.2.1]
      exact dirify_iff.1 hd
    | [], h, _ => cases h
    | _ :: _ :: _, h, _ => cases h

/-- What an option that ends the program prints (`cocogen/commandline.c:40-61`). -/
def shown : Flag → Option Said
  | .help => some .usage
  | .version => some .version
  | .showStructure => some .tree
  | _ => none

/-- C74: the options for help, version and structure print that and end the program with success, whatever comes after them. -/
theorem C74_shows (prog : CStr) (args : List CStr) (os : List Opt) (ops rest : List CStr) (n : CStr) (f : Flag) (said : Said)
    (h : Begins args os ops ((t "--" ++ n) :: rest)) (hg : ∀ o ∈ os, Goes o) (ha : Abbrev n (flagName f)) (hf : shown f = some said) :
    CLprocessArgs (prog :: args) = .ok (.exit 0 said) := by
  obtain ⟨g', hs⟩ := (steps_goes (g := InitGlobalOptions)).2 hg
  obtain ⟨k, hk⟩ := loop_at h hs
  have he : ends f = some said := by cases f <;> cases hf <;> rfl
  have hne := abbrev_ne (flag_mem f) (by rw [flag_name]; exact ha)
  refine CL_exit (hk.trans (loop_exit (s' := ⟨[], ops, rest⟩) ?_ (handle_end g' he)))
  rw [getopt_long]
  exact (next_long hne ops rest).trans (long_flag ha _)

/-- C74: the program ends before a run with success only for these options, and otherwise with failure and the usage or a message about
a text that does not start with a number. -/
theorem C74_status (prog : CStr) (args : List CStr) (status : Nat) (said : Said) (h : CLprocessArgs (prog :: args) = .ok (.exit status said)) :
    (status = 0 ∧ ∃ os ops n f rest, Begins args os ops ((t "--" ++ n) :: rest) ∧ (∀ o ∈ os, Goes o) ∧ Abbrev n (flagName f) ∧ shown f = some said) ∨
      (status = 1 ∧ ∃ os ops x rest, Begins args (os ++ [.value .maxIter x]) ops rest ∧ (∀ o ∈ os, Goes o) ∧ ¬ Starts x ∧ said = .noNumber x) ∨
      (status = 1 ∧ said = .usage) := by
  obtain ⟨r, hr, he⟩ := ends_of args
  match r, hr, he with
  | .go (g', ops), hr, _ =>
    rw [CL_go hr] at h
    obtain ⟨dir, hd, h⟩ := Res.bind_eq_ok.1 h
    match ops, h with
    | [_], h => cases h
    | [], h => cases h; exact .inr (.inr ⟨rfl, rfl⟩)
    | _ :: _ :: _, h => cases h; exact .inr (.inr ⟨rfl, rfl⟩)
  | .exit st sd, hr, he =>
    rw [CL_exit hr] at h
    cases h
    cases he with
    | flag hb hs ha hf =>
      rename_i f _ _
      exact .inl ⟨rfl, _, _, _, f, _, hb, steps_goes.1 ⟨_, hs⟩, ha, by cases f <;> cases hf <;> rfl⟩
    | number hb h1 hs hn =>
      exact .inr (.inl ⟨rfl, _, _, _, _, Begins.then hb h1, steps_goes.1 ⟨_, hs⟩, strtoul_none.1 hn, rfl⟩)
    | wrong => exact .inr (.inr ⟨rfl, rfl⟩)

/-- C74: a value for `--ag-scheduler-max-iter` that does not start with a number ends the program with failure. -/
theorem C74_number (prog : CStr) (args : List CStr) (os : List Opt) (ops mid rest : List CStr) (x : CStr) (h : Begins args os ops mid)
    (hg : ∀ o ∈ os, Goes o) (hx : Begins mid [.value .maxIter x] [] rest) (hn : ¬ Starts x) :
    CLprocessArgs (prog :: args) = .ok (.exit 1 (.noNumber x)) := by
  obtain ⟨g', hs⟩ := (steps_goes (g := InitGlobalOptions)).2 hg
  obtain ⟨k, hk⟩ := loop_at h hs
  refine CL_exit (hk.trans ?_)
  generalize hos : [Opt.value .maxIter x] = os' at hx
  generalize hops : ([] : List CStr) = ops' at hx
  cases hx with
  | none => cases hos
  | operand => cases hops
  | flag => cases hos
  | joined ha hb =>
    cases hos
    rename_i m args'
    refine loop_exit (s' := ⟨[], ops, args'⟩) (f := false) ?_ (handle_number _ (strtoul_none.2 hn))
    rw [getopt_long]
    have e : Spec.CommandLine.t "--" ++ m ++ Spec.CommandLine.t "=" ++ x = Spec.CommandLine.t "--" ++ (m ++ 61 :: x) := by
      rw [show Spec.CommandLine.t "=" = [61] by decide +kernel]; simp
    rw [e]
    exact (next_long (by simp) ops args').trans (long_joined ha _)
  | apart ha hb =>
    cases hos
    rename_i m args'
    refine loop_exit (s' := ⟨[], ops, args'⟩) (f := false) ?_ (handle_number _ (strtoul_none.2 hn))
    rw [getopt_long]
    exact (next_long (abbrev_ne (value_mem .maxIter) (by rw [value_name]; exact ha)) ops (x :: args')).trans (long_apart ha _ _)
  | short =>
    rename_i k' _ _ _
    rw [List.replicate_succ] at hos
    cases hos

/-- The last value for the directory is empty. -/
def NoDir (os : List Opt) : Prop := ∃ a b, os = a ++ .value .genDir [] :: b ∧ ∀ x, .value .genDir x ∉ b

theorem dir_of : ∀ (os : List Opt) (g g' : Cl), steps os g = some g' →
    (∃ a b x, os = a ++ .value .genDir x :: b ∧ (∀ y, .value .genDir y ∉ b) ∧ g'.gen_dir = some x) ∨
      ((∀ y, .value .genDir y ∉ os) ∧ g'.gen_dir = g.gen_dir)
  | [], g, g', h => by cases h; exact .inr ⟨fun _ h => (by cases h), rfl⟩
  | o :: os, g, g', h => by
    simp only [steps, Option.bind_eq_some_iff] at h
    obtain ⟨g1, h1, h2⟩ := h
    rcases dir_of os g1 g' h2 with ⟨a, b, x, rfl, hb, hx⟩ | ⟨hb, hx⟩
    · exact .inl ⟨o :: a, b, x, rfl, hb, hx⟩
    · by_cases ho : ∃ y, o = .value .genDir y
      · obtain ⟨y, rfl⟩ := ho
        cases h1
        exact .inl ⟨[], os, y, rfl, hb, hx⟩
      · refine .inr ⟨fun y hy => ?_, ?_⟩
        · cases hy with
          | head => exact ho ⟨y, rfl⟩
          | tail _ hy => exact hb y hy
        · rw [hx]
          match o, h1, ho with
          | .short, h1, _ => cases h1; rfl
          | .flag f, h1, _ => cases f <;> cases h1 <;> rfl
          | .value .genDir y, _, ho => exact absurd ⟨y, rfl⟩ ho
          | .value .dot _, h1, _ => cases h1; rfl
          | .value .backend _, h1, _ => cases h1; rfl
          | .value .breakpoint _, h1, _ => cases h1; rfl
          | .value .maxIter x, h1, _ =>
            simp only [one, Option.map_eq_some_iff] at h1
            obtain ⟨n, _, rfl⟩ := h1
            rfl

/-- C74: the code is defined, unless the last value for `--gen-dir` is empty; the program then reads the byte before the value. -/
theorem C74_defined (prog : CStr) (args : List CStr) : (∃ r, CLprocessArgs (prog :: args) = .ok r) ∨
    (CLprocessArgs (prog :: args) = .ub "path[-1]" ∧ ∃ os ops, Says args os ops ∧ (∀ o ∈ os, Goes o) ∧ NoDir os) := by
  obtain ⟨r, hr, he⟩ := ends_of args
  match r, hr, he with
  | .exit st said, hr, _ => exact .inl ⟨_, CL_exit hr⟩
  | .go (g', ops), hr, he =>
    obtain ⟨os, hs, hst⟩ := go_says he
    rw [CL_go hr]
    by_cases hd : g'.gen_dir = some []
    · right
      rw [hd]
      refine ⟨rfl, os, ops, hs, steps_goes.1 ⟨g', hst⟩, ?_⟩
      rcases dir_of os _ _ hst with ⟨a, b, x, e, hb, hx⟩ | ⟨_, hx⟩
      · rw [hd] at hx
        cases hx
        exact ⟨a, b, e, hb⟩
      · rw [hd] at hx
        cases hx
    · left
      obtain ⟨dir, hdir⟩ : ∃ dir, GenFiles.FSdirifyString (g'.gen_dir.getD [99, 99, 110, 103, 101, 110, 47]) = .ok dir := by
        cases hg : g'.gen_dir with
        | none => exact ⟨_, rfl⟩
        | some x =>
          have hx : x ≠ [] := fun e => hd (by rw [hg, e])
          by_cases hl : x.getLast? = some 47
          · exact ⟨x, dirify_iff.2 ⟨hx, .inl ⟨hl, rfl⟩⟩⟩
          · exact ⟨_, dirify_iff.2 ⟨hx, .inr ⟨hl, rfl⟩⟩⟩
      rw [hdir]
      match ops with
      | [f] => exact ⟨_, rfl⟩
      | [] => exact ⟨_, rfl⟩
      | _ :: _ :: _ => exact ⟨_, rfl⟩

theorem slashed_dir {g d : CStr} (h : Slashed g d) : GenDir d d := by
  have e : Spec.CommandLine.t "/" = [47] := by decide +kernel
  rcases h with ⟨_, ⟨h, rfl⟩ | ⟨_, rfl⟩⟩
  · exact .slash h
  · refine .slash ?_
    rw [e, List.getLast?_append]
    rfl

theorem main_go {prog : CStr} {args : List CStr} {g : Cl} {file dir : CStr} {s : Settings} (h : CLprocessArgs (prog :: args) = .ok (.go g))
    (hr : RunsWith g file dir s) (describe : Globals → Parse.Ast × Out) {k k' : Disk}
    (hm : GenFiles.main dir s.backend (describe (globalsOf g)).1 (describe (globalsOf g)).2 k = .ok k') :
    CommandLine.main (prog :: args) describe k = .ok (.go k') := by
  unfold CommandLine.main
  rw [h, Res.bind_ok]
  simp only
  rw [show (globalsOf g).gen_src_dir = dir by rw [hr], show (globalsOf g).backend = s.backend by rw [hr], hm]
  rfl

/-- C74: a run with the dynamic backend puts the files of the description in the file into the directory that the command line names, and
changes no other file. -/
theorem C74_files (prog : CStr) (args : List CStr) (os : List Opt) (file : CStr) (h : Says args os [file]) (hv : .flag .verbose ∉ os)
    (s : Settings) (hc : Changes os usual s) (dir : CStr) (hd : Slashed s.genDir dir) (hb : backendIsDynamic s.backend = .ok true)
    (describe : Globals → Parse.Ast × Out) (addr : Semantic.Loc → Nat) (ha : Spec.Semantic.Apart addr) (A : Parse.Ast) (o : Out)
    (hA : ∀ g : Globals, g.filename = file → describe g = (A, o)) (hp : TypesNamed A) (he : Earlier A) (hu : UsersNamed A) (hn : NoSlash A)
    (fuel : Nat) (hk : checks addr fuel A = .ok o) (h0 : o.errors = 0) (k : Disk) (hr : Room k.dirs k.file dir) :
    ∃ k', CommandLine.main (prog :: args) describe k = .ok (.go k') ∧ (∀ p, Made A p → k'.file (dir ++ p) ≠ none) ∧
      (∀ q, (∀ p, Made A p → q ≠ dir ++ p) → k'.file q = k.file q) ∧
      ∀ x, x ∈ k'.dirs ↔ x = dir ∨ (∃ b ∈ below, x = dir ++ b ++ t "/") ∨ x ∈ k.dirs := by
  obtain ⟨g, h1, h2⟩ := C74_settings_partial prog args os file h hv s hc dir hd
  obtain ⟨k', h3, h4⟩ := C73_written addr A ha hp he hu hn fuel o hk h0 s.backend hb dir dir (slashed_dir hd) k hr
  have hA' : describe (globalsOf g) = (A, o) := hA _ (by rw [h2])
  exact ⟨k', main_go h1 h2 describe (by rw [hA']; exact h3), h4⟩

/-- C74: with any other backend, also with the one that the help names besides `dynamic`, `action_handling.c` does not work. -/
theorem C74_backend (prog : CStr) (args : List CStr) (os : List Opt) (file : CStr) (h : Says args os [file]) (hv : .flag .verbose ∉ os)
    (s : Settings) (hc : Changes os usual s) (dir : CStr) (hd : Slashed s.genDir dir) (hb : backendIsDynamic s.backend = .ok false)
    (describe : Globals → Parse.Ast × Out) (k k' : Disk) (hr : Room k.dirs k.file dir) (he : k.file (dir ++ t "ccngen/enum.h") = none)
    (hm : CommandLine.main (prog :: args) describe k = .ok (.go k')) (user : Option (List CStr)) :
    ¬ Translates (worldOf k'.file dir (library user)) (t "action_handling.c") := by
  obtain ⟨g, h1, h2⟩ := C74_settings_partial prog args os file h hv s hc dir hd
  unfold CommandLine.main at hm
  rw [h1, Res.bind_ok] at hm
  simp only at hm
  rw [show (globalsOf g).gen_src_dir = dir by rw [h2], show (globalsOf g).backend = s.backend by rw [h2]] at hm
  obtain ⟨k1, hk1, hm⟩ := Res.bind_eq_ok.1 hm
  cases hm
  exact C73_backend _ _ s.backend hb dir dir (slashed_dir hd) k _ hr hk1 he user

/-! ## Where it is false -/

/-- C74 is false for `--verbose`, which the help puts beside `-v`: the messages of the driver stay off. -/
theorem C74_verbose_false : ¬ ∀ (args : List CStr) (os : List Opt) (file : CStr) (s : Settings) (dir : CStr), Says args os [file] →
    Changes os usual s → Slashed s.genDir dir → ∃ g, CLprocessArgs (t "cocogen" :: args) = .ok (.go g) ∧ RunsWith g file dir s := by
  intro h
  obtain ⟨g, h1, h2⟩ := h [t "--" ++ t "verbose", t "f"] [.flag .verbose] (t "f") { usual with messages := true } (t "ccngen/")
    (.inl (.flag (.inl rfl) (.operand (.inr (by decide +kernel)) (.none _)))) (.cons (.verbose _) (.nil _))
    (by have h : t "ccngen/" ≠ [] ∧ (t "ccngen/").getLast? = some 47 := by decide +kernel
        exact ⟨h.1, .inl ⟨h.2, rfl⟩⟩)
  have h3 : (match CLprocessArgs [t "cocogen", t "--" ++ t "verbose", t "f"] with | .ok (.go g) => (globalsOf g).verbosity | _ => 2) = 0 := by
    decide +kernel
  rw [h1] at h3
  simp only at h3
  rw [h2] at h3
  cases h3

/-- C74 is false for `-b`, which the help puts beside `--breakpoint`: the program ends with the usage. -/
theorem C74_short_false : ¬ ∀ x file : CStr, ∃ g, CLprocessArgs [t "cocogen", t "-b", x, file] = .ok (.go g) ∧ g.breakpoint = some x := by
  intro h
  obtain ⟨g, h1, _⟩ := h (t "scan") (t "f")
  have h2 : (match CLprocessArgs [t "cocogen", t "-b", t "scan", t "f"] with | .ok (.go _) => true | _ => false) = false := by decide +kernel
  rw [h1] at h2
  cases h2

/-- C74 is false for the values of `--ag-scheduler-max-iter`: `3x` is taken for 3, and `-1` for the largest number. -/
theorem C74_number_false : ¬ ∀ x file : CStr, (∃ g, CLprocessArgs [t "cocogen", t "--ag-scheduler-max-iter", x, file] = .ok (.go g)) → ∃ n, Decimal x n := by
  intro h
  have h1 : (match CLprocessArgs [t "cocogen", t "--ag-scheduler-max-iter", t "-1", t "f"] with
    | .ok (.go g) => g.ag_scheduler_max_iter == 2 ^ 64 - 1 | _ => false) = true := by decide +kernel
  split at h1
  · rename_i g hg
    obtain ⟨n, hn⟩ := h _ _ ⟨g, hg⟩
    have := hn.2.1 45 (by decide +kernel)
    exact absurd this (by decide)
  · cases h1

/-- C74 is false for the values of `--backend`: any text is taken. -/
theorem C74_backend_false : ¬ ∀ x file : CStr, (∃ g, CLprocessArgs [t "cocogen", t "--backend", x, file] = .ok (.go g)) →
    x = t "dynamic" ∨ x = t "typed" := by
  intro h
  have h1 : (match CLprocessArgs [t "cocogen", t "--backend", t "dynamik", t "f"] with | .ok (.go _) => true | _ => false) = true := by decide +kernel
  split at h1
  · rename_i g hg
    have := h _ _ ⟨g, hg⟩
    revert this
    decide +kernel
  · cases h1

/-- C74 is false for an empty directory, and for a program that gets no name: the behaviour is undefined. -/
theorem C74_empty_false : CLprocessArgs [t "cocogen", t "--gen-dir", [], t "f"] = .ub "path[-1]" ∧ CLprocessArgs [] = .ub "strrchr(NULL)" := by
  decide +kernel

/-! ## Examples -/

theorem abbrev_of {n name : CStr} (h1 : n.isPrefixOf name = true) (h2 : ∀ f, n.isPrefixOf (flagName f) = true → flagName f = name)
    (h3 : ∀ v, n.isPrefixOf (valueName v) = true → valueName v = name) : Abbrev n name := by
  refine .inr ⟨List.isPrefixOf_iff_prefix.1 h1, fun m hm hp => ?_⟩
  cases hm with
  | flag f => exact h2 f (List.isPrefixOf_iff_prefix.2 hp)
  | value v => exact h3 v (List.isPrefixOf_iff_prefix.2 hp)

/-- `--gen=out -vv f --back Dynamic --ag-scheduler-max-iter 20 --gen-dir gen`. -/
def sampleArgs : List CStr :=
  [t "--" ++ t "gen" ++ t "=" ++ t "out", t "-" ++ List.replicate 2 118, t "f", t "--" ++ t "back", t "Dynamic",
    t "--" ++ t "ag-scheduler-max-iter", t "20", t "--" ++ t "gen-dir", t "gen"]

def sampleOpts : List Opt :=
  [.value .genDir (t "out"), .short, .short, .value .backend (t "Dynamic"), .value .maxIter (t "20"), .value .genDir (t "gen")]

theorem sample_begins (rest : List CStr) : Begins (sampleArgs ++ rest) sampleOpts [t "f"] rest :=
  .joined (v := .genDir) (abbrev_of (by decide +kernel) (fun f => by cases f <;> decide +kernel) (fun v => by cases v <;> decide +kernel))
    (.short (k := 1) (.operand (.inr (by decide +kernel))
      (.apart (v := .backend) (abbrev_of (by decide +kernel) (fun f => by cases f <;> decide +kernel) (fun v => by cases v <;> decide +kernel))
        (.apart (v := .maxIter) (.inl rfl) (.apart (v := .genDir) (.inl rfl) (.none rest))))))

theorem sample_decimal : Decimal (t "20") 20 := by
  unfold Decimal
  decide +kernel

theorem sample_changes : Changes sampleOpts usual ⟨t "Dynamic", t "gen", false, false, 20, true, none⟩ :=
  .cons (.genDir _ _) (.cons (.short _) (.cons (.short _) (.cons (.backend _ _) (.cons (.maxIter _ 20 _ sample_decimal) (.cons (.genDir _ _) (.nil _))))))

/-- The conditions of `C74_settings_partial` and `C74_files` for these arguments; a run. -/
example : Says sampleArgs sampleOpts [t "f"] ∧ (.flag .verbose ∉ sampleOpts) ∧
    Changes sampleOpts usual ⟨t "Dynamic", t "gen", false, false, 20, true, none⟩ ∧ Slashed (t "gen") (t "gen/") ∧
    backendIsDynamic (t "Dynamic") = .ok true ∧ ∃ g, CLprocessArgs (t "cocogen" :: sampleArgs) = .ok (.go g) ∧
      RunsWith g (t "f") (t "gen/") ⟨t "Dynamic", t "gen", false, false, 20, true, none⟩ := by
  have h1 : Says sampleArgs sampleOpts [t "f"] := .inl (by simpa using sample_begins [])
  have h2 : (.flag .verbose ∉ sampleOpts) := by decide +kernel
  have h3 : Slashed (t "gen") (t "gen/") := by
    have h : t "gen" ≠ [] ∧ (t "gen").getLast? ≠ some 47 ∧ t "gen/" = t "gen" ++ Spec.CommandLine.t "/" := by decide +kernel
    exact ⟨h.1, .inr h.2⟩
  exact ⟨h1, h2, sample_changes, h3, by decide +kernel, C74_settings_partial _ _ _ _ h1 h2 _ sample_changes _ h3⟩

/-- `C74_files` for these arguments and a description with equations and a nodeset. -/
example : ∃ o k', checks sampleAddr 60 (ast filesFile) = .ok o ∧
    CommandLine.main (t "cocogen" :: sampleArgs) (fun _ => (ast filesFile, o)) blank = .ok (.go k') ∧ k'.file (t "gen/" ++ t "ccngen/visit.h") ≠ none := by
  obtain ⟨h1, h2, h3, h4, o, ho, h0, _⟩ := filesFile_run
  have h5 : Slashed (t "gen") (t "gen/") := by
    have h : t "gen" ≠ [] ∧ (t "gen").getLast? ≠ some 47 ∧ t "gen/" = t "gen" ++ Spec.CommandLine.t "/" := by decide +kernel
    exact ⟨h.1, .inr h.2⟩
  obtain ⟨k', hk, hf, _⟩ := C74_files (t "cocogen") sampleArgs sampleOpts (t "f") (.inl (by simpa using sample_begins [])) (by decide +kernel) _
    sample_changes (t "gen/") h5 (by decide +kernel) (fun _ => (ast filesFile, o)) sampleAddr sampleAddr_apart _ o (fun _ _ => rfl) h1 h2 h3 h4 60 ho h0
    blank blank_room
  exact ⟨o, k', ho, hk, hf _ (.header (by decide +kernel))⟩

/-- The conditions of `C74_only_partial` and `C74_defined` for them, with another option behind. -/
example : ∃ g, CLprocessArgs (t "cocogen" :: (sampleArgs ++ [t "--debug"])) = .ok (.go g) := by
  have h : (match CLprocessArgs (t "cocogen" :: (sampleArgs ++ [t "--debug"])) with | .ok (.go _) => true | _ => false) = true := by decide +kernel
  split at h
  · exact ⟨_, ‹_›⟩
  · cases h

theorem sample_goes : ∀ o ∈ sampleOpts, Goes o :=
  (steps_goes (g := InitGlobalOptions)).1 (by
    have h : (steps sampleOpts InitGlobalOptions).isSome = true := by decide +kernel
    exact Option.isSome_iff_exists.1 h)

/-- The conditions of `C74_shows` and `C74_status`: after these arguments `--vers` shows the version, whatever follows. -/
example : CLprocessArgs (t "cocogen" :: (sampleArgs ++ [t "--" ++ t "vers", t "--nonsense"])) = .ok (.exit 0 .version) :=
  C74_shows _ _ _ _ _ (t "vers") .version .version (sample_begins _) sample_goes
    (abbrev_of (by decide +kernel) (fun f => by cases f <;> decide +kernel) (fun v => by cases v <;> decide +kernel)) rfl

/-- The conditions of `C74_number`. -/
example : CLprocessArgs (t "cocogen" :: (sampleArgs ++ [t "--" ++ t "ag-scheduler-max-iter", t "x3"])) = .ok (.exit 1 (.noNumber (t "x3"))) :=
  C74_number _ _ _ _ _ [] (t "x3") (sample_begins _) sample_goes (.apart (v := .maxIter) (.inl rfl) (.none []))
    (strtoul_none.1 (by decide +kernel))

/-- The conditions of `C74_backend`. -/
example : Says [t "--" ++ t "backend", t "typed", t "f"] [.value .backend (t "typed")] [t "f"] ∧ (.flag .verbose ∉ [Opt.value .backend (t "typed")]) ∧
    Changes [.value .backend (t "typed")] usual { usual with backend := t "typed" } ∧ Slashed usual.genDir (t "ccngen/") ∧
    backendIsDynamic (t "typed") = .ok false ∧ Room blank.dirs blank.file (t "ccngen/") ∧ blank.file (t "ccngen/" ++ t "ccngen/enum.h") = none := by
  have h : usual.genDir ≠ [] ∧ usual.genDir.getLast? = some 47 ∧ t "ccngen/" = usual.genDir := by decide +kernel
  exact ⟨.inl (.apart (v := .backend) (.inl rfl) (.operand (.inr (by decide +kernel)) (.none _))), by decide, .cons (.backend _ _) (.nil _),
    ⟨h.1, .inl h.2⟩, by decide +kernel, ⟨.inr ⟨rfl, by decide +kernel⟩, fun _ _ => rfl⟩, rfl⟩

end Verif.Props
