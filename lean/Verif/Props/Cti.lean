import Verif.Lemmas.CtiRun

/-!
# C13, C14, C47, C48: diagnostics

Messages: `WordsBelow n s` says that every word of `s` has fewer than `n` characters, `LinesWithin n s` that no line has
more than `n`.  Sequences of calls start in the initial state; `StopsAt cs i` says that the process has to end at call `i`.
-/

namespace Verif.Props
open Verif Verif.Str Verif.Cti Verif.Spec.Cti

/-! ## C13 -/

/-- C13, the rewriting of a message for any line length: every byte stays as it is, except that blanks, tabs and newlines
may become a blank or a break (`@`).  If every word has fewer than `L` characters, no run between breaks has more than
`L`. -/
theorem C13_process (L : Nat) (text : CStr) (junk : Buf) (ht : TextOk text) :
    ∃ s, ProcessMessage (text.map some ++ some 0 :: junk) L = .ok (s.map some ++ some 0 :: junk) ∧
      s.length = text.length ∧
      (∀ (i : Nat) a b, text[i]? = some a → s[i]? = some b → a = b ∨ (isBlank a = true ∧ (b = 32 ∨ b = 64))) ∧
      (1 ≤ L → WordsBelow L text → ∀ w, w <:+: s → (64 : UInt8) ∉ w → w.length ≤ L) := by
  refine ⟨procS L [] text 0 0, process_ok L text junk ht, rel_length (proc_rel L text), ?_, ?_⟩
  · have h := proc_rel L text
    generalize procS (L : Int) [] text 0 0 = s at h
    clear ht
    induction h with
    | nil => intro i a b h; simp at h
    | same _ ih =>
      intro i a b h1 h2
      cases i with
      | zero => simp at h1 h2; exact .inl (h1.symm.trans h2)
      | succ i => exact ih i a b (by simpa using h1) (by simpa using h2)
    | space hb _ ih =>
      intro i a b h1 h2
      cases i with
      | zero => simp at h1 h2; exact .inr ⟨h1 ▸ hb, .inl h2.symm⟩
      | succ i => exact ih i a b (by simpa using h1) (by simpa using h2)
    | brk hb _ ih =>
      intro i a b h1 h2
      cases i with
      | zero => simp at h1 h2; exact .inr ⟨h1 ▸ hb, .inr h2.symm⟩
      | succ i => exact ih i a b (by simpa using h1) (by simpa using h2)
  · intro hL hw
    have := procS_within L text (short_of_words hL hw) text [] [] 0 0
      { msg := ⟨[], rfl⟩, start := .inl ⟨rfl, rfl⟩, col := by omega, line := by simp
        space := by intro a b e; simp at e }
    exact this

example : ∃ s, ProcessMessage (([97, 32, 98, 9, 99, 10, 100] : CStr).map some ++ some 0 :: []) 3 =
    .ok (s.map some ++ some 0 :: []) ∧ s = [97, 32, 98, 64, 99, 64, 100] :=
  ⟨[97, 32, 98, 64, 99, 64, 100], by decide +kernel, rfl⟩

example : TextOk [97, 32, 98, 9, 99, 10, 100] ∧ WordsBelow 3 [97, 32, 98, 9, 99, 10, 100] := by
  refine ⟨⟨by unfold NoNul; decide, by decide⟩, ?_⟩
  unfold WordsBelow
  decide

/-- C13, partial: a message that is reported after any calls is printed behind the header of its type, followed by the
location.  If it has no `@`, the printed words are the words of the message.  If all its words have fewer characters
than fit behind the header (116 characters in all), no line has more characters than fit there.

What is missing: `C13_at_false` shows that `@` is lost, `C13_width_false` and `C13_stop_false` that long words spoil
other lines. -/
theorem C13_message_partial (cs : List Call) (hcs : ∀ c ∈ cs, CallOk c) (hn : cs.length + 1 < 2 ^ 31) (st : St)
    (hrun : run cs St.init = .ok (.running st)) (t : CtiType) (newline : Bool) (o : Option Info) (text : CStr)
    (ht : TextOk text) (hi : ∀ i, o = some i → InfoOk i) :
    ∃ body infoText st', step (.message t newline o text) st = .ok (.running st') ∧
      (∀ st, PrintInfo o st = .ok { st with err := st.err ++ infoText }) ∧
      st'.err = st.err ++ (if body = [] then [] else headerOf t ++ body) ++ infoText ++ (if newline then [10] else []) ∧
      (body = [] ∨ body.getLast? = some 10) ∧
      ((64 : UInt8) ∉ text → words body = words text) ∧
      (WordsBelow (116 - (headerOf t).length) text → LinesWithin (116 - (headerOf t).length) body) := by
  have hst : BufOk st ∧ 0 ≤ st.errors ∧ st.errors + 1 < 2 ^ 31 ∧ 0 ≤ st.warnings ∧ st.warnings + 1 < 2 ^ 31 := by
    rcases run_spec cs St.init 0 0 bufOk_init hcs rfl rfl (by omega) (by omega) with
      ⟨s, r, _, hb, e1, e2⟩ | ⟨_, _, _, r, _⟩
    · rw [hrun] at r
      cases r
      have h1 := List.countP_le_length (p := isError) (l := cs)
      have h2 := List.countP_le_length (p := isWarning) (l := cs)
      exact ⟨hb, by omega, by omega, by omega, by omega⟩
    · rw [hrun] at r; cases r
  obtain ⟨hb, he0, he, hw0, hw⟩ := hst
  obtain ⟨body, infoText, st', ec, hinfo, hp, _, _, _, herr⟩ := CTI_ok t newline o text st hb ht hi
    ⟨he0, fun _ => he⟩ ⟨hw0, fun _ => hw⟩
  refine ⟨body, infoText, st', ?_, hinfo, herr, parts_end hp, ?_, ?_⟩
  · unfold step
    simp only
    rw [ec]
    rfl
  · intro hat
    unfold words
    rw [parts_words hp, runs_rel (proc_rel _ text) hat]
  · intro hwb l hl h10
    have hh := header_length t
    rcases parts_lines hp l hl h10 with e | ⟨e, e'⟩
    · rw [e]; exact Nat.zero_le _
    · have := procS_within (116 - (headerOf t).length) text (short_of_words (by omega) hwb) text [] [] 0 0
        { msg := ⟨[], rfl⟩, start := .inl ⟨rfl, rfl⟩, col := by omega, line := by simp
          space := by intro a b e; simp at e }
      exact this l e e'

/-- The text `n` times. -/
def rep (n : Nat) (s : CStr) : CStr := (List.replicate n s).flatten

example : ∃ st, run [.message .warn true none [97, 10]] St.init = .ok (.running st) ∧
    TextOk (rep 60 [97, 98, 32]) ∧ WordsBelow (116 - (headerOf .error).length) (rep 60 [97, 98, 32]) ∧
    (64 : UInt8) ∉ rep 60 [97, 98, 32] := by
  refine ⟨(match run [.message .warn true none [97, 10]] St.init with | .ok (.running st) => st | _ => St.init), ?_,
    ⟨?_, ?_⟩, ?_, ?_⟩
  · decide +kernel
  · unfold NoNul; decide +kernel
  · decide +kernel
  · unfold WordsBelow; decide +kernel
  · decide +kernel

/-- C13 is false for texts with `@`: it is printed as the end of a line. -/
theorem C13_at_false : ∃ (text : CStr) (st : St), TextOk text ∧ CTI .state false none text St.init = .ok st ∧
    st.err = "user\nhost\n".toUTF8.toList ∧ text = "user@host".toUTF8.toList ∧ words st.err ≠ words text := by
  refine ⟨"user@host".toUTF8.toList, (match CTI .state false none "user@host".toUTF8.toList St.init with
    | .ok st => st | _ => St.init), ⟨?_, ?_⟩, ?_, ?_, rfl, ?_⟩
  · unfold NoNul; decide +kernel
  · decide +kernel
  · decide +kernel
  · decide +kernel
  · decide +kernel

/-- C13, width: false.  No word of the message is longer than the 116 characters that fit, but a line has more.  (A word
of exactly that length behind a break ends the search for breaks.) -/
theorem C13_width_false : ∃ (text : CStr) (st : St) (l : CStr), TextOk text ∧ (64 : UInt8) ∉ text ∧ WordsBelow 117 text ∧
    CTI .state false none text St.init = .ok st ∧ l <:+: st.err ∧ (10 : UInt8) ∉ l ∧ 116 < l.length := by
  refine ⟨rep 115 [97] ++ [32] ++ rep 116 [98] ++ [32, 99, 32, 100],
    (match CTI .state false none (rep 115 [97] ++ [32] ++ rep 116 [98] ++ [32, 99, 32, 100]) St.init with
      | .ok st => st | _ => St.init),
    rep 116 [98] ++ [32, 99, 32, 100], ⟨?_, ?_⟩, ?_, ?_, ?_, ⟨rep 115 [97] ++ [10], [10], ?_⟩, ?_, ?_⟩
  · unfold NoNul; decide +kernel
  · decide +kernel
  · decide +kernel
  · unfold WordsBelow; decide +kernel
  · decide +kernel
  · decide +kernel
  · decide +kernel
  · decide +kernel

/-- C13, width: false even for lines of short words.  After a word that is too long, the rest of the message is printed
as it is: the second line consists of words of one character and has more than 116 characters. -/
theorem C13_stop_false : ∃ (text : CStr) (st : St) (l : CStr), TextOk text ∧ (64 : UInt8) ∉ text ∧
    CTI .state false none text St.init = .ok st ∧ l <:+: st.err ∧ (10 : UInt8) ∉ l ∧ 116 < l.length ∧ WordsBelow 2 l := by
  refine ⟨rep 117 [97] ++ [10] ++ rep 60 [98, 32],
    (match CTI .state false none (rep 117 [97] ++ [10] ++ rep 60 [98, 32]) St.init with
      | .ok st => st | _ => St.init),
    rep 60 [98, 32], ⟨?_, ?_⟩, ?_, ?_, ⟨rep 117 [97] ++ [10], [10], ?_⟩, ?_, ?_, ?_⟩
  · unfold NoNul; decide +kernel
  · decide +kernel
  · decide +kernel
  · decide +kernel
  · decide +kernel
  · decide +kernel
  · decide +kernel
  · unfold WordsBelow; decide +kernel

/-! ## C14 -/

/-- C14, partial: a sequence of fewer than 2^31 calls either has no place where it has to stop: then it runs to the end,
and the counters are the numbers of errors and warnings reported; or it ends the process with status 1 at the first such
place, and the last output has the numbers of errors (running out of memory is one) and warnings reported until then.

What is missing: with 2^31 errors the counter overflows (`C14_overflow_false`). -/
theorem C14_checkpoint_partial (cs : List Call) (hcs : ∀ c ∈ cs, CallOk c) (hn : cs.length < 2 ^ 31) :
    ((∀ i, ¬ StopsAt cs i) → ∃ st, run cs St.init = .ok (.running st) ∧ CTIgetErrors st = (cs.countP isError : Nat) ∧
      CTIgetWarnings st = (cs.countP isWarning : Nat)) ∧
    (∀ i, StopsAt cs i → (∀ j < i, ¬ StopsAt cs j) → ∃ st pre, run cs St.init = .ok (.exited 1 st) ∧
      st.err = pre ++ summary ((cs.take i).countP isError + (cs.take (i + 1)).countP isOom)
        ((cs.take i).countP isWarning)) := by
  have h := run_spec cs St.init 0 0 bufOk_init hcs rfl rfl (by omega) (by omega)
  simp only [Nat.lt_irrefl, decide_false, stopsIn_false, Nat.zero_add] at h
  rcases h with ⟨st, r, hns, _, e1, e2⟩ | ⟨st, i, pre, r, hs, hmin, herr⟩
  · refine ⟨fun _ => ⟨st, r, e1, e2⟩, fun i hi _ => absurd hi (hns i)⟩
  · refine ⟨fun hno => absurd hs (hno i), fun j hj hjm => ?_⟩
    have : j = i := by
      rcases Nat.lt_trichotomy i j with h | h | h
      · exact absurd hs (hjm i h)
      · exact h.symm
      · exact absurd hj (hmin j h)
    subst this
    exact ⟨st, pre, r, herr⟩

example : StopsAt [.message .warn true none [97], .abortOnError, .message .error true none [98], .message .note true none
    [99], .abortOnError] 4 ∧ ¬ StopsAt [.message .warn true none [97], .abortOnError, .message .error true none [98],
    .message .note true none [99], .abortOnError] 1 := by
  unfold StopsAt
  refine ⟨.inl ⟨rfl, ⟨.message .error true none [98], by simp, rfl⟩⟩, ?_⟩
  rintro (⟨_, c, hc, he⟩ | h | ⟨r, h⟩)
  · simp only [List.take_succ_cons, List.take_zero, List.mem_singleton] at hc
    subst hc
    cases he
  · cases h
  · cases h

/-- C14 is false for very long runs: 2^31 errors overflow the counter, which is undefined behaviour. -/
theorem C14_overflow_false : ∃ cs : List Call, (∀ c ∈ cs, CallOk c) ∧ (run cs St.init).isUB = true := by
  obtain ⟨n, hn⟩ : ∃ n : Nat, n = 2 ^ 31 - 1 := ⟨_, rfl⟩
  have hok : ∀ c ∈ List.replicate n (Call.message .error false none []), CallOk c := by
    intro c hc
    rw [(List.mem_replicate.1 hc).2]
    exact ⟨⟨by intro b hb; simp at hb, by simp⟩, by intro i h; cases h⟩
  refine ⟨List.replicate n (.message .error false none []) ++ [.message .error false none []], ?_, ?_⟩
  · intro c hc
    rcases List.mem_append.1 hc with h | h
    · exact hok c h
    · rw [List.mem_singleton.1 h]
      exact ⟨⟨by intro b hb; simp at hb, by simp⟩, by intro i h; cases h⟩
  · have hlen : (List.replicate n (Call.message .error false none [])).length = n := List.length_replicate
    rcases run_spec (List.replicate n (.message .error false none [])) St.init 0 0 bufOk_init hok rfl rfl
      (by rw [hlen]; omega) (by rw [hlen]; omega) with ⟨st, r, _, _, e, _⟩ | ⟨_, i, _, _, hs, _⟩
    · rw [run_append _ _ _ _ r]
      have ec : (List.replicate n (Call.message .error false none [])).countP isError = n := by
        rw [List.countP_replicate]; simp [isError]
      rw [ec] at e
      have : HandleCtiCall .error st = .ub "signed overflow" := by
        unfold HandleCtiCall
        simp only
        rw [int32_ub _ (by omega)]
        rfl
      rw [run]
      unfold step CTI
      simp only
      rw [this]
      rfl
    · exfalso
      unfold StopsIn at hs
      simp only [List.getElem?_replicate] at hs
      rcases hs with ⟨h, _⟩ | h | ⟨r, h⟩ <;> split at h <;> cases h

/-! ## C47 -/

/-- C47, partial: no sequence of fewer than 2^31 calls writes outside the buffer or reads parts of it that were not
written, whatever the lengths of the messages before: it runs to the end or exits with status 1.  After any such
sequence, the buffer takes the next message completely.

What is missing: messages of 2^31-2 characters and more (`C47_long_false`). -/
theorem C47_buffer_partial (cs : List Call) (hcs : ∀ c ∈ cs, CallOk c) (hn : cs.length < 2 ^ 31) :
    (∃ st, run cs St.init = .ok (.exited 1 st)) ∨
    ∃ st, run cs St.init = .ok (.running st) ∧ ∀ text, TextOk text → ∃ st' b,
      Format2Buffer st text = .ok st' ∧ st'.message_buffer = some b ∧ st'.message_buffer_size = b.length ∧
      cstr b = .ok text := by
  rcases run_spec cs St.init 0 0 bufOk_init hcs rfl rfl (by omega) (by omega) with
    ⟨st, r, _, hb, _⟩ | ⟨st, _, _, r, _⟩
  · right
    refine ⟨st, r, fun text ht => ?_⟩
    obtain ⟨junk, e, _⟩ := format_ok st text hb ht
    exact ⟨_, _, e, rfl, rfl, cstr_append text ht.1 junk⟩
  · exact .inl ⟨st, r⟩

example : ∃ st st', run [.message .note false none [97]] St.init = .ok (.running st) ∧ st.message_buffer_size = 3 ∧
    Format2Buffer st [98, 99, 100, 101] = .ok st' ∧ st'.message_buffer_size = 6 := by
  refine ⟨(match run [.message .note false none [97]] St.init with | .ok (.running st) => st | _ => St.init),
    (match run [.message .note false none [97]] St.init with
      | .ok (.running st) => (match Format2Buffer st [98, 99, 100, 101] with | .ok s => s | _ => St.init)
      | _ => St.init), ?_, ?_, ?_, ?_⟩ <;> decide +kernel

/-- The size of the buffer for a text of 2^31-2 characters is not an `int`. -/
theorem format_long (st : St) (h0 : st.message_buffer = none ∧ st.message_buffer_size = 0) (text : CStr)
    (h1 : text.length < 2 ^ 31) (h2 : 2 ^ 31 ≤ text.length + 2) :
    Format2Buffer st text = .ub "signed overflow" := by
  have e0 : vsnprintf st.message_buffer st.message_buffer_size text = .ok (none, (text.length : Int)) := by
    rw [h0.1, h0.2]; exact vsnprintf_zero text h1 none
  unfold Format2Buffer
  rw [formatFirst_of e0]
  simp only [Res.bind_ok]
  have : decide (st.message_buffer_size ≤ (text.length : Int)) = true := by
    rw [decide_eq_true_iff, h0.2]
    exact Int.natCast_nonneg _
  rw [this]
  simp only
  unfold formatAgain newBuffer
  rw [int32_ub _ (by omega)]
  rfl

theorem message_long (st : St) (h0 : st.message_buffer = none ∧ st.message_buffer_size = 0) (text : CStr)
    (h1 : text.length < 2 ^ 31) (h2 : 2 ^ 31 ≤ text.length + 2) : (CTI .state false none text st).isUB = true := by
  unfold CTI HandleCtiCall
  simp only [Res.bind_ok]
  unfold PrintMessage
  rw [format_long st h0 text h1 h2]
  rfl

/-- C47 is false for huge messages: the length of a message of 2^31-2 characters is an `int`, but the size of the buffer
for it is not. -/
theorem C47_long_false : ∃ text : CStr, NoNul text ∧ text.length < 2 ^ 31 ∧
    (CTI .state false none text St.init).isUB = true := by
  obtain ⟨n, hn⟩ : ∃ n : Nat, n = 2 ^ 31 - 2 := ⟨_, rfl⟩
  have hl : (List.replicate n (97 : UInt8)).length = n := List.length_replicate
  refine ⟨List.replicate n 97, ?_, by rw [hl]; omega, message_long _ ⟨rfl, rfl⟩ _ (by rw [hl]; omega) (by rw [hl]; omega)⟩
  intro b hb
  rw [(List.mem_replicate.1 hb).2]
  decide

/-! ## C48 -/

/-- C48, partial: for a location with a file name and a line number, the position is written with exactly the parts that
are known, and the source line (if known, with a column) is followed by a marker that points at the columns from the
first to the last.

What is missing: see `C48_zero_false`, `C48_file_false` and `C48_lines_false`. -/
theorem C48_position_partial (i : Info) (hi : InfoOk i) (f : CStr) (hf : i.filename = some f) (h1 : 0 < i.first_line)
    (h2 : 0 ≤ i.last_line) (st : St) :
    PrintInfo (some i) st = .ok { st with err := st.err ++ position f i ++ sourceLine i } := by
  rw [PrintInfo_text i hi f hf h1 h2 st]
  simp [St.print]

/-- A location over the columns 3 to 5 of line 7. -/
def sampleInfo : Info := ⟨7, 3, 7, 5, some [102], some [97, 32, 98, 99, 100]⟩

example : InfoOk sampleInfo ∧ position [102] sampleInfo ++ sourceLine sampleInfo =
    " --> f:7.3-5\n |> a bcd\n      ^~~\n".toUTF8.toList := by
  refine ⟨⟨rfl, by decide, by decide⟩, by decide +kernel⟩

/-- C48 is false for lines that are not known: the numbers 0 are displayed, although `ctinfo.h:40` says that they are
not. -/
theorem C48_zero_false : ∃ (i : Info) (st : St), i.first_line = 0 ∧ i.first_column = 0 ∧
    PrintInfo (some i) St.init = .ok st ∧ st.err = " --> f:0:0\n".toUTF8.toList := by
  refine ⟨⟨0, 0, 0, 0, some [102], none⟩, { St.init with err := " --> f:0:0\n".toUTF8.toList }, rfl, rfl, ?_, rfl⟩
  decide +kernel

/-- C48 is false without a file name: NULL is given to `%s`, although `ctinfo.h:40` says that it is handled. -/
theorem C48_file_false : ∃ i : Info, i.filename = none ∧ 0 < i.first_line ∧ (PrintInfo (some i) St.init).isUB = true :=
  ⟨⟨7, 3, 7, 5, none, none⟩, rfl, by decide, by decide +kernel⟩

/-- C48 is false for ranges over several lines: the last column belongs to another line, but the marker below the first
line goes on to it, here beyond the end of the line. -/
theorem C48_lines_false : ∃ (i : Info) (l m : CStr) (st : St), InfoOk i ∧ i.line = some l ∧ i.first_line < i.last_line ∧
    PrintInfo (some i) St.init = .ok st ∧
    st.err = " --> f:7.1-8.5\n |> ".toUTF8.toList ++ l ++ "\n    ".toUTF8.toList ++ m ++ [10] ∧
    (10 : UInt8) ∉ m ∧ l.length < m.length := by
  refine ⟨⟨7, 1, 8, 5, some [102], some [97, 98]⟩, [97, 98], [94, 126, 126, 126, 126],
    (match PrintInfo (some ⟨7, 1, 8, 5, some [102], some [97, 98]⟩) St.init with | .ok st => st | _ => St.init),
    ⟨rfl, by decide, by decide⟩, rfl, by decide, ?_, ?_, by decide, by decide⟩
  · decide +kernel
  · decide +kernel

end Verif.Props
