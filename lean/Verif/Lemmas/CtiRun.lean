import Verif.Lemmas.Cti

/-! Diagnostics: the buffer, locations, counters, sequences of calls. -/

namespace Verif.Spec.Cti
open Verif Verif.Str Verif.Cti

/-! ### Buffer -/

theorem pokes_prefix (b : Buf) (l : List UInt8) (h : l.length ≤ b.length) :
    pokes b 0 l = .ok (l.map some ++ b.drop l.length) := by
  have := pokes_mid l [] (b.take l.length) (b.drop l.length) (by simp; omega)
  simpa using this

theorem vsnprintf_some (b : Buf) (text : CStr) (hb1 : 1 ≤ b.length) (hb : b.length < 2 ^ 31) (ht : text.length < 2 ^ 31) :
    ∃ b', vsnprintf (some b) b.length text = .ok (some b', text.length) ∧ b'.length = b.length ∧
      (text.length < b.length → ∃ junk, b' = emb text junk) := by
  unfold vsnprintf
  rw [if_neg (by omega), if_neg (by omega)]
  simp only
  rw [intToSize_nat _ (by omega)]
  have hl : (text.take (b.length - 1) ++ [(0 : UInt8)]).length ≤ b.length := by
    simp; omega
  rw [pokes_prefix _ _ hl]
  refine ⟨_, rfl, ?_, ?_⟩
  · simp; omega
  · intro h
    rw [List.take_of_length_le (by omega)]
    exact ⟨b.drop (text.length + 1), by simp [emb]⟩

theorem newBuffer_ok (n : Nat) (h : n + 2 < 2 ^ 31) (st : St) :
    newBuffer n st = .ok { st with
      message_buffer := some (List.replicate (n + 2) none), message_buffer_size := ((n + 2 : Nat) : Int) } := by
  unfold newBuffer
  rw [int32_ok _ (by omega)]
  simp only [Res.bind_ok]
  have e : ((n : Int) + 2) = ((n + 2 : Nat) : Int) := by omega
  rw [e, intToSize_nat _ (by omega), malloc_ok _ (by omega) (by omega)]
  rfl

/-- The second half of `Format2Buffer` on a new buffer. -/
theorem fresh_ok (text : CStr) (hl : text.length + 2 < 2 ^ 31) (st' : St) : ∃ junk,
    formatAgain text.length st' text = Res.ok { st' with
        message_buffer := some (emb text junk), message_buffer_size := ((emb text junk).length : Int) } ∧
      (emb text junk).length < 2 ^ 31 ∧ 2 ≤ (emb text junk).length := by
  unfold formatAgain
  rw [newBuffer_ok _ hl]
  simp only [Res.bind_ok]
  obtain ⟨b', e, hl', hj⟩ := vsnprintf_some (List.replicate (text.length + 2) none) text
    (by rw [List.length_replicate]; omega) (by rw [List.length_replicate]; exact hl) (by omega)
  obtain ⟨junk, ej⟩ := hj (by rw [List.length_replicate]; omega)
  rw [List.length_replicate] at e hl'
  rw [e]
  simp only [Res.bind_ok]
  have : decide ((text.length : Int) < ((text.length + 2 : Nat) : Int)) = true := by
    rw [decide_eq_true_iff]; omega
  rw [this]
  refine ⟨junk, ?_, ?_, ?_⟩
  · simp only
    rw [ej] at hl' ⊢
    rw [hl']
  · rw [← ej, hl']; exact hl
  · rw [← ej, hl']; omega

theorem formatFirst_of {st : St} {text : CStr} {b : Option Buf}
    (h : vsnprintf st.message_buffer st.message_buffer_size text = .ok (b, (text.length : Int))) :
    formatFirst st text = .ok ({ st with message_buffer := b }, (text.length : Int)) := by
  unfold formatFirst
  rw [h]
  simp only [Res.bind_ok]
  have e0 : decide ((text.length : Int) < 0) = false := by rw [decide_eq_false_iff_not]; omega
  rw [e0]

theorem vsnprintf_zero (text : CStr) (h : text.length < 2 ^ 31) (b : Option Buf) :
    vsnprintf b 0 text = .ok (b, (text.length : Int)) := by
  unfold vsnprintf
  rw [if_neg (by omega), if_pos rfl]

/-- The whole message is in the buffer. -/
theorem format_ok (st : St) (text : CStr) (hs : BufOk st) (ht : TextOk text) :
    ∃ junk, Format2Buffer st text = .ok { st with
        message_buffer := some (emb text junk), message_buffer_size := ((emb text junk).length : Int) } ∧
      (emb text junk).length < 2 ^ 31 ∧ 2 ≤ (emb text junk).length := by
  obtain ⟨_, hl⟩ := ht
  have fresh := fresh_ok text hl
  unfold Format2Buffer
  rcases hs with ⟨h1, h2⟩ | ⟨b, h1, h2, hb2, hb31⟩
  · have e : vsnprintf st.message_buffer st.message_buffer_size text = .ok (none, (text.length : Int)) := by
      rw [h1, h2]; exact vsnprintf_zero text (by omega) none
    rw [formatFirst_of e]
    simp only [Res.bind_ok]
    have e1 : decide (st.message_buffer_size ≤ (text.length : Int)) = true := by
      rw [decide_eq_true_iff]; omega
    rw [e1]
    exact fresh _
  · obtain ⟨b', e, hl', hj⟩ := vsnprintf_some b text (by omega) hb31 (by omega)
    rw [← h1, ← h2] at e
    rw [formatFirst_of e]
    simp only [Res.bind_ok]
    by_cases hlt : text.length < b.length
    · have e1 : decide (st.message_buffer_size ≤ (text.length : Int)) = false := by
        rw [decide_eq_false_iff_not]; omega
      rw [e1]
      obtain ⟨junk, ej⟩ := hj hlt
      refine ⟨junk, ?_, ?_, ?_⟩
      · simp only
        rw [ej] at hl' ⊢
        rw [hl', ← h2]
      · rw [← ej, hl']; exact hb31
      · rw [← ej, hl']; exact hb2
    · have e1 : decide (st.message_buffer_size ≤ (text.length : Int)) = true := by
        rw [decide_eq_true_iff]; omega
      rw [e1]
      exact fresh _

/-! ### Locations -/

theorem print_print (st : St) (a b : CStr) : (st.print a).print b = st.print (a ++ b) := by
  simp [St.print]

theorem print_nil (st : St) : st.print [] = st := by simp [St.print]

theorem blankLoop_ok : ∀ (n : Nat) (c first : Int) (st : St), first - c ≤ n → first < 2 ^ 31 → -(2 ^ 31) ≤ c →
    blankLoop n c first st = .ok (max c first, st.print (List.replicate (first - c).toNat 32))
  | 0, c, first, st, h, _, _ => by
    rw [blankLoop]
    have : (first - c).toNat = 0 := by omega
    rw [this, List.replicate_zero, print_nil, Int.max_eq_left (by omega)]
  | n + 1, c, first, st, h, h31, hc => by
    rw [blankLoop]
    by_cases hlt : c < first
    · rw [decide_eq_true hlt]
      simp only
      rw [int32_ok _ (by omega)]
      simp only [Res.bind_ok]
      rw [blankLoop_ok n (c + 1) first _ (by omega) h31 (by omega), print_print]
      have e1 : (first - c).toNat = (first - (c + 1)).toNat + 1 := by omega
      have e2 : max (c + 1) first = max c first := by omega
      rw [e1, e2, List.replicate_succ]
      rfl
    · rw [decide_eq_false hlt]
      have : (first - c).toNat = 0 := by omega
      rw [this, List.replicate_zero, print_nil, Int.max_eq_left (by omega)]

theorem tildeLoop_ok : ∀ (n : Nat) (c last : Int) (st : St), last + 1 - c ≤ n → last < 2 ^ 31 - 1 → -(2 ^ 31) ≤ c →
    tildeLoop n c last st = .ok (st.print (List.replicate (last + 1 - c).toNat 126))
  | 0, c, last, st, h, _, _ => by
    rw [tildeLoop]
    have : (last + 1 - c).toNat = 0 := by omega
    rw [this, List.replicate_zero, print_nil]
  | n + 1, c, last, st, h, h31, hc => by
    rw [tildeLoop]
    by_cases hle : c ≤ last
    · rw [decide_eq_true hle]
      simp only
      rw [int32_ok _ (by omega)]
      simp only [Res.bind_ok]
      rw [tildeLoop_ok n (c + 1) last _ (by omega) h31 (by omega), print_print]
      have e1 : (last + 1 - c).toNat = (last + 1 - (c + 1)).toNat + 1 := by omega
      rw [e1, List.replicate_succ]
      rfl
    · rw [decide_eq_false hle]
      have : (last + 1 - c).toNat = 0 := by omega
      rw [this, List.replicate_zero, print_nil]

/-- What `PrintLocation` writes. -/
def locText (i : Info) : CStr :=
  match i.line with
  | none => []
  | some l => [32, 124, 62, 32] ++ l ++ [10, 32, 32, 32, 32] ++
    marker (max 1 i.first_column.toNat) i.last_column.toNat ++ [10]

theorem PrintLocation_ok (i : Info) (hi : InfoOk i) (st : St) : PrintLocation i st = .ok (st.print (locText i)) := by
  obtain ⟨_, h1, h2⟩ := hi
  unfold PrintLocation locText
  cases i.line with
  | none => rw [print_nil]
  | some l =>
    simp only
    rw [blankLoop_ok _ _ _ _ (by omega) (by omega) (by omega)]
    simp only [Res.bind_ok]
    rw [int32_ok _ (by omega)]
    simp only [Res.bind_ok]
    rw [tildeLoop_ok _ _ _ _ (by omega) h2 (by omega)]
    simp only [Res.bind_ok, print_print]
    have e1 : (i.first_column - 1).toNat = max 1 i.first_column.toNat - 1 := by omega
    have e2 : (i.last_column + 1 - (max 1 i.first_column + 1)).toNat = i.last_column.toNat - max 1 i.first_column.toNat := by
      omega
    rw [e1, e2]
    simp [marker]

/-- Printing a location always works and appends text. -/
theorem PrintInfo_ok (o : Option Info) (h : ∀ i, o = some i → InfoOk i) :
    ∃ t, ∀ st, PrintInfo o st = .ok (st.print t) := by
  cases o with
  | none => exact ⟨[], fun st => by rw [print_nil]; rfl⟩
  | some i =>
    have hi := h i rfl
    obtain ⟨f, hf⟩ := Option.isSome_iff_exists.1 hi.1
    unfold PrintInfo
    simp only
    split
    · exact ⟨_, fun st => by unfold PrintLine fileName; rw [hf]; rfl⟩
    · split
      · refine ⟨(arrow ++ f ++ [58] ++ dec i.first_line ++ [58] ++ dec i.first_column ++ [10]) ++ locText i, fun st => ?_⟩
        unfold PrintLineCol fileName
        rw [hf]
        simp only [Res.bind_ok]
        rw [PrintLocation_ok i hi, print_print]
      · split
        · unfold PrintRange fileName
          rw [hf]
          simp only [Res.bind_ok]
          split
          · refine ⟨(arrow ++ f ++ [58] ++ dec i.first_line ++ [46] ++ dec i.first_column ++ [45] ++ dec i.last_column ++
              [10]) ++ locText i, fun st => ?_⟩
            rw [PrintLocation_ok i hi, print_print]
          · refine ⟨(arrow ++ f ++ [58] ++ dec i.first_line ++ [46] ++ dec i.first_column ++ [45] ++ dec i.last_line ++
              [46] ++ dec i.last_column ++ [10]) ++ locText i, fun st => ?_⟩
            rw [PrintLocation_ok i hi, print_print]
        · exact ⟨[], fun st => by rw [print_nil]⟩

/-- The exact text for a location with a line. -/
theorem PrintInfo_text (i : Info) (hi : InfoOk i) (f : CStr) (hf : i.filename = some f) (h1 : 0 < i.first_line)
    (h2 : 0 ≤ i.last_line) (st : St) :
    PrintInfo (some i) st = .ok (st.print (position f i ++ sourceLine i)) := by
  have ea : " --> ".toUTF8.toList = arrow := by decide +kernel
  have eb : ":".toUTF8.toList = [58] := by decide +kernel
  have ec : ".".toUTF8.toList = [46] := by decide +kernel
  have ed : "-".toUTF8.toList = [45] := by decide +kernel
  have ee : " |> ".toUTF8.toList = [32, 124, 62, 32] := by decide +kernel
  have ef : "    ".toUTF8.toList = [32, 32, 32, 32] := by decide +kernel
  unfold PrintInfo position
  rw [ea, eb, ec, ed]
  simp only
  by_cases hc : i.first_column ≤ 0
  · have e0 : (decide (i.first_line > 0) && decide (i.first_column ≤ 0)) = true := by simp [h1, hc]
    rw [e0, if_pos hc]
    have : sourceLine i = [] := by
      unfold sourceLine
      cases i.line with
      | none => rfl
      | some l => simp only; rw [if_pos hc]
    rw [this, List.append_nil]
    unfold PrintLine fileName
    rw [hf]
    rfl
  · have e0 : (decide (i.first_line > 0) && decide (i.first_column ≤ 0)) = false := by simp [hc]
    rw [e0, if_neg hc]
    simp only
    have hloc : locText i = sourceLine i := by
      unfold locText sourceLine
      cases i.line with
      | none => rfl
      | some l =>
        simp only
        rw [if_neg hc, ee, ef]
        have : max 1 i.first_column.toNat = i.first_column.toNat := by omega
        rw [this]
        simp
    by_cases hp : i.last_column ≤ 0 ∨ (i.first_column = i.last_column ∧ (i.last_line = 0 ∨ i.last_line = i.first_line))
    · have e1 : (decide (i.last_column ≤ 0) || ((decide (i.last_line ≤ 0) || i.first_line == i.last_line) &&
          i.first_column == i.last_column)) = true := by
        rcases hp with hp | ⟨hp, hq⟩
        · simp [hp]
        · rw [hp]
          rcases hq with hq | hq
          · simp [hq]
          · simp [hq]
      rw [e1, if_pos hp]
      unfold PrintLineCol fileName
      rw [hf]
      simp only [Res.bind_ok]
      rw [PrintLocation_ok i hi, print_print, hloc]
    · have hn := not_or.1 hp
      have e1 : (decide (i.last_column ≤ 0) || ((decide (i.last_line ≤ 0) || i.first_line == i.last_line) &&
          i.first_column == i.last_column)) = false := by
        have a1 : decide (i.last_column ≤ 0) = false := decide_eq_false hn.1
        rw [a1, Bool.false_or]
        by_cases hcc : i.first_column = i.last_column
        · have a2 : decide (i.last_line ≤ 0) = false := decide_eq_false (fun h => hn.2 ⟨hcc, .inl (by omega)⟩)
          have a3 : (i.first_line == i.last_line) = false := by
            rw [beq_eq_false_iff_ne]; exact fun h => hn.2 ⟨hcc, .inr h.symm⟩
          rw [a2, a3]; rfl
        · have : (i.first_column == i.last_column) = false := by rw [beq_eq_false_iff_ne]; exact hcc
          rw [this, Bool.and_false]
      rw [e1, if_neg hp]
      have e2 : decide (i.last_column > 0) = true := by rw [decide_eq_true_iff]; omega
      rw [e2]
      simp only
      unfold PrintRange fileName
      rw [hf]
      simp only [Res.bind_ok]
      by_cases hl : i.last_line = 0 ∨ i.last_line = i.first_line
      · have e3 : (i.last_line == 0 || i.first_line == i.last_line) = true := by
          rcases hl with hl | hl <;> simp [hl]
        rw [e3, if_pos hl]
        simp only
        rw [PrintLocation_ok i hi, print_print, hloc]
      · have e3 : (i.last_line == 0 || i.first_line == i.last_line) = false := by
          have hn := not_or.1 hl
          have a1 : (i.last_line == 0) = false := by rw [beq_eq_false_iff_ne]; exact hn.1
          have a2 : (i.first_line == i.last_line) = false := by rw [beq_eq_false_iff_ne]; exact fun h => hn.2 h.symm
          rw [a1, a2]; rfl
        rw [e3, if_neg hl]
        simp only
        rw [PrintLocation_ok i hi, print_print, hloc]

/-! ### A message -/

theorem rel_noNul {x y : CStr} (h : Rel x y) (hx : NoNul x) : NoNul y := by
  induction h with
  | nil => exact hx
  | same h ih =>
    intro b hb
    rcases List.mem_cons.1 hb with e | e
    · rw [e]; exact hx _ (by simp)
    · exact ih (fun c hc => hx c (by simp [hc])) b e
  | space _ h ih =>
    intro b hb
    rcases List.mem_cons.1 hb with e | e
    · rw [e]; decide
    · exact ih (fun c hc => hx c (by simp [hc])) b e
  | brk _ h ih =>
    intro b hb
    rcases List.mem_cons.1 hb with e | e
    · rw [e]; decide
    · exact ih (fun c hc => hx c (by simp [hc])) b e

theorem rel_length {x y : CStr} (h : Rel x y) : y.length = x.length := by
  induction h <;> simp_all

theorem process_ok (L : Int) (text : CStr) (junk : Buf) (ht : TextOk text) :
    ProcessMessage (emb text junk) L = .ok (emb (procS L [] text 0 0) junk) := by
  have := processLoop_procS L junk ((emb text junk).length + 1) [] text 0 0 (by simp [emb]; omega) ht.1
    (by have := ht.2; simp; omega) (by simp) (by simp)
  simpa [ProcessMessage] using this

theorem proc_rel (L : Int) (text : CStr) : Rel text (procS L [] text 0 0) := by
  have := procS_rel L text [] [] 0 0 .nil
  simpa using this

/-- The whole of `PrintMessage`. -/
theorem PrintMessage_ok (header text : CStr) (hh : header.length ≤ 116) (newline : Bool) (o : Option Info) (st : St)
    (hs : BufOk st) (ht : TextOk text) (infoText : CStr) (hi : ∀ st, PrintInfo o st = .ok (st.print infoText)) :
    ∃ body st', PrintMessage header text newline o st = .ok st' ∧
      Parts (procS ((116 - header.length : Nat) : Int) [] text 0 0) body ∧
      BufOk st' ∧ st'.errors = st.errors ∧ st'.warnings = st.warnings ∧
      st'.err = st.err ++ withHeader header body ++ infoText ++ (if newline then [10] else []) := by
  obtain ⟨junk, e, h31, h2⟩ := format_ok st text hs ht
  unfold PrintMessage
  rw [e]
  simp only [Res.bind_ok]
  have eL : sizeToInt (intToSize (message_line_length - header.length)) = ((116 - header.length : Nat) : Int) := by
    have : message_line_length - (header.length : Int) = ((116 - header.length : Nat) : Int) := by
      unfold message_line_length; omega
    rw [this, intToSize_nat _ (by omega), sizeToInt_small _ (by omega)]
  rw [eL, process_ok _ _ _ ht]
  simp only [Res.bind_ok]
  have hrel := proc_rel ((116 - header.length : Nat) : Int) text
  have ec : cstr (emb (procS ((116 - header.length : Nat) : Int) [] text 0 0) junk) =
      .ok (procS ((116 - header.length : Nat) : Int) [] text 0 0) := cstr_append _ (rel_noNul hrel ht.1) junk
  rw [ec]
  have hbl : (emb (procS ((116 - header.length : Nat) : Int) [] text 0 0) junk).length = (emb text junk).length := by
    simp [emb, rel_length hrel]
  generalize procS ((116 - header.length : Nat) : Int) [] text 0 0 = p at hbl
  simp only [Res.bind_ok]
  obtain ⟨body, hp, e2⟩ := printLoop_parts (p.length + 1) p header
    { st with message_buffer := some (emb p junk), message_buffer_size := ((emb text junk).length : Int) } (by omega)
  rw [e2]
  simp only [Res.bind_ok]
  rw [hi]
  simp only [Res.bind_ok]
  have hbuf : ∀ x : CStr, BufOk
      ((⟨some (emb p junk), ((emb text junk).length : Int), st.errors, st.warnings, st.err⟩ : St).print x) := by
    intro x
    exact .inr ⟨emb p junk, rfl, by simp [St.print, hbl], by omega, by omega⟩
  cases newline with
  | true =>
    refine ⟨body, _, rfl, hp, ?_, rfl, rfl, ?_⟩
    · rw [print_print, print_print]; exact hbuf _
    · simp [St.print]
  | false =>
    refine ⟨body, _, rfl, hp, ?_, rfl, rfl, ?_⟩
    · rw [print_print]; exact hbuf _
    · simp [St.print]

theorem header_eq (t : CtiType) : GetMessageHeader t = headerOf t := by
  cases t <;> decide +kernel

theorem header_length (t : CtiType) : (headerOf t).length ≤ 9 := by
  cases t <;> decide +kernel

/-- A call of `CTI` or `CTIobj` from any state that can occur. -/
theorem CTI_ok (t : CtiType) (newline : Bool) (o : Option Info) (text : CStr) (st : St) (hs : BufOk st)
    (ht : TextOk text) (hi : ∀ i, o = some i → InfoOk i)
    (he : 0 ≤ st.errors ∧ (t = .error → st.errors + 1 < 2 ^ 31)) (hw : 0 ≤ st.warnings ∧ (t = .warn → st.warnings + 1 < 2 ^ 31)) :
    ∃ body infoText st', CTI t newline o text st = .ok st' ∧
      (∀ st, PrintInfo o st = .ok (st.print infoText)) ∧
      Parts (procS ((116 - (headerOf t).length : Nat) : Int) [] text 0 0) body ∧ BufOk st' ∧
      st'.errors = st.errors + (if t = .error then 1 else 0) ∧
      st'.warnings = st.warnings + (if t = .warn then 1 else 0) ∧
      st'.err = st.err ++ withHeader (headerOf t) body ++ infoText ++ (if newline then [10] else []) := by
  obtain ⟨infoText, hinfo⟩ := PrintInfo_ok o hi
  have hh : (headerOf t).length ≤ 116 := Nat.le_trans (header_length t) (by decide)
  unfold CTI
  rw [header_eq]
  cases t with
  | error =>
    unfold HandleCtiCall
    simp only
    rw [int32_ok _ (by have := he.2 rfl; omega)]
    simp only [Res.bind_ok]
    obtain ⟨body, st', e, hp, hb, e1, e2, e3⟩ := PrintMessage_ok (headerOf .error) text hh newline o
      { st with errors := st.errors + 1 } hs ht infoText hinfo
    exact ⟨body, infoText, st', e, hinfo, hp, hb, by rw [e1]; simp, by rw [e2]; simp, e3⟩
  | warn =>
    unfold HandleCtiCall
    simp only
    rw [int32_ok _ (by have := hw.2 rfl; omega)]
    simp only [Res.bind_ok]
    obtain ⟨body, st', e, hp, hb, e1, e2, e3⟩ := PrintMessage_ok (headerOf .warn) text hh newline o
      { st with warnings := st.warnings + 1 } hs ht infoText hinfo
    exact ⟨body, infoText, st', e, hinfo, hp, hb, by rw [e1]; simp, by rw [e2]; simp, e3⟩
  | note =>
    unfold HandleCtiCall
    simp only [Res.bind_ok]
    obtain ⟨body, st', e, hp, hb, e1, e2, e3⟩ := PrintMessage_ok (headerOf .note) text hh newline o st hs ht infoText hinfo
    exact ⟨body, infoText, st', e, hinfo, hp, hb, by rw [e1]; simp, by rw [e2]; simp, e3⟩
  | state =>
    unfold HandleCtiCall
    simp only [Res.bind_ok]
    obtain ⟨body, st', e, hp, hb, e1, e2, e3⟩ := PrintMessage_ok (headerOf .state) text hh newline o st hs ht infoText hinfo
    exact ⟨body, infoText, st', e, hinfo, hp, hb, by rw [e1]; simp, by rw [e2]; simp, e3⟩

/-! ### Sequences of calls -/

/-- Like `StopsAt`, when `before` says whether there was an error earlier. -/
def StopsIn (before : Bool) (cs : List Call) (i : Nat) : Prop :=
  (cs[i]? = some .abortOnError ∧ (before = true ∨ ∃ c, c ∈ cs.take i ∧ isError c = true)) ∨
  cs[i]? = some .abortCompilation ∨ ∃ r, cs[i]? = some (.abortOutOfMemory r)

theorem stopsIn_false (cs : List Call) (i : Nat) : StopsIn false cs i ↔ StopsAt cs i := by
  unfold StopsIn StopsAt
  simp

theorem stopsIn_succ (before : Bool) (c : Call) (cs : List Call) (i : Nat) :
    StopsIn before (c :: cs) (i + 1) ↔ StopsIn (before || isError c) cs i := by
  unfold StopsIn
  simp only [List.getElem?_cons_succ, List.take_succ_cons, List.mem_cons, Bool.or_eq_true]
  have : (before = true ∨ ∃ x, (x = c ∨ x ∈ cs.take i) ∧ isError x = true) ↔
      ((before = true ∨ isError c = true) ∨ ∃ x, x ∈ cs.take i ∧ isError x = true) := by
    constructor
    · rintro (h | ⟨x, h | h, hx⟩)
      · exact .inl (.inl h)
      · exact .inl (.inr (h ▸ hx))
      · exact .inr ⟨x, h, hx⟩
    · rintro ((h | h) | ⟨x, h, hx⟩)
      · exact .inl h
      · exact .inr ⟨c, .inl rfl, h⟩
      · exact .inr ⟨x, .inr h, hx⟩
  rw [this]

theorem stopsIn_zero (before : Bool) (c : Call) (cs : List Call) :
    StopsIn before (c :: cs) 0 ↔ (c = .abortOnError ∧ before = true) ∨ c = .abortCompilation ∨
      ∃ r, c = .abortOutOfMemory r := by
  unfold StopsIn
  simp

theorem dec_nat (n : Nat) : dec (n : Int) = decNat n := rfl

theorem summary_eq (e w : Nat) : failedText ++ countText e w = summary e w := by
  have h1 : "\n*** Compilation failed ***\n*** ".toUTF8.toList = failedText ++ [42, 42, 42, 32] := by decide +kernel
  have h2 : " Error(s), ".toUTF8.toList = [32, 69, 114, 114, 111, 114, 40, 115, 41, 44, 32] := by decide +kernel
  have h3 : " Warning(s)\n\n".toUTF8.toList = [32, 87, 97, 114, 110, 105, 110, 103, 40, 115, 41, 10, 10] := by
    decide +kernel
  unfold summary countText
  rw [h1, h2, h3, dec_nat, dec_nat]
  simp

theorem isError_eq (t : CtiType) (n : Bool) (o : Option Info) (x : CStr) :
    (if t = .error then 1 else 0 : Nat) = if isError (.message t n o x) = true then 1 else 0 := by
  cases t <;> rfl

theorem isWarning_eq (t : CtiType) (n : Bool) (o : Option Info) (x : CStr) :
    (if t = .warn then 1 else 0 : Nat) = if isWarning (.message t n o x) = true then 1 else 0 := by
  cases t <;> rfl

/-- What a sequence of calls does: it runs to the end, or stops at the first place where it has to. -/
theorem run_spec : ∀ (cs : List Call) (st : St) (e w : Nat), BufOk st → (∀ c ∈ cs, CallOk c) →
    st.errors = e → st.warnings = w → e + cs.length < 2 ^ 31 → w + cs.length < 2 ^ 31 →
    (∃ st', run cs st = .ok (.running st') ∧ (∀ i, ¬ StopsIn (decide (0 < e)) cs i) ∧ BufOk st' ∧
      st'.errors = ((e + cs.countP isError : Nat) : Int) ∧ st'.warnings = ((w + cs.countP isWarning : Nat) : Int)) ∨
    (∃ st' i pre, run cs st = .ok (.exited 1 st') ∧ StopsIn (decide (0 < e)) cs i ∧
      (∀ j < i, ¬ StopsIn (decide (0 < e)) cs j) ∧
      st'.err = pre ++ summary (e + (cs.take i).countP isError + (cs.take (i + 1)).countP isOom)
        (w + (cs.take i).countP isWarning))
  | [], st, e, w, hb, _, he, hw, _, _ => by
    left
    refine ⟨st, rfl, ?_, hb, by simpa using he, by simpa using hw⟩
    intro i h
    unfold StopsIn at h
    simp at h
  | c :: cs, st, e, w, hb, hok, he, hw, hle, hlw => by
    simp only [List.length_cons] at hle hlw
    have hcs : ∀ c ∈ cs, CallOk c := fun x hx => hok x (by simp [hx])
    rw [run]
    cases c with
    | message t nl o text =>
      obtain ⟨ht, hi⟩ : TextOk text ∧ ∀ i, o = some i → InfoOk i := hok (.message t nl o text) (by simp)
      obtain ⟨body, infoText, st', ec, _, _, hb', e1, e2, _⟩ := CTI_ok t nl o text st hb ht hi
        ⟨by omega, fun _ => by omega⟩ ⟨by omega, fun _ => by omega⟩
      have estep : step (.message t nl o text) st = .ok (.running st') := by
        unfold step
        simp only
        rw [ec]
        rfl
      rw [estep]
      simp only [Res.bind_ok]
      have n1 : st'.errors = ((e + (if t = .error then 1 else 0) : Nat) : Int) := by
        rw [e1, he]; by_cases h : t = .error <;> simp [h]
      have n2 : st'.warnings = ((w + (if t = .warn then 1 else 0) : Nat) : Int) := by
        rw [e2, hw]; by_cases h : t = .warn <;> simp [h]
      have b1 : (if t = .error then 1 else 0 : Nat) ≤ 1 := by split <;> omega
      have b2 : (if t = .warn then 1 else 0 : Nat) ≤ 1 := by split <;> omega
      have ih := run_spec cs st' _ _ hb' hcs n1 n2 (by omega) (by omega)
      have hbef : decide (0 < e + (if t = .error then 1 else 0)) =
          (decide (0 < e) || isError (.message t nl o text)) := by
        rw [Bool.eq_iff_iff]
        simp only [decide_eq_true_eq, Bool.or_eq_true]
        cases t <;> simp [isError]
      rw [hbef] at ih
      have n0 : ¬ StopsIn (decide (0 < e)) (.message t nl o text :: cs) 0 := by
        rw [stopsIn_zero]; simp
      have c0 : isOom (.message t nl o text) = false := rfl
      rcases ih with ⟨st2, r, hns, hb2, f1, f2⟩ | ⟨st2, i, pre, r, hst, hmin, herr⟩
      · left
        refine ⟨st2, r, ?_, hb2, ?_, ?_⟩
        · intro i
          cases i with
          | zero => exact n0
          | succ i => rw [stopsIn_succ]; exact hns i
        · rw [f1, List.countP_cons, isError_eq t nl o text]; omega
        · rw [f2, List.countP_cons, isWarning_eq t nl o text]; omega
      · right
        refine ⟨st2, i + 1, pre, r, by rw [stopsIn_succ]; exact hst, ?_, ?_⟩
        · intro j hj
          cases j with
          | zero => exact n0
          | succ j => rw [stopsIn_succ]; exact hmin j (by omega)
        · rw [herr]
          rw [List.take_succ_cons, List.take_succ_cons, List.countP_cons, List.countP_cons, List.countP_cons, c0,
            isError_eq t nl o text, isWarning_eq t nl o text]
          congr 2 <;> (try simp only [Bool.false_eq_true, if_false]) <;> omega
    | abortOnError =>
      have estep : step .abortOnError st = .ok (CTIabortOnError st) := rfl
      rw [estep]
      simp only [Res.bind_ok]
      by_cases hpos : 0 < e
      · have ea : CTIabortOnError st = AbortCompilation st := by
          unfold CTIabortOnError
          have : decide (st.errors > 0) = true := by rw [decide_eq_true_iff]; omega
          rw [this]
        rw [ea]
        right
        refine ⟨_, 0, st.err, rfl, ?_, ?_, ?_⟩
        · rw [stopsIn_zero]; exact .inl ⟨rfl, by simpa using hpos⟩
        · intro j hj; omega
        · simp only [St.print, he, hw, summary_eq]
          simp [isOom]
      · have ea : CTIabortOnError st = .running st := by
          unfold CTIabortOnError
          have : decide (st.errors > 0) = false := by rw [decide_eq_false_iff_not]; omega
          rw [this]
        rw [ea]
        simp only
        have ih := run_spec cs st e w hb hcs he hw (by omega) (by omega)
        have n0 : ¬ StopsIn (decide (0 < e)) (.abortOnError :: cs) 0 := by
          rw [stopsIn_zero]; simp [hpos]
        have hs : ∀ i, StopsIn (decide (0 < e)) (.abortOnError :: cs) (i + 1) ↔ StopsIn (decide (0 < e)) cs i := by
          intro i; rw [stopsIn_succ]; simp [isError]
        rcases ih with ⟨st2, r, hns, hb2, f1, f2⟩ | ⟨st2, i, pre, r, hst, hmin, herr⟩
        · left
          refine ⟨st2, r, ?_, hb2, ?_, ?_⟩
          · intro i
            cases i with
            | zero => exact n0
            | succ i => rw [hs]; exact hns i
          · rw [f1]; simp [isError]
          · rw [f2]; simp [isWarning]
        · right
          refine ⟨st2, i + 1, pre, r, by rw [hs]; exact hst, ?_, ?_⟩
          · intro j hj
            cases j with
            | zero => exact n0
            | succ j => rw [hs]; exact hmin j (by omega)
          · rw [herr]
            simp [isError, isWarning, isOom]
    | abortCompilation =>
      right
      refine ⟨_, 0, st.err, rfl, ?_, ?_, ?_⟩
      · rw [stopsIn_zero]; exact .inr (.inl rfl)
      · intro j hj; omega
      · simp only [St.print, he, hw, summary_eq]
        simp [isOom]
    | abortOutOfMemory r =>
      have estep : ∃ pre, step (.abortOutOfMemory r) st =
          .ok (AbortCompilation { st with err := pre, errors := st.errors + 1 }) := by
        unfold step CTIabortOutOfMemory
        simp only [St.print]
        rw [int32_ok _ (by omega)]
        exact ⟨_, rfl⟩
      obtain ⟨pre, es⟩ := estep
      rw [es]
      right
      refine ⟨_, 0, pre, rfl, ?_, ?_, ?_⟩
      · rw [stopsIn_zero]; exact .inr (.inr ⟨r, rfl⟩)
      · intro j hj; omega
      · have : st.errors + 1 = ((e + 1 : Nat) : Int) := by omega
        simp only [St.print, this, hw, summary_eq]
        simp [isOom]

theorem bufOk_init : BufOk St.init := .inl ⟨rfl, rfl⟩

theorem run_append : ∀ (a b : List Call) (st st' : St), run a st = .ok (.running st') → run (a ++ b) st = run b st'
  | [], b, st, st', h => by
    simp only [run, Res.ok.injEq, Proc.running.injEq] at h
    rw [h]; rfl
  | c :: a, b, st, st', h => by
    rw [run] at h
    rw [List.cons_append, run]
    obtain ⟨p, e1, e2⟩ := Res.bind_eq_ok.1 h
    rw [e1]
    simp only [Res.bind_ok]
    cases p with
    | running s => exact run_append a b s st' e2
    | exited c s => cases e2

end Verif.Spec.Cti
