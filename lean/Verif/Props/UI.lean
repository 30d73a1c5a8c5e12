import Verif.Proofs.Passwords

/-! Properties C47, C48, C49, C66, C69: prompts and passwords. -/

namespace Rypt.Props

open UI Cli Spec

/-! ## C48 -/

/-- C48: a line typed, ended by LF or CRLF, is the answer, and what follows stays in the input. -/
theorem prompt_reads_line (t : Term) (prompt s : List Char) (l rest : List Input) (hc : CanPrompt t) (hw : WritesWork t)
    (hl : LineOf s l) (h : t.stdin = l ++ rest) :
    ∃ t', readPrompt t prompt = (.ok s, t') ∧ t'.stdin = rest := readPrompt_of_line prompt hc hw hl h

/-- C48: an answer is always a line that was typed, and what follows stays in the input. -/
theorem prompt_answer_is_line (t t' : Term) (prompt s : List Char) (h : readPrompt t prompt = (.ok s, t')) :
    ∃ l, LineOf s l ∧ t.stdin = l ++ t'.stdin := (line_of_readPrompt h).2

/-- C48: whatever is in the input, no byte after the first newline is read, and there is no panic. -/
theorem prompt_reads_at_most_one_line (t : Term) (prompt : List Char) :
    (∃ pre, t.stdin = pre ++ (readPrompt t prompt).2.stdin ∧ enter ∉ pre.dropLast) ∧ (readPrompt t prompt).1 ≠ .panic :=
  ⟨(readPrompt_frame t prompt).2.2.2.1, (readPrompt_frame t prompt).2.2.1⟩

/-- C48: when a prompt is possible it gives an error iff the input does not begin with a line: end of input before a newline,
bytes that are not UTF-8, or a read error. -/
theorem prompt_error_iff (t : Term) (prompt : List Char) (hc : CanPrompt t) (hw : WritesWork t) :
    (∃ e t', readPrompt t prompt = (.err e, t')) ↔ ¬ ∃ s l rest, LineOf s l ∧ t.stdin = l ++ rest := by
  have hnp := (readPrompt_frame t prompt).2.2.1
  constructor
  · rintro ⟨e, t', h⟩ ⟨s, l, rest, hl, hst⟩
    obtain ⟨t'', h2, -⟩ := readPrompt_of_line prompt hc hw hl hst
    rw [h] at h2; cases h2
  · intro hno
    generalize hr : readPrompt t prompt = r at *
    obtain ⟨r, t'⟩ := r
    cases r with
    | err e => exact ⟨e, t', rfl⟩
    | panic => exact absurd rfl hnp
    | ok s =>
      obtain ⟨-, l, hl, hst⟩ := line_of_readPrompt hr
      exact absurd ⟨s, l, _, hl, hst⟩ hno

/-- C48: no answer is taken, and nothing is read, before the whole question has been written. -/
theorem prompt_shown_first (t t' : Term) (prompt : List Char) (r : Res (List Char)) (h : readPrompt t prompt = (r, t'))
    (hr : (∃ s, r = .ok s) ∨ t'.stdin ≠ t.stdin) :
    ∃ reads, t'.log = t.log ++ .wrote prompt :: reads ∧ ∀ a ∈ reads, ∃ i, a = .read i t.echo := by
  have key : ∀ (e : Bool) (inp : List Input) (cb : Bytes) (res : List Char) (log : List Act), ∃ reads,
      (readLine e inp cb res log).2.2 = log ++ reads ∧ ∀ a ∈ reads, ∃ i, a = .read i e := by
    intro e inp cb res log
    fun_induction readLine e inp cb res log with
    | case1 => exact ⟨[], by simp, by simp⟩
    | case2 => exact ⟨_, rfl, by simp⟩
    | case3 => exact ⟨_, rfl, by simp⟩
    | case4 _ _ _ _ _ _ _ _ _ _ ih =>
      obtain ⟨reads, h1, h2⟩ := ih
      exact ⟨_ :: reads, h1.trans (List.append_assoc _ _ _), fun a ha => (List.mem_cons.mp ha).elim (fun h => ⟨_, h⟩) (h2 a)⟩
    | case5 _ _ _ _ _ _ _ _ ih =>
      obtain ⟨reads, h1, h2⟩ := ih
      exact ⟨_ :: reads, h1.trans (List.append_assoc _ _ _), fun a ha => (List.mem_cons.mp ha).elim (fun h => ⟨_, h⟩) (h2 a)⟩
    | case6 => exact ⟨_, rfl, by simp⟩
  unfold readPrompt at h
  split_ifs at h with hc
  · unfold writeAll at h
    split at h
    · rename_i u t1 hw
      split at hw
      · cases hw
        obtain ⟨reads, h1, h2⟩ := key t.echo t.stdin [] [] (t.log ++ [.wrote prompt])
        cases h
        exact ⟨reads, h1.trans (by simp), h2⟩
      · cases hw
        obtain ⟨reads, h1, h2⟩ := key t.echo t.stdin [] [] (t.log ++ [.wrote prompt])
        cases h
        exact ⟨reads, h1.trans (by simp), h2⟩
      · cases hw
    · rename_i e t1 hw
      split at hw <;> cases hw
      cases h
      simp at hr
    · rename_i t1 hw
      split at hw <;> cases hw
  · cases h
    simp at hr

/-- A terminal with a line in Greek, with CRLF, and another line. -/
def sampleTerm (stdin : List Input) : Term :=
  { stdin := stdin, hasInput := true, inputIsTty := true, outputIsTty := true, verbosity := 0, tty := sampleTty, tcs := [],
    writes := [], log := [] }

example (stdin : List Input) : CanPrompt (sampleTerm stdin) ∧ WritesWork (sampleTerm stdin) :=
  ⟨⟨rfl, rfl, rfl, by simp [sampleTerm]⟩, by intro w hw; simp [sampleTerm] at hw⟩
example : LineOf "π x".toList (typed "π x".toList ++ [.byte 13, enter]) := .crlf _ (by decide)
example : (readPrompt (sampleTerm (typed "π x\r\nno\n".toList)) "?".toList).1 = .ok "π x".toList ∧
    (readPrompt (sampleTerm (typed "π x\r\nno\n".toList)) "?".toList).2.stdin = typed "no\n".toList := by
  constructor <;> decide +kernel
example : (readPrompt (sampleTerm [.byte 0xC3, .byte 0x28, enter]) "?".toList).1 = .err (.other "non-UTF8") := by decide +kernel
example : (readPrompt (sampleTerm (typed "no".toList)) "?".toList).1 = .err (.other "EOF") := by decide +kernel

/-! ## C49 -/

/-- C49: an answer was typed and means what is returned; the lines before it mean nothing. -/
theorem yes_no_was_typed (t t' : Term) (v : Int) (prompt : List Char) (dflt b : Bool)
    (h : readPromptBool t v prompt dflt = (.ok (some b), t')) :
    CanPrompt t ∧ v ≤ t.verbosity ∧ ∃ pre s l, t.stdin = pre ++ l ++ t'.stdin ∧ LineOf s l ∧ Means dflt s b ∧
      Lines (fun s => ∀ b, ¬ Means dflt s b) pre := readPromptBool_some h

/-- C49: meaningless lines are asked again, and the first meaningful line is the answer. -/
theorem yes_no_typed (t : Term) (v : Int) (prompt s : List Char) (dflt b : Bool) (pre l rest : List Input) (hc : CanPrompt t)
    (hv : v ≤ t.verbosity) (hw : WritesWork t) (hpre : Lines (fun s => ∀ b, ¬ Means dflt s b) pre) (hl : LineOf s l)
    (hm : Means dflt s b) (hst : t.stdin = pre ++ l ++ rest) :
    ∃ t', readPromptBool t v prompt dflt = (.ok (some b), t') ∧ t'.stdin = rest := by
  unfold readPromptBool
  rw [if_neg]
  · exact readPromptBoolLoop_of_lines _ _ hpre hl hm t hc hw hst
  · simp only [Bool.or_eq_true, Bool.not_eq_true', not_or, Bool.not_eq_false]
    exact ⟨(canRead_iff t).2 hc, decide_eq_true hv⟩

/-- C49: no answer is returned iff asking is impossible, and then nothing is read or written. -/
theorem yes_no_silent_iff (t t' : Term) (v : Int) (prompt : List Char) (dflt : Bool) :
    readPromptBool t v prompt dflt = (.ok none, t') ↔ (¬ CanPrompt t ∨ t.verbosity < v) ∧ t' = t := by
  have hcond : (!canRead t || !willPrint t v) = true ↔ (¬ CanPrompt t ∨ t.verbosity < v) := by
    rw [Bool.or_eq_true, ← canRead_iff]
    simp only [Bool.not_eq_true']
    exact or_congr (by simp) (by unfold willPrint; rw [decide_eq_false_iff_not, Int.not_le])
  unfold readPromptBool
  split
  · rename_i h
    simp [hcond.1 h, eq_comm]
  · rename_i h
    constructor
    · intro h2
      obtain ⟨b, _, _, _, hb, _⟩ := readPromptBoolLoop_ok _ _ _ h2
      cases hb
    · rintro ⟨h2, -⟩
      exact absurd (hcond.2 h2) h

/-- C49: true is never the answer to a question with default no unless `y` or `yes` was typed. -/
theorem yes_needs_yes (t t' : Term) (v : Int) (prompt : List Char) (h : readPromptBool t v prompt false = (.ok (some true), t')) :
    ∃ pre s l, t.stdin = pre ++ l ++ t'.stdin ∧ LineOf s l ∧ Yes s := by
  obtain ⟨-, -, pre, s, l, h1, h2, h3, -⟩ := readPromptBool_some h
  refine ⟨pre, s, l, h1, h2, ?_⟩
  rcases h3 with ⟨hy, -⟩ | ⟨-, hb⟩ | ⟨-, hb⟩
  · exact hy
  · cases hb
  · cases hb

example : (readPromptBool (sampleTerm (typed "yep\nyES\nrest".toList)) 0 "?".toList false).1 = .ok (some true) ∧
    (readPromptBool (sampleTerm (typed "yep\nyES\nrest".toList)) 0 "?".toList false).2.stdin = typed "rest".toList := by
  constructor <;> decide +kernel
example : (readPromptBool (sampleTerm (typed "\n".toList)) 0 "?".toList true).1 = .ok (some true) := by decide +kernel
example : (readPromptBool (sampleTerm (typed "y\n".toList)) 1 "?".toList true).1 = .ok none := by decide +kernel
example : Means false "yES".toList true := .inl ⟨.inr ⟨'y', 'E', 'S', rfl, by decide⟩, rfl⟩

/-! ## C47 -/

/-- C47: a password is not empty, and was typed: twice in succession when encrypting. All attempts before were empty lines or
(when encrypting) two different lines. -/
theorem password_was_confirmed (dir : CryptDirection) (t t' : Term) (name : Option (List Char)) (pw : List Char)
    (h : readPasswordInteractively dir t name = (.ok pw, t')) :
    pw ≠ [] ∧ ∃ pre l, t.stdin = pre ++ l ++ t'.stdin ∧ Attempts dir pre ∧ Entered dir pw l := by
  unfold readPasswordInteractively at h
  split at h
  · cases h
  · exact passwordLoop_ok _ _ _ h

/-- C47: a password that is typed properly is used. -/
theorem password_confirmed_is_used (dir : CryptDirection) (t : Term) (name : Option (List Char)) (pw : List Char)
    (pre l rest : List Input) (hc : CanPrompt t) (hw : WritesWork t) (hpre : Attempts dir pre) (hne : pw ≠ [])
    (hl : Entered dir pw l) (hst : t.stdin = pre ++ l ++ rest) :
    ∃ t', readPasswordInteractively dir t name = (.ok pw, t') ∧ t'.stdin = rest := by
  unfold readPasswordInteractively
  rw [if_neg (by simp [(canRead_iff t).2 hc])]
  exact passwordLoop_of_lines dir _ hpre hne hl t hc hw hst

/-- C47: if the lines of the user are never a password entered properly, there is no password. -/
theorem no_password_without_confirmation (dir : CryptDirection) (t : Term) (name : Option (List Char))
    (h : ¬ ∃ pre l rest pw, t.stdin = pre ++ l ++ rest ∧ Attempts dir pre ∧ pw ≠ [] ∧ Entered dir pw l) :
    ∃ e t', readPasswordInteractively dir t name = (.err e, t') := by
  have hnp : (readPasswordInteractively dir t name).1 ≠ .panic := by
    unfold readPasswordInteractively
    split
    · simp
    · exact (passwordLoop_frame _ _ _).2.1
  generalize hr : readPasswordInteractively dir t name = r at *
  obtain ⟨r, t'⟩ := r
  cases r with
  | err e => exact ⟨e, t', rfl⟩
  | panic => exact absurd rfl hnp
  | ok pw =>
    obtain ⟨h1, pre, l, h2, h3, h4⟩ := password_was_confirmed dir t t' name pw hr
    exact absurd ⟨pre, l, _, pw, h2, h3, h1, h4⟩ h

/-- A typo, an empty line, and the password twice. -/
example : (readPasswordInteractively .encrypt (sampleTerm (typed "abc\nabd\n\nabc\nabc\nrest".toList)) none).1 =
      .ok "abc".toList ∧
    (readPasswordInteractively .encrypt (sampleTerm (typed "abc\nabd\n\nabc\nabc\nrest".toList)) none).2.stdin =
      typed "rest".toList := by
  constructor <;> decide +kernel
example : Attempts .encrypt (typed "abc".toList ++ [enter] ++ (typed "abd".toList ++ [enter]) ++ []) :=
  .mismatch "abc".toList "abd".toList _ _ _ rfl (.lf _ (by decide) (by decide)) (by decide) (.lf _ (by decide) (by decide))
    (by decide) .nil
example : Entered .encrypt "abc".toList (typed "abc".toList ++ [enter] ++ (typed "abc".toList ++ [enter])) :=
  ⟨_, _, rfl, .lf _ (by decide) (by decide), .lf _ (by decide) (by decide)⟩
/-- Typed passwords keep their spaces, unlike lines of password files. -/
example : (readPasswordInteractively .decrypt (sampleTerm (typed " x \n".toList)) none).1 = .ok " x ".toList := by
  decide +kernel

/-! ## C66 -/

/-- C66: when prompting is impossible, nothing is read, nothing is written, and nothing is changed. -/
theorem no_prompt_no_effect (t : Term) (h : ¬ CanPrompt t) (prompt : List Char) (v : Int) (dflt : Bool) (dir : CryptDirection)
    (name : Option (List Char)) :
    (readPrompt t prompt).2 = t ∧ (readPromptBool t v prompt dflt) = (.ok none, t) ∧ (readPassword t prompt).2 = t ∧
      (readPasswordInteractively dir t name).2 = t ∧ (readPrompt t prompt).1.isOk = false ∧
      (readPassword t prompt).1.isOk = false ∧ (readPasswordInteractively dir t name).1.isOk = false := by
  have hc : canRead t = false := by
    cases hb : canRead t with
    | false => rfl
    | true => exact absurd ((canRead_iff t).1 hb) h
  refine ⟨?_, ?_, ?_, ?_, ?_, ?_, ?_⟩
  · unfold readPrompt; simp [hc]
  · exact (yes_no_silent_iff _ _ _ _ _).2 ⟨.inl h, rfl⟩
  · unfold readPassword; simp [hc]
  · unfold readPasswordInteractively; simp [hc]
  · unfold readPrompt; simp [hc, Res.isOk]
  · unfold readPassword; simp [hc, Res.isOk]
  · unfold readPasswordInteractively; simp [hc, Res.isOk]

/-- C66: handing over the input gives all that has not been read, and prompting is impossible from then on; the input can be
handed over only once. -/
theorem input_given_away (t t' : Term) (evs : List Input) (h : extractInput t = (.ok evs, t')) :
    evs = t.stdin ∧ ¬ CanPrompt t' ∧ (extractInput t').1 = .panic := by
  unfold extractInput at h
  split at h
  · cases h
    exact ⟨rfl, fun hc => by simp [CanPrompt] at hc, by simp [extractInput]⟩
  · cases h

/-- C66: whether prompting is possible does not change by prompting. -/
theorem can_prompt_stable (t : Term) (prompt : List Char) (v : Int) (dflt : Bool) (dir : CryptDirection)
    (name : Option (List Char)) :
    (CanPrompt (readPrompt t prompt).2 ↔ CanPrompt t) ∧ (CanPrompt (readPromptBool t v prompt dflt).2 ↔ CanPrompt t) ∧
      (CanPrompt (readPassword t prompt).2 ↔ CanPrompt t) ∧
      (CanPrompt (readPasswordInteractively dir t name).2 ↔ CanPrompt t) := by
  have key : ∀ {t'}, Frame t t' → (CanPrompt t' ↔ CanPrompt t) := by
    intro t' hf
    rw [← canRead_iff, ← canRead_iff, hf.canRead]
  refine ⟨key (readPrompt_frame t prompt).1, key ?_, key (readPassword_frame t prompt).1, key ?_⟩
  · unfold readPromptBool
    split
    · exact .refl t
    · exact (readPromptBoolLoop_frame _ _ _).1
  · unfold readPasswordInteractively
    split
    · exact .refl t
    · exact (passwordLoop_frame _ _ _).1

example : ¬ CanPrompt { sampleTerm [] with verbosity := -2 } := by simp [CanPrompt, sampleTerm]
example : CanPrompt { sampleTerm [] with verbosity := -1 } := by simp [CanPrompt, sampleTerm]

/-! ## C69 -/

/-- C69: while a password is typed, nothing is echoed if the terminal does what it is told; afterwards the echo is on, whatever the
outcome. Only the prompt and a newline are written. -/
theorem password_not_echoed (t : Term) (prompt : List Char) (hc : CanPrompt t) (ho : Obeys t) :
    (readPassword t prompt).2.echo = true ∧
      ∃ acts, (readPassword t prompt).2.log = t.log ++ acts ∧
        ∀ a ∈ acts, (∃ e, a = .read e false) ∨ ∃ s, a = .wrote s ∧ (s <+: prompt ∨ s <+: ['\n']) := by
  obtain ⟨-, -, h1, -, -, acts, h2, h3⟩ := readPassword_frame t prompt
  exact ⟨(h1 ho hc).echoes, acts, h2, fun a ha => (h3 a ha).imp_left fun ⟨e, b, h4, h5⟩ => ⟨e, h5 ho ▸ h4⟩⟩

/-- What the dialogue writes: fixed messages, or a part of one if writing fails. -/
def dialogueMessages : List (List Char) :=
  ["Enter password: ".toList, "\n".toList, "Confirm password: ".toList,
    "Password can not be empty, try again.\n".toList, "Passwords don't match, try again.\n".toList]

/-- C69: the same for the whole dialogue. -/
theorem password_dialogue_not_echoed (dir : CryptDirection) (t : Term) (hc : CanPrompt t) (ho : Obeys t) :
    (readPasswordInteractively dir t none).2.echo = true ∧
      ∃ acts, (readPasswordInteractively dir t none).2.log = t.log ++ acts ∧
        ∀ a ∈ acts, (∃ e, a = .read e false) ∨ ∃ s m, a = .wrote s ∧ s <+: m ∧ m ∈ dialogueMessages := by
  unfold readPasswordInteractively
  rw [if_neg (by simp [(canRead_iff t).2 hc])]
  refine ⟨((passwordLoop_frame _ _ _).2.2.1 ho hc).echoes, ?_⟩
  obtain ⟨acts, h1, h2⟩ := (passwordLoop_frame dir t ("Enter password".toList ++ [] ++ [':', ' '])).2.2.2
  refine ⟨acts, h1, fun a ha => ?_⟩
  rcases h2 a ha with ⟨e, b, h, hb⟩ | ⟨s, hs, h⟩
  · exact .inl ⟨e, hb ho ▸ h⟩
  · rcases h with h | h | h | h | h <;> exact .inr ⟨s, _, hs, h, by simp [dialogueMessages]⟩

/-- C69: whatever the terminal does, what was typed is not written: only fixed messages are. -/
theorem password_never_written (dir : CryptDirection) (t : Term) :
    ∃ acts, (readPasswordInteractively dir t none).2.log = t.log ++ acts ∧
      ∀ s, .wrote s ∈ acts → ∃ m ∈ dialogueMessages, s <+: m := by
  unfold readPasswordInteractively
  split
  · exact ⟨[], by simp, by simp⟩
  · obtain ⟨acts, h1, h2⟩ := (passwordLoop_frame dir t ("Enter password".toList ++ [] ++ [':', ' '])).2.2.2
    refine ⟨acts, h1, fun s ha => ?_⟩
    rcases h2 _ ha with ⟨e, b, h, hb⟩ | ⟨s, hs, h⟩
    · cases h
    · cases hs
      rcases h with h | h | h | h | h <;> exact ⟨_, by simp [dialogueMessages], h⟩

/-- C69, C97: the code does not look whether the echo could be switched off. If it could not, and it was on, every byte of the
password is shown while it is typed. -/
theorem password_shown_if_refused (t : Term) (prompt : List Char) (hs : ∃ f fs, t.tcs = f :: fs ∧ f.set = false) (he : t.echo = true) :
    ∃ acts, (readPassword t prompt).2.log = t.log ++ acts ∧ ∀ e b, .read e b ∈ acts → b = true := by
  obtain ⟨f, fs, h1, h2⟩ := hs
  have hno : (setStdinEcho t false).tty = t.tty := by unfold setStdinEcho; rw [h1]; simp [setEcho, h2]
  unfold readPassword
  split
  · exact ⟨[], by simp, by simp⟩
  · obtain ⟨-, -, -, -, acts, ha, ha'⟩ := readPrompt_frame (setStdinEcho t false) prompt
    generalize readPrompt (setStdinEcho t false) prompt = r at *
    obtain ⟨r, t1⟩ := r
    simp only at *
    have hw := printlnInteractive_wrote (setStdinEcho t1 true) []
    generalize printlnInteractive (setStdinEcho t1 true) [] = q at *
    obtain ⟨q, t2⟩ := q
    obtain ⟨acts2, hb, hb'⟩ := hw.log
    simp only at *
    have key : t2.log = t.log ++ (acts ++ acts2) ∧ ∀ e b, Act.read e b ∈ acts ++ acts2 → b = true := by
      refine ⟨by rw [hb, (setStdinEcho_keeps t1 true).2.2.2.2.2.2.1, ha, (setStdinEcho_keeps t false).2.2.2.2.2.2.1, List.append_assoc],
        fun e b hm => ?_⟩
      rcases List.mem_append.1 hm with hm | hm
      · rcases ha' _ hm with ⟨e', b', h3, h4⟩ | ⟨s, h3, -⟩
        · cases h3; rw [h4]; unfold Term.echo at he ⊢; rw [hno]; exact he
        · cases h3
      · obtain ⟨s, h3, -⟩ := hb' _ hm; cases h3
    cases q with
    | ok u => exact ⟨_, key⟩
    | err e => exact ⟨_, key⟩
    | panic => exact ⟨_, key⟩

/-! ## C97 -/

/-- C97: what password entry does to the settings of a terminal that does what it is told: the echo is on afterwards, and everything
else is as before. -/
theorem password_settings (dir : CryptDirection) (t : Term) (name : Option (List Char)) (hc : CanPrompt t) (ho : Obeys t) :
    EchoOn t.tty (readPasswordInteractively dir t name).2.tty := by
  unfold readPasswordInteractively
  rw [if_neg (by simp [(canRead_iff t).2 hc])]
  exact (passwordLoop_frame _ _ _).2.2.1 ho hc

/-- C97, full statement: entering a password leaves the settings of the terminal as they were. Proved for terminals that do what they
are told and that have their echo on; missing are the other terminals, for which it is false: `password_switches_echo_on`,
`password_ruins_settings`. -/
theorem password_keeps_settings_partial (dir : CryptDirection) (t : Term) (name : Option (List Char)) (ho : Obeys t)
    (he : t.echo = true) : (readPasswordInteractively dir t name).2.tty = t.tty := by
  by_cases hc : CanPrompt t
  · exact (password_settings dir t name hc ho).eq he
  · unfold readPasswordInteractively
    rw [if_pos (by simpa [canRead_iff] using hc)]

/-- C97: other questions do not touch the settings of the terminal. -/
theorem yes_no_keeps_settings (t : Term) (verbosity : Int) (prompt : List Char) (dflt : Bool) :
    (readPromptBool t verbosity prompt dflt).2.tty = t.tty := by
  unfold readPromptBool
  split
  · rfl
  · exact readPromptBoolLoop_tty _ _ _

/-- C97: the echo that the user had switched off is on afterwards. -/
theorem password_switches_echo_on (dir : CryptDirection) (t : Term) (name : Option (List Char)) (hc : CanPrompt t) (ho : Obeys t)
    (he : t.echo = false) : (readPasswordInteractively dir t name).2.tty ≠ t.tty := by
  intro h
  have := (password_settings dir t name hc ho).echoes
  rw [h] at this
  exact absurd (this.symm.trans he) (by decide)

/-- C97: if the settings cannot be read at the end, all of them are replaced by zeros (and the echo). -/
theorem password_ruins_settings : ∃ (t : Term) (prompt : List Char), CanPrompt t ∧ t.echo = true ∧
    (readPassword t prompt).1 = .ok "se".toList ∧ (readPassword t prompt).2.tty = { Termios.zeroed with lflag := 8#32 } ∧
    (readPassword t prompt).2.tty ≠ t.tty :=
  ⟨{ sampleTerm (typed "se\n".toList) with tcs := [⟨true, true⟩, ⟨false, true⟩] }, "?".toList, ⟨rfl, rfl, rfl, by simp [sampleTerm]⟩, by decide +kernel,
    by decide +kernel, by decide +kernel, by decide +kernel⟩

/-- The hypotheses are met by a terminal with its usual settings; when the echo was off before, it is on after. -/
example : Obeys (sampleTerm []) ∧ CanPrompt (sampleTerm []) ∧ (sampleTerm []).echo = true :=
  ⟨by intro f hf; simp [sampleTerm] at hf, ⟨rfl, rfl, rfl, by simp [sampleTerm]⟩, by decide⟩
example : Obeys { sampleTerm [] with tty := { sampleTty with lflag := 0x8A33#32 } } ∧
    Term.echo { sampleTerm [] with tty := { sampleTty with lflag := 0x8A33#32 } } = false ∧
    (readPasswordInteractively .decrypt { sampleTerm (typed "a\n".toList) with tty := { sampleTty with lflag := 0x8A33#32 } } none).2.tty =
      { sampleTty with lflag := 0x8A3B#32 } :=
  ⟨by intro f hf; simp [sampleTerm] at hf, by decide, by decide +kernel⟩
example : (readPassword { sampleTerm (typed "s\n".toList) with tcs := [⟨true, false⟩] } "?".toList).2.log =
    [.wrote "?".toList, .read (.byte 115) true, .read (.byte 10) true, .wrote "\n".toList] := by decide +kernel

/-- End of input in the middle of a password: the echo is on again. -/
example : (readPassword (sampleTerm (typed "se".toList)) "?".toList).1 = .err (.other "EOF") ∧
    (readPassword (sampleTerm (typed "se".toList)) "?".toList).2.log =
      [.wrote "?".toList, .read (.byte 115) false, .read (.byte 101) false, .wrote "\n".toList] := by
  constructor <;> decide +kernel

end Rypt.Props
