import Verif.Model.Text
import Verif.Model.Termios

/-!
Model of src/ui.rs (`UI`, `BasicUI`) and src/terminal.rs: prompts, answers and passwords.

The terminal is a state. What the user types is a list of events fixed in advance; the log records what happened, in order, with
the state of the echo at that time.
-/

namespace Rypt.UI

open Text

/-- What a read of one byte from standard input brings; no event left means end of input. Reads that are interrupted are repeated
by `Read::bytes` and not modelled. `bytes()` in src/ui.rs:178-179. -/
inductive Input where
  | byte (b : UInt8)
  | fault
  deriving DecidableEq, Repr

/-- Visible actions. The effects of src/ui.rs:62-71, 130-207. -/
inductive Act where
  /-- text written to standard error -/
  | wrote (s : List Char)
  /-- an event taken from standard input, and whether the terminal echoed it -/
  | read (e : Input) (echo : Bool)
  deriving DecidableEq, Repr

/-- src/ui.rs:74-82 `BasicUI` (without the program name and the progress flag) and the terminal behind it. -/
structure Term where
  /-- events still to come on standard input -/
  stdin : List Input
  /-- the input stream has not been extracted: `input.is_some()` -/
  hasInput : Bool
  inputIsTty : Bool
  outputIsTty : Bool
  verbosity : Int
  /-- the settings of the terminal -/
  tty : Termios
  /-- the fates of the coming changes of the settings; both system calls work when the list is over -/
  tcs : List TcFate
  /-- the fates of the coming writes to standard error: `none` if everything is written, `some n` if there is an error after `n`
  characters; everything is written when the list is over -/
  writes : List (Option Nat)
  log : List Act

/-- The terminal shows what is typed: its `ECHO` flag, src/terminal.rs:56-58. -/
def Term.echo (t : Term) : Bool := t.tty.echoes

/-- src/ui.rs:10 -/
def errorVerbosity : Int := -1
/-- src/ui.rs:11 -/
def interactiveVerbosity : Int := -1

/-- src/ui.rs:126-128. -/
def willPrint (t : Term) (verbosity : Int) : Bool := verbosity ≤ t.verbosity

/-- `write_all`, `write!` and `writeln!` on `output`. src/ui.rs:132, 139, 146, 173. -/
def writeAll (t : Term) (s : List Char) : Res Unit × Term :=
  match t.writes with
  | [] => (.ok (), { t with log := t.log ++ [.wrote s] })
  | none :: ws => (.ok (), { t with writes := ws, log := t.log ++ [.wrote s] })
  | some n :: ws => (.err .io, { t with writes := ws, log := t.log ++ [.wrote (s.take n)] })

/-- src/ui.rs:130-135. -/
def print (t : Term) (verbosity : Int) (message : List Char) : Res Unit × Term :=
  if willPrint t verbosity then writeAll t message else (.ok (), t)

/-- src/ui.rs:29-31. -/
def println (t : Term) (verbosity : Int) (message : List Char) : Res Unit × Term := print t verbosity (message ++ ['\n'])

/-- src/ui.rs:137-142. -/
def printError (t : Term) (programName message : List Char) : Res Unit × Term :=
  if willPrint t errorVerbosity then writeAll t (programName ++ [':', ' '] ++ message ++ ['\n']) else (.ok (), t)

/-- src/ui.rs:144-149. -/
def printlnInteractive (t : Term) (message : List Char) : Res Unit × Term :=
  if willPrint t interactiveVerbosity then writeAll t (message ++ ['\n']) else (.ok (), t)

/-- src/ui.rs:162-167. -/
def canRead (t : Term) : Bool := t.hasInput && t.inputIsTty && t.outputIsTty && willPrint t interactiveVerbosity

/-- src/ui.rs:106-109 `input_stream_extractor`: the stream is handed over, or panic if it was before. -/
def extractInput (t : Term) : Res (List Input) × Term :=
  if t.hasInput then (.ok t.stdin, { t with hasInput := false, stdin := [] }) else (.panic, t)

/-- src/ui.rs:176-202: the loop; `charBytes` and `res` are the variables of the same names. The text itself is not an error value,
so the error for invalid bytes keeps no hex string. -/
def readLine (echo : Bool) : List Input → Bytes → List Char → List Act → Res (List Char) × List Input × List Act
  | [], _, _, log => (.err (.other "EOF"), [], log)
  | .fault :: rest, _, _, log => (.err .io, rest, log ++ [.read .fault echo])
  | .byte b :: rest, charBytes, res, log =>
    let charBytes := charBytes ++ [b]
    let log := log ++ [.read (.byte b) echo]
    match fromUtf8 charBytes with
    | .ok validChar =>
      if validChar = ['\n'] then
        (.ok (if res.getLast? = some '\r' then res.dropLast else res), rest, log)
      else readLine echo rest [] (res ++ validChar) log
    | .err none => readLine echo rest charBytes res log
    | .err (some _) => (.err (.other "non-UTF8"), rest, log)

/-- src/ui.rs:169-203. -/
def readPrompt (t : Term) (prompt : List Char) : Res (List Char) × Term :=
  if ¬ canRead t then (.err (.other "can't read"), t)
  else
    match writeAll t prompt with
    | (.ok (), t) =>
      match readLine t.echo t.stdin [] [] t.log with
      | (r, stdin, log) => (r, { t with stdin := stdin, log := log })
    | (.err e, t) => (.err e, t)
    | (.panic, t) => (.panic, t)

/-- src/ui.rs:205-207, src/terminal.rs:47-62. -/
def setStdinEcho (t : Term) (enable : Bool) : Term :=
  match t.tcs with
  | [] => { t with tty := setEcho t.tty ⟨true, true⟩ enable }
  | f :: fs => { t with tty := setEcho t.tty f enable, tcs := fs }

/-! Termination of the loops that follow: an answer takes at least one byte. -/

theorem writeAll_stdin (t : Term) (s : List Char) : (writeAll t s).2.stdin = t.stdin := by
  unfold writeAll; split <;> rfl

theorem printlnInteractive_stdin (t : Term) (s : List Char) : (printlnInteractive t s).2.stdin = t.stdin := by
  unfold printlnInteractive; split
  · exact writeAll_stdin _ _
  · rfl

theorem readLine_length (echo : Bool) (evs : List Input) (cb : Bytes) (res : List Char) (log : List Act) :
    (readLine echo evs cb res log).2.1.length ≤ evs.length ∧
      ∀ s, (readLine echo evs cb res log).1 = .ok s → (readLine echo evs cb res log).2.1.length < evs.length := by
  fun_induction readLine echo evs cb res log with
  | case1 => simp
  | case2 => simp
  | case3 => simp
  | case4 _ _ _ _ _ _ _ _ _ _ ih => exact ⟨by simp; omega, fun s h => by have := ih.2 s h; simp; omega⟩
  | case5 _ _ _ _ _ _ _ _ ih => exact ⟨by simp; omega, fun s h => by have := ih.2 s h; simp; omega⟩
  | case6 => simp

theorem readPrompt_length {t t' : Term} {prompt s : List Char} (h : readPrompt t prompt = (.ok s, t')) :
    t'.stdin.length < t.stdin.length := by
  unfold readPrompt at h
  split at h
  · cases h
  · split at h
    · rename_i t1 hw
      have h1 := readLine_length t1.echo t1.stdin [] [] t1.log
      have h2 := writeAll_stdin t prompt
      rw [hw] at h2
      simp only [Prod.mk.injEq] at h
      obtain ⟨h3, rfl⟩ := h
      have := h1.2 s h3
      rw [← h2]
      exact this
    · cases h
    · cases h

/-- src/ui.rs:50-59: the loop of `read_prompt_bool`. -/
def readPromptBoolLoop (t : Term) (prompt : List Char) (dflt : Bool) : Res (Option Bool) × Term :=
  match _h : readPrompt t prompt with
  | (.ok s, t1) =>
    let s := s.map toAsciiLowercase
    if s = ['y'] ∨ s = ['y', 'e', 's'] then (.ok (some true), t1)
    else if s = ['n'] ∨ s = ['n', 'o'] then (.ok (some false), t1)
    else if s = [] then (.ok (some dflt), t1)
    else
      match _h2 : printlnInteractive t1 "Invalid input, please enter 'y' or 'n'.".toList with
      | (.ok (), t2) => readPromptBoolLoop t2 prompt dflt
      | (.err e, t2) => (.err e, t2)
      | (.panic, t2) => (.panic, t2)
  | (.err e, t1) => (.err e, t1)
  | (.panic, t1) => (.panic, t1)
termination_by t.stdin.length
decreasing_by
  have h1 := readPrompt_length _h
  have h3 := printlnInteractive_stdin t1 "Invalid input, please enter 'y' or 'n'.".toList
  rw [_h2] at h3
  rw [h3]; exact h1

/-- src/ui.rs:38-60. -/
def readPromptBool (t : Term) (verbosity : Int) (prompt : List Char) (dflt : Bool) : Res (Option Bool) × Term :=
  if !canRead t || !willPrint t verbosity then (.ok none, t)
  else
    let ynHelper := if dflt then "[Y/n]".toList else "[y/N]".toList
    readPromptBoolLoop t (prompt ++ [' '] ++ ynHelper ++ [':', ' ']) dflt

/-- src/ui.rs:62-71. -/
def readPassword (t : Term) (prompt : List Char) : Res (List Char) × Term :=
  if ¬ canRead t then (.err (.other "can't read"), t)
  else
    match readPrompt (setStdinEcho t false) prompt with
    | (res, t) =>
      match printlnInteractive (setStdinEcho t true) [] with
      | (.ok (), t) => (res, t)
      | (.err e, t) => (.err e, t)
      | (.panic, t) => (.panic, t)

theorem setStdinEcho_stdin (t : Term) (b : Bool) : (setStdinEcho t b).stdin = t.stdin := by
  unfold setStdinEcho; split <;> rfl

theorem readPassword_length {t t' : Term} {prompt s : List Char} (h : readPassword t prompt = (.ok s, t')) :
    t'.stdin.length < t.stdin.length := by
  unfold readPassword at h
  split at h
  · cases h
  · split at h
    rename_i res t1 hr
    have h2 := printlnInteractive_stdin (setStdinEcho t1 true) []
    split at h
    · rename_i t2 hp
      cases h
      have := readPrompt_length hr
      rw [hp] at h2
      rw [h2]
      rw [setStdinEcho_stdin] at this ⊢
      exact this
    · cases h
    · cases h

end Rypt.UI
