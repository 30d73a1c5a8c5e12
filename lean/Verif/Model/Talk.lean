import Verif.Model.GenKeys
import Verif.Model.Reports
import Verif.Model.ProgressText

/-!
Model of what src/commands/crypt.rs says on standard error while it converts files, and of the question at the end, with the terminal
the program really has. It refines `CryptStreams.Step`: every step here is one of these steps, or a progress line.
-/

namespace Rypt.CryptStreams

open Progress UI Cli Filesystem

/-- src/terminal.rs:3. -/
def clearLine : List Char := [Char.ofNat 0x1B, '[', '2', 'K']

/-- src/progress.rs:15. -/
def progressVerbosity : Int := 0

/-- src/ui.rs:151-158. -/
def printlnProgress (ui : Ui) (verbosity : Int) (message : List Char) (finish : Bool) : Res Unit × Term :=
  if ui.progress then
    let lastChar := if finish then '\n' else '\r'
    print ui.term verbosity (clearLine ++ message ++ [lastChar])
  else (.ok (), ui.term)

/-- src/io_streams.rs:18-23. Paths are texts, so `to_string_lossy` does nothing. -/
def inputPath : Input → List Char
  | .file p => p
  | .fileStream p => p
  | .stdin => "(stdin)".toList

/-- src/progress.rs:52-60. -/
def fileHeader (s : Stream) (idx total : Nat) : List Char :=
  inputPath s.input ++ " -> ".toList ++
    (match s.output with
    | some out => GenKeys.outputPath out
    | none => "(error)".toList) ++
    " (".toList ++ Human.decimal (idx + 1) ++ "/".toList ++ Human.decimal total ++ ")".toList

/-- src/progress.rs:61: failure to print is ignored. -/
def sayHeader (ui : Ui) (s : Stream) (idx total : Nat) : Ui :=
  { ui with term := (println ui.term progressVerbosity (fileHeader s idx total)).2 }

/-- src/commands/crypt.rs:78, 83, 104: failure to print is ignored. -/
def sayError (ui : Ui) (name message : List Char) : Ui := { ui with term := (printError ui.term name message).2 }

/-- src/io_streams.rs:76-78, 156-158; the reason comes from the system. -/
def notDeletedMessage (path reason : List Char) : List Char := "Error deleting '".toList ++ path ++ "': ".toList ++ reason

/-- src/commands/crypt.rs:83, 104 with src/io_streams.rs:80-83, 159-162: not reported if forced. -/
def sayNotDeleted (ui : Ui) (force : Bool) (name path reason : List Char) : Ui :=
  if force then ui else sayError ui name (notDeletedMessage path reason)

/-- src/progress.rs:116-119: failure to print is ignored. -/
def sayLine (ui : Ui) (text : List Char) (finish : Bool) : Ui :=
  { ui with term := (printlnProgress ui progressVerbosity text finish).2 }

/-- The progress display of the file at hand, src/commands/crypt.rs:28: when it was made and what it was told. -/
structure Live where
  start : Nat
  calls : List (Nat × Nat)
  printer : Printer

/-- The state with the terminal. `begun` is `file_idx`, or one more when the file is begun (src/commands/crypt.rs:21); `live` is
`progress_printer` while there is one. -/
structure TState where
  st : State
  begun : Nat
  live : Option Live
  ui : Ui

/-- src/progress.rs:64-121: an update of the display. -/
inductive Update (lv : Live) (ui : Ui) (bytes now : Nat) : Live → Ui → Prop where
  | quiet (pr : Printer) : lv.printer.printProgress bytes now = .ok (pr, none) →
      Update lv ui bytes now ⟨lv.start, lv.calls ++ [(bytes, now)], pr⟩ ui
  | line (pr : Printer) (l : Line) (text : List Char) : lv.printer.printProgress bytes now = .ok (pr, some l) →
      formatLine lv.printer.filesize l = .ok text →
      Update lv ui bytes now ⟨lv.start, lv.calls ++ [(bytes, now)], pr⟩ (sayLine ui text false)

/-- src/progress.rs:150-156: the display is dropped. -/
inductive Dropped (lv : Live) (ui : Ui) : Ui → Prop where
  | quiet : lv.printer.drop = .ok none → Dropped lv ui ui
  | line (l : Line) (text : List Char) : lv.printer.drop = .ok (some l) → formatLine lv.printer.filesize l = .ok text →
      Dropped lv ui (sayLine ui text true)

/-- Standard input is handed over if it is to be converted. src/io_streams.rs:61-64, src/ui.rs:106-109. -/
def takesStdin (s : Stream) (ui : Ui) : Res Ui :=
  if s.input = .stdin then
    match extractInput ui.term with
    | (.ok _, t) => .ok { ui with term := t }
    | (.err e, _) => .err e
    | (.panic, _) => .panic
  else .ok ui

/-- The steps with what they say; no label for progress lines. src/commands/crypt.rs:21-114, and src/main.rs:62-67 where an error of
the terminal is reported. Messages of errors are arbitrary, except for the path in those about deletion. -/
inductive TStep (cfg : Config) (name : List Char) : TState → Option Label → TState → Prop where
  /-- lines 28-40, 78: the header, then the error. The display is dropped without a line. -/
  | beginFails (ts : TState) (s : Stream) (rest : List Stream) (st' : State) (msg : List Char) :
      ts.st.pc = .next → ts.st.todo = s :: rest → Step cfg ts.st .tau st' → st'.pc = .failing s none →
      TStep cfg name ts (some .tau)
        ⟨st', ts.begun + 1, none, sayError (sayHeader ts.ui s ts.begun cfg.streams.length) name msg⟩
  /-- lines 28-42. -/
  | beginOpen (ts : TState) (s : Stream) (rest : List Stream) (out : Output) (h : Handle) (size : Option Nat)
      (start : Nat) (st' : State) (ui' : Ui) :
      ts.st.pc = .next → ts.st.todo = s :: rest → Step cfg ts.st .tau st' → st'.pc = .inputOpen s out h →
      openInput ts.st.fs cfg.force s.input = .ok h size →
      takesStdin s (sayHeader ts.ui s ts.begun cfg.streams.length) = .ok ui' →
      TStep cfg name ts (some .tau) ⟨st', ts.begun + 1, some ⟨start, [], (Printer.new start).setFilesize size⟩, ui'⟩
  /-- lines 44-68: nothing is said. -/
  | work (ts : TState) (s : Stream) (out : Output) (sink : Sink) (dir : CryptFile.Direction) (input written : Bytes) (st' : State) :
      Step cfg ts.st .tau st' → st'.pc = .converting s out sink dir input written → TStep cfg name ts (some .tau) { ts with st := st' }
  /-- lines 56, 67: the counts are those of the conversion at a moment when `w` had been written. -/
  | progress (ts : TState) (s : Stream) (out : Output) (sink : Sink) (dir : CryptFile.Direction) (input written : Bytes) (lv lv' : Live)
      (bytes now : Nat) (ui' : Ui) (w : Bytes) (faulted : Bool) :
      ts.st.pc = .converting s out sink dir input written → ts.live = some lv →
      w <+: written → CryptFile.Told cfg.lib input dir ⟨w, none, faulted⟩ ((lv.calls ++ [(bytes, now)]).map Prod.fst) →
      cfg.histories lv.start (lv.calls ++ [(bytes, now)]) → Update lv ts.ui bytes now lv' ui' →
      TStep cfg name ts none { ts with live := some lv', ui := ui' }
  /-- lines 69, 72-76: the counts are those of the whole conversion. -/
  | finish (ts : TState) (s : Stream) (dir : CryptFile.Direction) (input output : Bytes) (lv : Live) (st' : State) (ui' : Ui)
      (faulted : Bool) :
      Step cfg ts.st (.converted s dir input output) st' → ts.live = some lv →
      CryptFile.Told cfg.lib input dir ⟨output, some (.ok ()), faulted⟩ (lv.calls.map Prod.fst) → Dropped lv ts.ui ui' →
      TStep cfg name ts (some (.converted s dir input output)) ⟨st', ts.begun, none, ui'⟩
  /-- lines 69, 77-78. Simplified: something may have been done that was not reported. -/
  | giveUp (ts : TState) (s : Stream) (cleanup : Option Path) (lv : Live) (st' : State) (ui' : Ui) (msg : List Char) :
      ts.st.pc ≠ .next → Step cfg ts.st .tau st' → st'.pc = .failing s cleanup → ts.live = some lv → Dropped lv ts.ui ui' →
      TStep cfg name ts (some .tau) ⟨st', ts.begun, none, sayError ui' name msg⟩
  /-- a panic; the display is dropped by unwinding. What the panic itself prints is not modelled. -/
  | crash (ts : TState) (lv : Live) (st' : State) (ui' : Ui) :
      Step cfg ts.st .tau st' → st'.pc = .panicked → ts.live = some lv → (ui' = ts.ui ∨ Dropped lv ts.ui ui') →
      TStep cfg name ts (some .tau) ⟨st', ts.begun, none, ui'⟩
  /-- line 83. -/
  | outputNotDeleted (ts : TState) (s : Stream) (p : Path) (st' : State) (reason : List Char) :
      ts.st.pc = .failing s (some p) → Step cfg ts.st (.outputNotDeleted s) st' →
      TStep cfg name ts (some (.outputNotDeleted s)) { ts with st := st', ui := sayNotDeleted ts.ui cfg.force name p reason }
  /-- lines 79-85. -/
  | failed (ts : TState) (s : Stream) (st' : State) : Step cfg ts.st (.failed s) st' →
      TStep cfg name ts (some (.failed s)) { ts with st := st' }
  /-- line 88. -/
  | endOfFile (ts : TState) (st' : State) (t : Term) : ts.st.pc = .endOfFile → Step cfg ts.st .tau st' → println ts.ui.term 0 [] = (.ok (), t) →
      TStep cfg name ts (some .tau) { ts with st := st', ui := { ts.ui with term := t } }
  /-- line 88, src/main.rs:64. -/
  | endOfFileFails (ts : TState) (st' : State) (e : Err) (t : Term) (msg : List Char) : ts.st.pc = .endOfFile → Step cfg ts.st .uiFailed st' →
      println ts.ui.term 0 [] = (.err e, t) →
      TStep cfg name ts (some .uiFailed) { ts with st := st', ui := sayError { ts.ui with term := t } name msg }
  /-- lines 92-95, 102, 106. -/
  | closing (ts : TState) (st' : State) : Step cfg ts.st .tau st' → st'.pc = .asking ∨ (∃ ps, st'.pc = .deleting ps) ∨ (∃ ok, st'.pc = .done ok) →
      TStep cfg name ts (some .tau) { ts with st := st' }
  /-- lines 96-99, with the terminal as it is. -/
  | prompt (ts : TState) (a : Option Bool) (t' : Term) (st' : State) : Step cfg ts.st (.answer ts.ui.term a t') st' →
      TStep cfg name ts (some (.answer ts.ui.term a t')) { ts with st := st', ui := { ts.ui with term := t' } }
  /-- line 97, src/main.rs:64. -/
  | promptFails (ts : TState) (e : Err) (t' : Term) (st' : State) (msg : List Char) : ts.st.pc = .asking → Step cfg ts.st .uiFailed st' →
      readPromptBool ts.ui.term 0 "Remove original file(s)?".toList false = (.err e, t') →
      TStep cfg name ts (some .uiFailed) { ts with st := st', ui := sayError { ts.ui with term := t' } name msg }
  /-- lines 103-105. -/
  | deleted (ts : TState) (p : Path) (st' : State) : Step cfg ts.st (.inputDeleted p) st' →
      TStep cfg name ts (some (.inputDeleted p)) { ts with st := st' }
  /-- line 104. -/
  | notDeleted (ts : TState) (p : Path) (st' : State) (reason : List Char) : Step cfg ts.st (.inputNotDeleted p) st' →
      TStep cfg name ts (some (.inputNotDeleted p)) { ts with st := st', ui := sayNotDeleted ts.ui cfg.force name p reason }

/-- The state at src/commands/crypt.rs:21, with the terminal that the command line leaves. -/
def TState.start (cfg : Config) (fs : FS) (ui : Ui) : TState := ⟨State.start cfg fs, 0, none, ui⟩

/-- Executions, with their events. Sequences of the steps of src/commands/crypt.rs:21-114. -/
inductive TRun (cfg : Config) (name : List Char) (ts : TState) : List Label → TState → Prop where
  | refl : TRun cfg name ts [] ts
  | step (ls : List Label) (t : TState) (l : Option Label) (u : TState) : TRun cfg name ts ls t → TStep cfg name t l u →
      TRun cfg name ts (ls ++ l.toList) u

end Rypt.CryptStreams
