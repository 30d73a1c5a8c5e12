import Verif.Model.Filesystem
import Verif.Model.Reports
import Verif.Model.UI
import Verif.Model.Progress

/-!
Model of src/io_streams.rs and src/commands/crypt.rs: converting a list of files, as a transition system whose states are
the possible states of the world if the process is killed.
-/

namespace Rypt.CryptStreams

open Filesystem HeaderCrypto CryptFile

/-- src/io_streams.rs:8-15. -/
inductive Input where
  | file (path : Path)
  | fileStream (path : Path)
  | stdin
  deriving DecidableEq

/-- src/io_streams.rs:109-114. -/
inductive Output where
  | file (path : Path)
  | stdout
  deriving DecidableEq

/-- src/io_streams.rs:184-188; `output` is an error if the name was unsuitable. -/
structure Stream where
  input : Input
  output : Option Output
  deriving DecidableEq

/-- Why an input is refused, src/io_streams.rs:35, 47-49. -/
inductive Refusal where
  | directory
  | symlink
  | hardLinks
  | notRegular
  deriving DecidableEq, Repr

/-- src/io_streams.rs:34-35: directories are refused. -/
def checkNotDir (m : Metadata) : Except Refusal Unit :=
  if m.node = .dir then .error .directory else .ok ()

/-- src/io_streams.rs:44-49: without `force`, a regular file with one link. -/
def checkPlain (force : Bool) (m : Metadata) : Except Refusal Unit :=
  if ¬ force then
    match m.node with
    | .symlink _ => .error .symlink
    | node =>
      if m.nlink ≠ 1 then .error .hardLinks
      else
        match node with
        | .file _ => .ok ()
        | _ => .error .notRegular
  else .ok ()

/-- How opening an input ends. The ways through src/io_streams.rs:27-66 with src/commands/crypt.rs:39-42. -/
inductive Opened where
  | ok (h : Handle) (size : Option Nat)
  | refused (r : Refusal)
  /-- `open` or `lstat` failed -/
  | failed
  deriving DecidableEq

/-- src/io_streams.rs:28-65 `InputStream::open`. Stdin is opened elsewhere; here it has no handle. -/
def openInput (fs : FS) (force : Bool) : Input → Opened
  | .file p =>
    match fs.openRead p, fs.symlinkMetadata p with
    | some h, some m =>
      match checkNotDir m with
      | .error r => .refused r
      | .ok () =>
        match checkPlain force m with
        | .error r => .refused r
        | .ok () => .ok h (some m.size)
    | _, _ => .failed
  | .fileStream p =>
    match fs.openRead p, fs.symlinkMetadata p with
    | some h, some m =>
      match checkNotDir m with
      | .error r => .refused r
      | .ok () => .ok h ((some m.size).filter (0 < ·))
    | _, _ => .failed
  | .stdin => .ok .other none

/-- Where the output goes. src/io_streams.rs:109-114. -/
inductive Sink where
  | handle (h : Handle)
  | stdout
  deriving DecidableEq

/-- src/io_streams.rs:124-146 `OutputStream::open`. -/
def openOutput (fs : FS) (force : Bool) : Output → Option (FS × Sink)
  | .file p =>
    match (if force then fs.createTrunc p else fs.createNew p) with
    | some (fs, h) => some (fs, .handle h)
    | none => none
  | .stdout => some (fs, .stdout)

/-- src/io_streams.rs:72-88: the callback that deletes the input, for real files only. -/
def inputCleanup : Input → Option Path
  | .file p => some p
  | _ => none

/-- src/io_streams.rs:152-167: the callback that deletes the output. -/
def outputCleanup : Output → Option Path
  | .file p => some p
  | .stdout => none

/-- src/commands/mod.rs:38-43. -/
inductive CleanupPolicy where
  | keepFiles
  | deleteFiles
  | promptUser
  deriving DecidableEq

/-- src/commands/mod.rs:28-36: what to do; the random choices are made per file. -/
inductive DirOpts where
  | encrypt (opts : EncryptOptions)
  | decrypt (credentials : List Credential)

/-- The conversions of one file that `DirOpts` can lead to: any random choices. src/commands/crypt.rs:48-59. -/
def DirOpts.allows : DirOpts → Direction → Prop
  | .encrypt opts, .encrypt opts' draw _ => opts' = opts ∧ draw < 1024
  | .decrypt S, .decrypt S' => S' = S
  | _, _ => False

/-- Arguments of `crypt_streams` (src/commands/crypt.rs:12-19), with the library, what is to come on standard input, and what the
clock may show. -/
structure Config where
  lib : CryptoLib
  streams : List Stream
  policy : CleanupPolicy
  force : Bool
  direction : DirOpts
  stdin : List UI.Input
  /-- what the progress display may be told about a file: when the file is begun, then bytes and instants (lines 28, 56, 67) -/
  histories : Nat → List (Nat × Nat) → Prop

/-- What is read from standard input: everything up to its end, or up to the first failure. Simplified: failures are final.
The `Reader` of src/io_streams.rs:61-64, read in src/stream_pipeline.rs:173-193 and src/header_io.rs:38, 56. -/
def stdinGives (stdin : List UI.Input) (input : Bytes) : Prop :=
  stdin = input.map .byte ∨ ∃ rest, stdin = input.map .byte ++ .fault :: rest

/-- Where the main thread is (src/commands/crypt.rs:21-113). -/
inductive Pc where
  /-- line 21: next file -/
  | next
  /-- line 41: the input is open -/
  | inputOpen (s : Stream) (out : Output) (h : Handle)
  /-- lines 47-68: converting `input`; `written` has been written so far -/
  | converting (s : Stream) (out : Output) (sink : Sink) (dir : Direction) (input written : Bytes)
  /-- lines 77-85: an error is reported; the output to be deleted, if any -/
  | failing (s : Stream) (cleanup : Option Path)
  /-- line 88 -/
  | endOfFile
  /-- lines 92-100 -/
  | asking
  /-- lines 102-106 -/
  | deleting (paths : List Path)
  /-- lines 109-113 -/
  | done (ok : Bool)
  /-- a panic in the main thread (unwinding ends the process, there are no destructors with effects on files) -/
  | panicked

/-- The state of `crypt_streams`: its local variables in src/commands/crypt.rs:18-26, the place reached in the loop, and what is visible outside. -/
structure State where
  fs : FS
  /-- bytes sent to standard output -/
  stdout : Bytes
  /-- files not yet started -/
  todo : List Stream
  /-- `success_cleanup_cbs` -/
  cleanups : List Path
  /-- `errors.len()` -/
  errors : Nat
  pc : Pc

/-- The state at src/commands/crypt.rs:21, before the first stream. -/
def State.start (cfg : Config) (fs : FS) : State := ⟨fs, [], cfg.streams, [], 0, .next⟩

/-- Visible events. The effects of src/commands/crypt.rs:21-106. -/
inductive Label where
  | tau
  /-- the file was converted: what it contained, what was written -/
  | converted (s : Stream) (dir : Direction) (input output : Bytes)
  | failed (s : Stream)
  /-- the output of a failed conversion could not be deleted -/
  | outputNotDeleted (s : Stream)
  /-- the answer to "Remove original file(s)?" (line 97), with the terminal before and after; `none` if no question could be
  asked -/
  | answer (t : UI.Term) (a : Option Bool) (t' : UI.Term)
  | inputDeleted (p : Path)
  | inputNotDeleted (p : Path)
  /-- writing to the terminal or reading from it failed -/
  | uiFailed

/-- What is written to `sink` grows from `before` to `after`. src/commands/crypt.rs:51, src/stream_pipeline.rs:224. -/
def State.write (st : State) (sink : Sink) (before after : Bytes) : State :=
  match sink with
  | .handle (.file ino) => { st with fs := st.fs.setContent ino after }
  | .handle .other => st
  | .stdout => { st with stdout := st.stdout ++ after.drop before.length }

/-- The transitions. src/commands/crypt.rs:21-114, see the constructors. -/
inductive Step (cfg : Config) : State → Label → State → Prop where
  /-- line 36: no output name. -/
  | noOutput (st : State) (s : Stream) (rest : List Stream) : st.pc = .next → st.todo = s :: rest → s.output = none →
      Step cfg st .tau { st with todo := rest, pc := .failing s none }
  /-- lines 39-41. -/
  | openInput (st : State) (s : Stream) (rest : List Stream) (out : Output) (h : Handle) (size : Option Nat) :
      st.pc = .next → st.todo = s :: rest → s.output = some out → openInput st.fs cfg.force s.input = .ok h size →
      Step cfg st .tau { st with todo := rest, pc := .inputOpen s out h }
  /-- lines 39-40: refused, or any failure of the environment. -/
  | openInputFails (st : State) (s : Stream) (rest : List Stream) (out : Output) :
      st.pc = .next → st.todo = s :: rest → s.output = some out →
      Step cfg st .tau { st with todo := rest, pc := .failing s none }
  /-- lines 44-45 and the beginning of the conversion. What is read from a regular file is its content (nobody else writes to
  it) unless the output is the same file; what is read from devices is arbitrary. -/
  | openOutput (st : State) (s : Stream) (out : Output) (h : Handle) (fs : FS) (sink : Sink) (dir : Direction)
      (input : Bytes) :
      st.pc = .inputOpen s out h → openOutput st.fs cfg.force out = some (fs, sink) → cfg.direction.allows dir →
      (∀ ino, h = .file ino → sink ≠ .handle (.file ino) → input = st.fs.content ino) →
      (s.input = .stdin → stdinGives cfg.stdin input) →
      Step cfg st .tau { st with fs := fs, pc := .converting s out sink dir input [] }
  /-- line 44: no callback for deletion was stored. -/
  | openOutputFails (st : State) (s : Stream) (out : Output) (h : Handle) : st.pc = .inputOpen s out h →
      Step cfg st .tau { st with pc := .failing s none }
  /-- lines 47-68: more bytes are written. -/
  | write (st : State) (s : Stream) (out : Output) (sink : Sink) (dir : Direction) (input written written' : Bytes)
      (faulted : Bool) :
      st.pc = .converting s out sink dir input written → written <+: written' →
      Conversion cfg.lib input dir ⟨written', none, faulted⟩ →
      Step cfg st .tau { st.write sink written written' with pc := .converting s out sink dir input written' }
  /-- lines 71-76: success, with the last bytes written. A failure of standard input would have been noticed. -/
  | success (st : State) (s : Stream) (out : Output) (sink : Sink) (dir : Direction) (input written written' : Bytes)
      (faulted : Bool) :
      st.pc = .converting s out sink dir input written → written <+: written' →
      Conversion cfg.lib input dir ⟨written', some (.ok ()), faulted⟩ → (s.input = .stdin → cfg.stdin = input.map .byte) →
      Step cfg st (.converted s dir input written')
        { st.write sink written written' with
          cleanups := st.cleanups ++ (inputCleanup s.input).toList, pc := .endOfFile }
  /-- lines 77-79: failure, with the last bytes written. -/
  | failure (st : State) (s : Stream) (out : Output) (sink : Sink) (dir : Direction) (input written written' : Bytes)
      (e : Err) (faulted : Bool) :
      st.pc = .converting s out sink dir input written → written <+: written' →
      Conversion cfg.lib input dir ⟨written', some (.err e), faulted⟩ →
      Step cfg st .tau { st.write sink written written' with pc := .failing s (outputCleanup out) }
  | panic (st : State) (s : Stream) (out : Output) (sink : Sink) (dir : Direction) (input written written' : Bytes)
      (faulted : Bool) :
      st.pc = .converting s out sink dir input written → written <+: written' →
      Conversion cfg.lib input dir ⟨written', some .panic, faulted⟩ →
      Step cfg st .tau { st.write sink written written' with pc := .panicked }
  /-- lines 56, 67, or 69 where it is dropped: the progress display panics (src/progress.rs:105-113, see `Progress.remainingSecs`).
  It was told about a part of what has been converted. The threads of the pipeline may still write before they end. Simplified:
  the size of a file is any below 2^63 (there is none for standard input, line 42). -/
  | progressPanic (st : State) (s : Stream) (out : Output) (sink : Sink) (dir : Direction) (input written written' : Bytes)
      (faulted : Bool) (start : Nat) (filesize : Option Nat) (calls : List (Nat × Nat)) :
      st.pc = .converting s out sink dir input written → written <+: written' →
      Conversion cfg.lib input dir ⟨written', none, faulted⟩ →
      cfg.histories start calls → (s.input = .stdin → filesize = none) → (∀ size, filesize = some size → size < 2 ^ 63) →
      Progress.session start filesize calls = .panic →
      (∃ told flt, told <+: written' ∧ Told cfg.lib input dir ⟨told, none, flt⟩ (calls.map Prod.fst)) →
      Step cfg st .tau { st.write sink written written' with pc := .panicked }
  /-- lines 78-82: nothing to delete. -/
  | failedNoOutput (st : State) (s : Stream) : st.pc = .failing s none →
      Step cfg st (.failed s) { st with errors := st.errors + 1, pc := .endOfFile }
  /-- lines 78-84: delete the output. -/
  | failedDelete (st : State) (s : Stream) (p : Path) (fs : FS) : st.pc = .failing s (some p) →
      st.fs.unlink p = some fs →
      Step cfg st (.failed s) { st with fs := fs, errors := st.errors + 1, pc := .endOfFile }
  /-- lines 83-84: the deletion fails (reported unless forced, otherwise ignored). Two events: `failing` without cleanup
  follows. -/
  | failedNotDeleted (st : State) (s : Stream) (p : Path) : st.pc = .failing s (some p) →
      Step cfg st (.outputNotDeleted s) { st with pc := .failing s none }
  /-- line 88. -/
  | endOfFile (st : State) : st.pc = .endOfFile → Step cfg st .tau { st with pc := .next }
  /-- line 88: `ui.println(0, "")?` fails. -/
  | endOfFileFails (st : State) : st.pc = .endOfFile → Step cfg st .uiFailed { st with pc := .done false }
  /-- line 92: nothing to delete. -/
  | noCleanups (st : State) : st.pc = .next → st.todo = [] → st.cleanups = [] →
      Step cfg st .tau { st with pc := .done (st.errors == 0) }
  /-- line 92. -/
  | cleanups (st : State) : st.pc = .next → st.todo = [] → st.cleanups ≠ [] →
      Step cfg st .tau { st with pc := .asking }
  /-- lines 94, 102. -/
  | keep (st : State) : st.pc = .asking → cfg.policy = .keepFiles →
      Step cfg st .tau { st with pc := .done (st.errors == 0) }
  /-- lines 95, 102. -/
  | delete (st : State) : st.pc = .asking → cfg.policy = .deleteFiles →
      Step cfg st .tau { st with pc := .deleting st.cleanups }
  /-- lines 96-99, 102: by default keep files. The terminal is in any state. -/
  | prompt (st : State) (t t' : UI.Term) (a : Option Bool) : st.pc = .asking → cfg.policy = .promptUser →
      UI.readPromptBool t 0 "Remove original file(s)?".toList false = (.ok a, t') →
      Step cfg st (.answer t a t')
        { st with pc := if a.getD false then .deleting st.cleanups else .done (st.errors == 0) }
  /-- line 97: the question fails. -/
  | promptFails (st : State) : st.pc = .asking → cfg.policy = .promptUser →
      Step cfg st .uiFailed { st with pc := .done false }
  /-- lines 103-105. -/
  | deleteInput (st : State) (p : Path) (rest : List Path) (fs : FS) : st.pc = .deleting (p :: rest) →
      st.fs.unlink p = some fs →
      Step cfg st (.inputDeleted p) { st with fs := fs, pc := .deleting rest }
  /-- line 104: the deletion fails (reported unless forced, otherwise ignored). -/
  | deleteInputFails (st : State) (p : Path) (rest : List Path) : st.pc = .deleting (p :: rest) →
      Step cfg st (.inputNotDeleted p) { st with pc := .deleting rest }
  | allDeleted (st : State) : st.pc = .deleting [] →
      Step cfg st .tau { st with pc := .done (st.errors == 0) }

/-- Executions, with their events. Sequences of the steps of src/commands/crypt.rs:21-114. -/
inductive Run (cfg : Config) (st : State) : List Label → State → Prop where
  | refl : Run cfg st [] st
  | step (ls : List Label) (t : State) (l : Label) (u : State) : Run cfg st ls t → Step cfg t l u → Run cfg st (ls ++ [l]) u

end Rypt.CryptStreams
