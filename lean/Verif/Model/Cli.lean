import Verif.Model.CliCredentials
import Verif.Model.CryptStreams
import Verif.Model.Naming

/-! Model of src/cli/mod.rs, src/cli/io_streams.rs:11-68 and src/cli/key_management.rs: from the command line to a command. -/

namespace Rypt.Cli

open Getopts UI CryptStreams

/-- src/cli/mod.rs:29-35. -/
inductive OperationMode where
  | crypt (dir : CryptDirection)
  | generateKeypair
  | help
  | version
  deriving DecidableEq, Repr

/-- src/cli/mod.rs:37-43. -/
def modes : List (Opt × OperationMode) :=
  [(.encrypt, .crypt .encrypt), (.decrypt, .crypt .decrypt), (.genKeypair, .generateKeypair), (.help, .help), (.version, .version)]

/-- `max_by_key(|(pos, _)| *pos)`: the last of the greatest elements. src/cli/mod.rs:54. -/
def maxByPos : List (Nat × OperationMode) → Option (Nat × OperationMode)
  | [] => none
  | x :: rest => some (rest.foldl (fun best y => if best.1 ≤ y.1 then y else best) x)

/-- src/cli/mod.rs:45-59. -/
def getMode (m : Matches) : OperationMode :=
  match maxByPos (modes.flatMap (fun (o, mode) => (m.positions o).map (·, mode))) with
  | some (_, mode) => mode
  | none => .crypt .encrypt

/-- src/cli/io_streams.rs:11-68. -/
def getInputOutputStreams (m : Matches) (dir : CryptDirection) (force : Bool) : Res (List Stream) :=
  if m.present .stream ∨ m.free.isEmpty ∨ m.free = [['-']] then
    if ¬ m.free.length ≤ 1 then .err (.other "streaming mode only supports a single input")
    else
      let input := match m.free.head? with
        | none => Input.stdin
        | some ['-'] => .stdin
        | some path => .fileStream path
      .ok [⟨input, some .stdout⟩]
  else if m.free.any (fun s => Text.trim s = ['-']) then .err (.other "stdin/stdout designator can only be specified once")
  else
    let extension := Naming.encryptedExtension (m.str .suffix)
    .ok (m.free.map fun path =>
      let output := match dir with
        | .encrypt => Naming.addExtension path extension force
        | .decrypt => Naming.removeExtension path extension
      ⟨.file path, match output with
        | .ok p => some (.file p)
        | _ => none⟩)

/-- Which of the standard streams are terminals. src/cli/mod.rs:64-67, src/main.rs:19-21. -/
structure Ttys where
  stdin : Bool
  stdout : Bool
  stderr : Bool

/-- The user interface: terminal, and `progress_enabled` (src/ui.rs:81). -/
structure Ui where
  term : Term
  progress : Bool

/-- src/ui.rs:113-115. -/
def Ui.setVerbosity (ui : Ui) (v : Int) : Ui := { ui with term := { ui.term with verbosity := v } }

/-- src/cli/mod.rs:172-173: standard input carries data. -/
def stdinIsData : List Stream → Bool
  | [s] => decide (s.input = .stdin)
  | _ => false

/-- src/cli/mod.rs:176-177: standard output carries data. -/
def stdoutIsData : List Stream → Bool
  | [s] => decide (s.output = some .stdout)
  | _ => false

/-- src/cli/mod.rs:156-216. -/
def checkAndAdjustUiVerbosity (ui : Ui) (verbosity : Int) (streams : List Stream) (dir : CryptDirection) (force : Bool)
    (ttys : Ttys) : Res Unit × Ui :=
  let stdinIsBinary := stdinIsData streams && decide (dir = .decrypt)
  let stdoutIsBinary := stdoutIsData streams && decide (dir = .encrypt)
  if ttys.stdin && stdinIsBinary && !force then (.err (.other "encrypted data cannot be read from a terminal"), ui)
  else if ttys.stdout && stdoutIsBinary && !force then (.err (.other "encrypted data cannot be written to a terminal"), ui)
  else if verbosity = 0 then
    let increase := ttys.stderr && (ttys.stdin || stdinIsBinary) && (ttys.stdout || stdoutIsBinary)
    let ui := ui.setVerbosity (if increase then 1 else -1)
    (.ok (), { ui with progress := increase && !(stdinIsData streams && ttys.stdin) && !(stdoutIsData streams && ttys.stdout) })
  else (.ok (), ui)

/-- src/commands/mod.rs:54-58. -/
structure KeyPairOutputStreams where
  publicKeyStream : Option Output
  privateKeyStream : Output
  deriving DecidableEq

/-- src/cli/key_management.rs:19-41: the loop; `stdoutFree` is `open_stdout_opt.is_some()`. -/
def keypairStreams (stdoutFree : Bool) : List Arg → Res (List KeyPairOutputStreams)
  | [] => .ok []
  | path :: rest =>
    if path = ['-'] then
      if stdoutFree then do
        let streams ← keypairStreams false rest
        pure (⟨none, .stdout⟩ :: streams)
      else .err (.other "can't output two or more private keys to stdout")
    else do
      let streams ← keypairStreams stdoutFree rest
      pure (⟨some (.file (Paths.withExtension path ['p', 'u', 'b'])), .file path⟩ :: streams)

/-- src/cli/key_management.rs:9-43. -/
def getKeypairStreams (m : Matches) : Res (List KeyPairOutputStreams) :=
  if m.free.isEmpty then .err (.other "please provide private key filename(s)")
  else keypairStreams true m.free

/-- src/commands/mod.rs:21-36 `CryptDirectionOpts`. -/
inductive DirectionOpts where
  | encrypt (credential : ComplexCredential) (fast : Bool)
  | decrypt (credentials : List Credential)

/-- src/commands/mod.rs:13-19. Help and version go to standard output. -/
inductive Command where
  | cryptStreams (streams : List Stream) (policy : CleanupPolicy) (force : Bool) (direction : DirectionOpts)
  | generateKeyPair (streams : List KeyPairOutputStreams) (force : Bool)
  | help
  | version

/-- src/cli/mod.rs:109-117. -/
def cleanupPolicy (m : Matches) : Res CleanupPolicy :=
  match m.present .keepInputs, m.present .discardInputs with
  | true, true => .err (.other "can't have both --keep-inputs and --discard-inputs flags")
  | true, false => .ok .keepFiles
  | false, true => .ok .deleteFiles
  | false, false => .ok .promptUser

/-- src/cli/mod.rs:119-134: the credentials, and the command. -/
def cryptCommand (env : Env) (m : Matches) (streams : List Stream) (policy : CleanupPolicy) (dir : CryptDirection) (ui : Ui) :
    Res Command × Ui :=
  let force := m.present .force
  match dir with
  | .encrypt =>
    match getEncryptCredential env m force ui.term with
    | (.ok c, t) => (.ok (.cryptStreams streams policy force (.encrypt c (m.present .fast))), { ui with term := t })
    | (.err e, t) => (.err e, { ui with term := t })
    | (.panic, t) => (.panic, { ui with term := t })
  | .decrypt =>
    match getDecryptCredentials env m force ui.term with
    | (.ok cs, t) => (.ok (.cryptStreams streams policy force (.decrypt cs)), { ui with term := t })
    | (.err e, t) => (.err e, { ui with term := t })
    | (.panic, t) => (.panic, { ui with term := t })

/-- src/cli/mod.rs:61-143. The number of `-v` and `-q` is not limited to 32 bits in the model. -/
def parseCommandLine (env : Env) (args : List Arg) (ttys : Ttys) (ui : Ui) : Res Command × Ui :=
  match parse args with
  | .err e => (.err e, ui)
  | .panic => (.panic, ui)
  | .ok m =>
    let verbosity : Int := (m.count .verbose : Int) - (m.count .quiet : Int)
    if ¬ (-2 ≤ verbosity ∧ verbosity ≤ 2) then (.err (.other "too many -v or -q arguments"), ui)
    else
      let ui := ui.setVerbosity verbosity
      let force := m.present .force
      let mode := if args.isEmpty && ttys.stdout then .help else getMode m
      match mode with
      | .crypt dir =>
        match getInputOutputStreams m dir force with
        | .err e => (.err e, ui)
        | .panic => (.panic, ui)
        | .ok streams =>
          match checkAndAdjustUiVerbosity ui verbosity streams dir force ttys with
          | (.err e, ui) => (.err e, ui)
          | (.panic, ui) => (.panic, ui)
          | (.ok (), ui) =>
            match cleanupPolicy m with
            | .err e => (.err e, ui)
            | .panic => (.panic, ui)
            | .ok policy => cryptCommand env m streams policy dir ui
      | .generateKeypair =>
        match getKeypairStreams m with
        | .ok streams => (.ok (.generateKeyPair streams force), ui)
        | .err e => (.err e, ui)
        | .panic => (.panic, ui)
      | .help => (.ok .help, ui)
      | .version => (.ok .version, ui)

end Rypt.Cli
