import Verif.Model.GenKeys
import Verif.Model.Help

/-!
Model of the whole program: src/main.rs, src/commands/mod.rs:66-75 `run_command`, src/commands/help.rs.

The states are what can be seen from outside at some moment: the files, standard output, the exit status. Conversions
(`CryptStreams.Run`) and key generation (`GenKeys.World.past`) are seen at every moment, help only at its end.
-/

namespace Rypt.Program

open Getopts Cli UI Filesystem CryptStreams HeaderCrypto

/-- What the program finds when it is started. src/main.rs:13-32. -/
structure Start where
  lib : CryptoLib
  sha512 : Bytes → Bytes
  sha512_length : ∀ b, (sha512 b).length = 64
  /-- the name of the program, src/main.rs:27-31 -/
  name : List Char
  args : List Arg
  /-- src/main.rs:19-21; the variables `RYPT_STDIN_TTY_OVERRIDE` etc. count as terminals -/
  ttys : Ttys
  fs : FS
  /-- what arrives on standard input -/
  stdin : List UI.Input
  /-- the settings of the terminal at standard input -/
  tty : Termios
  /-- the fates of changes of these settings, see `UI.Term` -/
  tcs : List TcFate
  /-- what the clock may show while a file is converted, see `CryptStreams.Config` -/
  histories : Nat → List (Nat × Nat) → Prop
  /-- the fates of writes to standard error, see `UI.Term` -/
  writes : List (Option Nat)
  /-- the fates of operations on files during key generation, see `GenKeys.World` -/
  fates : List (Option Nat)
  /-- key files that cannot be read although they exist -/
  unreadable : Arg → Bool
  /-- what is read from key files that are not regular files -/
  device : Arg → Option Bytes
  /-- the two lines of src/commands/help.rs:55-56 (not modelled) -/
  versionText : List Char

/-- src/main.rs:37, src/ui.rs:85-101. -/
def Start.ui (p : Start) : Ui := ⟨⟨p.stdin, true, p.ttys.stdin, p.ttys.stderr, 0, p.tty, p.tcs, p.writes, []⟩, true⟩

/-- Key files are read from the same filesystem (`fs::read_to_string`). src/cli/credentials.rs:394. -/
def Start.env (p : Start) : Env :=
  ⟨p.sha512, p.sha512_length, fun path =>
    if p.unreadable path then none
    else
      match p.fs.openRead path with
      | some (.file ino) => some (p.fs.content ino)
      | some .other => p.device path
      | none => none⟩

/-- src/main.rs:47-55. -/
def Start.parse (p : Start) : Res Command × Ui := parseCommandLine p.env p.args p.ttys p.ui

/-- src/commands/mod.rs:68-70: the arguments of `crypt_streams`. -/
def dirOpts : DirectionOpts → DirOpts
  | .encrypt c fast => .encrypt ⟨c, fast⟩
  | .decrypt cs => .decrypt cs

/-- The arguments of `crypt_streams`, with the library. Standard input that is converted is what was not read by prompts before
(src/ui.rs:106-109). -/
def Start.config (p : Start) (streams : List Stream) (policy : CleanupPolicy) (force : Bool) (d : DirectionOpts) (ui : Ui) : Config :=
  ⟨p.lib, streams, policy, force, dirOpts d, ui.term.stdin, p.histories⟩

/-- What can be seen from outside. `exit` is the exit status, if the program has ended: 101 after a panic (an abort, if unwinding
panics again, counts as this). `term` is the terminal (with what was written to it), where the model follows it. The effects of src/main.rs:11-68. -/
structure Moment where
  fs : FS
  stdout : Bytes
  exit : Option Nat
  term : Option Term

/-- src/main.rs:62-67: the exit status of a conversion. -/
def exitOf : Pc → Option Nat
  | .done true => some 0
  | .done false => some 1
  | .panicked => some 101
  | _ => none

/-- src/main.rs:62-67 after key generation: an error of the terminal is printed, a `CompositeError` is not. -/
def keygenEnd (name : List Char) (r : Res (List Nat) × GenKeys.World) : Moment :=
  match r with
  | (.ok [], w) => ⟨w.fs, w.stdout, some 0, some w.term⟩
  | (.ok _, w) => ⟨w.fs, w.stdout, some 1, some w.term⟩
  | (.err _, w) => ⟨w.fs, w.stdout, some 1, some (printError w.term name "Error".toList).2⟩
  | (.panic, w) => ⟨w.fs, w.stdout, some 101, some w.term⟩

/-- src/commands/help.rs:17-51, 53-58, and src/main.rs:62-67: everything is written, or there is an error after a part. -/
inductive Prints (p : Start) (ui : Ui) (text : Bytes) : Moment → Prop where
  | all : Prints p ui text ⟨p.fs, text, some 0, some ui.term⟩
  | part (b : Bytes) : b <+: text → Prints p ui text ⟨p.fs, b, some 1, some (printError ui.term p.name "Error".toList).2⟩

/-- The moments of the executions of the program, src/main.rs:11-68. The messages of errors are fixed texts. -/
inductive Reaches (p : Start) : Moment → Prop where
  /-- nothing has happened yet -/
  | start : Reaches p ⟨p.fs, [], none, none⟩
  /-- lines 47, 62-67 -/
  | refused (e : Err) (ui : Ui) : p.parse = (.err e, ui) →
      Reaches p ⟨p.fs, [], some 1, some (printError ui.term p.name "Error".toList).2⟩
  | parsePanic (ui : Ui) : p.parse = (.panic, ui) → Reaches p ⟨p.fs, [], some 101, some ui.term⟩
  /-- line 58, src/commands/mod.rs:68-70 -/
  | crypt (streams : List Stream) (policy : CleanupPolicy) (force : Bool) (d : DirectionOpts) (ui : Ui) (ls : List Label)
      (st : State) : p.parse = (.ok (.cryptStreams streams policy force d), ui) →
      Run (p.config streams policy force d ui) (State.start (p.config streams policy force d ui) p.fs) ls st →
      Reaches p ⟨st.fs, st.stdout, exitOf st.pc, none⟩
  /-- line 58, src/commands/mod.rs:71; `seeds` are the random choices of `generate_keypair` -/
  | keygen (streams : List KeyPairOutputStreams) (force : Bool) (ui : Ui) (C : Crypto) (seeds : List Bytes) :
      p.parse = (.ok (.generateKeyPair streams force), ui) → p.lib.instantiate .chaCha20Poly1305Ietf = .ok C →
      seeds.length = streams.length →
      Reaches p (keygenEnd p.name (GenKeys.generateKeyPairFiles p.sha512 force (streams.zip (seeds.map C.keypair))
        ⟨ui.term, p.fs, [], p.fates, []⟩))
  /-- the same while it is going on -/
  | keygenDuring (streams : List KeyPairOutputStreams) (force : Bool) (ui : Ui) (C : Crypto) (seeds : List Bytes) (fs : FS)
      (stdout : Bytes) :
      p.parse = (.ok (.generateKeyPair streams force), ui) → p.lib.instantiate .chaCha20Poly1305Ietf = .ok C →
      seeds.length = streams.length →
      (fs, stdout) ∈ (GenKeys.generateKeyPairFiles p.sha512 force (streams.zip (seeds.map C.keypair))
        ⟨ui.term, p.fs, [], p.fates, []⟩).2.past → Reaches p ⟨fs, stdout, none, none⟩
  /-- src/commands/gen_keys.rs:11 -/
  | keygenFails (streams : List KeyPairOutputStreams) (force : Bool) (ui : Ui) (e : Err) :
      p.parse = (.ok (.generateKeyPair streams force), ui) → p.lib.instantiate .chaCha20Poly1305Ietf = .err e →
      Reaches p ⟨p.fs, [], some 1, some (printError ui.term p.name "Error".toList).2⟩
  | help (ui : Ui) (m : Moment) : p.parse = (.ok .help, ui) → Prints p ui (Text.encode (Help.text p.name)) m → Reaches p m
  | version (ui : Ui) (m : Moment) : p.parse = (.ok .version, ui) → Prints p ui (Text.encode p.versionText) m → Reaches p m

end Rypt.Program
