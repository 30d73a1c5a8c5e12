import Verif.Model.Cli
import Verif.Spec.Getopts
import Verif.Spec.Naming

/-! What the command line is to be turned into. -/

namespace Rypt.Cli

open Getopts CryptStreams

/-- What a command does. -/
def Command.mode : Command → OperationMode
  | .cryptStreams _ _ _ (.encrypt _ _) => .crypt .encrypt
  | .cryptStreams _ _ _ (.decrypt _) => .crypt .decrypt
  | .generateKeyPair _ _ => .generateKeypair
  | .help => .help
  | .version => .version

/-- The options that select what to do. -/
def modeOf : Opt → Option OperationMode
  | .encrypt => some (.crypt .encrypt)
  | .decrypt => some (.crypt .decrypt)
  | .genKeypair => some .generateKeypair
  | .help => some .help
  | .version => some .version
  | _ => none

/-- Priority of letters in one argument, as in `-hd`. -/
def rank : OperationMode → Nat
  | .crypt .encrypt => 0
  | .crypt .decrypt => 1
  | .generateKeypair => 2
  | .help => 3
  | .version => 4

/-- The mode of the last argument that selects one (in one argument, by priority); encryption if there is none. -/
def LastMode (occs : List Occ) (mode : OperationMode) : Prop :=
  ((∀ x ∈ occs, modeOf x.opt = none) ∧ mode = .crypt .encrypt) ∨
    ∃ x ∈ occs, modeOf x.opt = some mode ∧
      ∀ y ∈ occs, ∀ mode', modeOf y.opt = some mode' → y.pos < x.pos ∨ (y.pos = x.pos ∧ rank mode' ≤ rank mode)

/-- An option was given. -/
def Given (occs : List Occ) (o : Opt) : Prop := ∃ x ∈ occs, x.opt = o

/-- The number of `-v` minus the number of `-q`. -/
def askedVerbosity (occs : List Occ) : Int :=
  (occs.countP (fun x => x.opt = .verbose) : Int) - (occs.countP (fun x => x.opt = .quiet) : Int)

/-- Standard input is converted. -/
def ReadsStdin (streams : List Stream) : Prop := ∃ s ∈ streams, s.input = .stdin
/-- The result goes to standard output. -/
def WritesStdout (streams : List Stream) : Prop := ∃ s ∈ streams, s.output = some .stdout

/-- Encrypted data would be read from a terminal, or written to one. -/
def CipherOnTerminal (dir : CryptDirection) (streams : List Stream) (ttys : Ttys) : Prop :=
  (dir = .decrypt ∧ ReadsStdin streams ∧ ttys.stdin = true) ∨ (dir = .encrypt ∧ WritesStdout streams ∧ ttys.stdout = true)

/-- All three standard streams are terminals, or carry encrypted data. -/
def Attended (dir : CryptDirection) (streams : List Stream) (ttys : Ttys) : Prop :=
  ttys.stderr = true ∧ (ttys.stdin = true ∨ dir = .decrypt ∧ ReadsStdin streams) ∧
    (ttys.stdout = true ∨ dir = .encrypt ∧ WritesStdout streams)

/-- The data itself is typed or shown on a terminal. -/
def DataOnTerminal (streams : List Stream) (ttys : Ttys) : Prop :=
  (ReadsStdin streams ∧ ttys.stdin = true) ∨ (WritesStdout streams ∧ ttys.stdout = true)

/-- The direction of a conversion. -/
def DirectionOpts.dir : DirectionOpts → CryptDirection
  | .encrypt _ _ => .encrypt
  | .decrypt _ => .decrypt

/-- The suffix of encrypted names: the value of `--suffix` without a dot at its beginning; `rypt` by default. -/
def SuffixOf (occs : List Occ) (ext : Arg) : Prop :=
  (¬ Given occs .suffix ∧ ext = "rypt".toList) ∨
    ∃ x ∈ occs, x.opt = .suffix ∧ (x.val = some ('.' :: ext) ∨ x.val = some ext ∧ ext.head? ≠ some '.')

/-- The name of the output for the input `a`, if there is one. -/
inductive OutputName (force : Bool) (ext a : Arg) : CryptDirection → Option Arg → Prop where
  /-- encryption adds a dot and the suffix -/
  | added (dir name : List Char) : Spec.Named a dir name → name.getLast? ≠ some '.' →
      ext ≠ [] ∨ (∃ e, Spec.HasExtension name e) → force = true ∨ ¬ Spec.HasExtension name ext →
      OutputName force ext a .encrypt (some (dir ++ name ++ '.' :: ext))
  /-- but only one dot -/
  | addedAfterDot (dir s : List Char) : Spec.Named a dir (s ++ ['.']) → ext ≠ [] →
      OutputName force ext a .encrypt (some (dir ++ s ++ '.' :: ext))
  /-- unless it is there already -/
  | refused (dir name : List Char) : Spec.Named a dir name → Spec.HasExtension name ext → force = false →
      OutputName force ext a .encrypt none
  /-- an empty suffix is refused where it changes nothing -/
  | empty (dir name : List Char) : Spec.Named a dir name → ext = [] → (¬ ∃ e, Spec.HasExtension name e) →
      OutputName force ext a .encrypt (if force = true then some (dir ++ name) else none)
  | emptyAfterDot (dir s : List Char) : Spec.Named a dir (s ++ ['.']) → ext = [] → force = true →
      OutputName force ext a .encrypt (some (dir ++ s))
  /-- `/`, `..` and the like are left alone -/
  | unnamed : (¬ ∃ dir name, Spec.Named a dir name) →
      OutputName force ext a .encrypt (if force = true ∨ ext ≠ [] then some a else none)
  /-- decryption removes the dot and the suffix -/
  | removed (dir s : List Char) : Spec.Named a dir (s ++ '.' :: ext) → s ≠ [] → '.' ∉ ext →
      OutputName force ext a .decrypt (some (dir ++ s))
  | notEncrypted : (∀ dir name, Spec.Named a dir name → ¬ Spec.HasExtension name ext) →
      OutputName force ext a .decrypt none

/-- The streams for one argument of key generation. -/
def PairFor (path : Arg) (s : KeyPairOutputStreams) : Prop :=
  (path = ['-'] ∧ s = ⟨none, .stdout⟩) ∨
    (path ≠ ['-'] ∧ s.privateKeyStream = .file path ∧ ∃ pub, s.publicKeyStream = some (.file pub) ∧
      ∀ dir name, Spec.Named path dir name →
        ((¬ ∃ e, Spec.HasExtension name e) → pub = dir ++ name ++ ".pub".toList) ∧
        (∀ s e, s ≠ [] → name = s ++ '.' :: e → '.' ∉ e → pub = dir ++ s ++ ".pub".toList))

end Rypt.Cli
