import Verif.Model.Cli
import Verif.Model.KeyText
import Verif.Model.Human

/-!
Model of src/commands/gen_keys.rs: writing key pairs to files.

The key pairs are a parameter (they come from `generate_keypair`, src/crypto/libsodium.rs). The failure of
`instantiate_crypto_system` (line 11), before anything happens, is left out.
-/

namespace Rypt.GenKeys

open Filesystem CryptStreams Cli Text

/-- The terminal, the files, and the fates of the coming operations on files: `none` if nothing unusual happens, `some n` if the
operation fails (after `n` bytes, for writes); nothing unusual happens when the list is over. `past` records what the files and
standard output were after every single byte that was written, in case the process is killed.
What src/commands/gen_keys.rs:16-77 acts on. -/
structure World where
  term : UI.Term
  fs : FS
  stdout : Bytes
  fates : List (Option Nat)
  past : List (FS × Bytes)

/-- The fate of the next operation. The outcome of `open` and `write_all` in src/commands/gen_keys.rs:57-58, 65-66. -/
def World.nextFate (w : World) : Option Nat := w.fates.head?.join

/-- `?`. In src/commands/gen_keys.rs:49-75. -/
def andThen {α : Type} (r : Res Unit × World) (f : World → Res α × World) : Res α × World :=
  match r with
  | (.ok (), w) => f w
  | (.err e, w) => (.err e, w)
  | (.panic, w) => (.panic, w)

/-- `ui.println(0, ..)`, src/ui.rs:29-31. -/
def say (w : World) (message : List Char) : Res Unit × World :=
  ((UI.println w.term 0 message).1, { w with term := (UI.println w.term 0 message).2 })

/-- Bytes written to an open output; the file was created or emptied when it was opened. src/commands/gen_keys.rs:58, 66. -/
def World.put (w : World) (sink : Sink) (b : Bytes) : World :=
  match sink with
  | .handle (.file ino) => { w with fs := w.fs.setContent ino b }
  | .handle .other => w
  | .stdout => { w with stdout := w.stdout ++ b }

/-- What the files and standard output are while `b` is being written. src/commands/gen_keys.rs:58, 66. -/
def World.during (w : World) (sink : Sink) (b : Bytes) : List (FS × Bytes) :=
  (List.range (b.length + 1)).map fun k => ((World.put w sink (b.take k)).fs, (World.put w sink (b.take k)).stdout)

/-- `write_all`. src/commands/gen_keys.rs:58, 66. -/
def writeAll (w : World) (sink : Sink) (b : Bytes) : Res Unit × World :=
  match w.nextFate with
  | none => (.ok (), World.put { w with fates := w.fates.tail, past := w.past ++ w.during sink b } sink b)
  | some n =>
    (.err .io, World.put { w with fates := w.fates.tail, past := w.past ++ w.during sink (b.take n) } sink (b.take n))

/-- `stream.open(force)?.write_all(text)`, src/commands/gen_keys.rs:56-59 and 64-67. -/
def writeFile (w : World) (force : Bool) (out : Output) (b : Bytes) : Res Unit × World :=
  match w.nextFate with
  | some _ => (.err .io, { w with fates := w.fates.tail })
  | none =>
    match openOutput w.fs force out with
    | none => (.err .io, { w with fates := w.fates.tail })
    | some (fs, sink) => writeAll { w with fs := fs, fates := w.fates.tail } sink b

/-- `OutputStream::path`, src/io_streams.rs:117-122. Paths are texts, so `to_string_lossy` does nothing. -/
def outputPath : Output → List Char
  | .file p => p
  | .stdout => ['(', 's', 't', 'd', 'o', 'u', 't', ')']

/-- src/commands/gen_keys.rs:52-69: the closure. -/
def writePair (w : World) (force : Bool) (s : KeyPairOutputStreams) (pub priv : List Char) : Res Unit × World :=
  andThen
    (match s.publicKeyStream with
    | none => (.ok (), w)
    | some out =>
      andThen (say w ("    Public key file: ".toList ++ outputPath out)) fun w => writeFile w force out (encode pub))
    fun w =>
      andThen (say w ("    Private key file: ".toList ++ outputPath s.privateKeyStream)) fun w =>
        writeFile w force s.privateKeyStream (encode priv)

/-- src/commands/gen_keys.rs:71-75, then line 76. The name of the program and the message are fixed texts; the message contains
the path and the reason in reality. The result tells whether there was an error. -/
def reportPair (r : Res Unit × World) : Res Bool × World :=
  match r with
  | (.panic, w) => (.panic, w)
  | (.ok (), w) => andThen (say w []) fun w => (.ok false, w)
  | (.err _, w) =>
    andThen ((UI.printError w.term "rypt".toList "Error".toList).1,
      { w with term := (UI.printError w.term "rypt".toList "Error".toList).2 }) fun w =>
        andThen (say w []) fun w => (.ok true, w)

/-- src/commands/gen_keys.rs:16-77: one turn of the loop. `trim` removes the newline of the public key. -/
def genPair (sha512 : Bytes → Bytes) (force : Bool) (total idx : Nat) (s : KeyPairOutputStreams) (pk sk : Bytes) (w : World) :
    Res Bool × World :=
  match KeyText.privateKeyText sha512 pk sk with
  | .panic => (.panic, w)
  | .err e => (.err e, w)
  | .ok priv =>
    andThen (say w ("Keypair ".toList ++ Human.decimal (idx + 1) ++ '/' :: Human.decimal total ++ [':'])) fun w =>
      andThen (say w ("    Public key: ".toList ++ trim (KeyText.publicKeyText sha512 pk))) fun w =>
        reportPair (writePair w force s (KeyText.publicKeyText sha512 pk) priv)

/-- src/commands/gen_keys.rs:16-84: the loop. The result lists the pairs with errors: `Ok(())` if there are none, the
`CompositeError` of their errors otherwise; `.err` is an error of the terminal that ends the run. -/
def genPairs (sha512 : Bytes → Bytes) (force : Bool) (total : Nat) :
    Nat → List (KeyPairOutputStreams × Bytes × Bytes) → World → Res (List Nat) × World
  | _, [], w => (.ok [], w)
  | idx, (s, pk, sk) :: rest, w =>
    match genPair sha512 force total idx s pk sk w with
    | (.panic, w) => (.panic, w)
    | (.err e, w) => (.err e, w)
    | (.ok failed, w) =>
      match genPairs sha512 force total (idx + 1) rest w with
      | (.ok more, w) => (.ok (if failed then idx :: more else more), w)
      | r => r

/-- src/commands/gen_keys.rs:10-84 `generate_key_pair_files`. -/
def generateKeyPairFiles (sha512 : Bytes → Bytes) (force : Bool) (pairs : List (KeyPairOutputStreams × Bytes × Bytes)) (w : World) :
    Res (List Nat) × World :=
  genPairs sha512 force pairs.length 0 pairs w

end Rypt.GenKeys
