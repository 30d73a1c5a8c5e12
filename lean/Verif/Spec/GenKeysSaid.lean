import Verif.Spec.GenKeys
import Verif.Spec.UI
import Verif.Spec.Human

/-! Notions used to state what key generation shows. -/

namespace Rypt.GenKeys

open Filesystem CryptStreams Cli

/-- How writing a pair ends: both files are written, or there is an error with the public key file, or with the private key file. -/
inductive PairEnd where
  | written
  | publicFails
  | privateFails
  deriving DecidableEq

/-- A line shown unless `--quiet` is given. -/
def lineAt (verbosity : Int) (s : List Char) : List UI.Act := if 0 ≤ verbosity then [.wrote (s ++ ['\n'])] else []

/-- An error, shown unless `--quiet` is given twice. The text after the colon is fixed in the model. -/
def errorAt (verbosity : Int) : List UI.Act := if -1 ≤ verbosity then [.wrote "rypt: Error\n".toList] else []

/-- A text is the public key: it is one word, and both with and without a look at the checksum it is read as the key. -/
def ShowsKey (sha512 : Bytes → Bytes) (text : List Char) (pk : Bytes) : Prop :=
  (∀ c ∈ text, Text.isWhitespace c = false) ∧ ∀ skip, KeyText.fromHex32 sha512 text skip = .ok pk

/-- `-` is shown as `(stdout)`. -/
def ShowsOutput (out : Output) (text : List Char) : Prop :=
  out = .file text ∨ out = .stdout ∧ text = "(stdout)".toList

/-- What is shown for pair number `number` of `total`. -/
def PairShown (sha512 : Bytes → Bytes) (verbosity : Int) (number total : Nat) (s : KeyPairOutputStreams) (pk : Bytes) (e : PairEnd)
    (shown : List UI.Act) : Prop :=
  ∃ n t key priv pub, Spec.Decimal n number ∧ Spec.Decimal t total ∧ ShowsKey sha512 key pk ∧ ShowsOutput s.privateKeyStream priv ∧
    (s.publicKeyStream = none ∧ e ≠ .publicFails ∧ pub = [] ∨
      ∃ out p, s.publicKeyStream = some out ∧ ShowsOutput out p ∧ pub = lineAt verbosity ("    Public key file: ".toList ++ p)) ∧
    shown = lineAt verbosity ("Keypair ".toList ++ n ++ "/".toList ++ t ++ ":".toList) ++
      lineAt verbosity ("    Public key: ".toList ++ key) ++ pub ++
      (if e = .publicFails then [] else lineAt verbosity ("    Private key file: ".toList ++ priv)) ++
      (if e = .written then [] else errorAt verbosity) ++ lineAt verbosity []

end Rypt.GenKeys
