import Verif.Model.GenKeys
import Verif.Spec.CryptStreams
import Mathlib.Data.List.Forall2

/-! Notions used to state the properties of writing key pairs. -/

namespace Rypt.GenKeys

open Filesystem CryptStreams Cli

/-- The files of a pair. -/
def pairPaths (s : KeyPairOutputStreams) : List Path :=
  ((s.publicKeyStream.toList ++ [s.privateKeyStream]).filterMap fun
    | .file p => some p
    | .stdout => none)

/-- All files that are written. -/
def allPaths (pairs : List (KeyPairOutputStreams × Bytes × Bytes)) : List Path := pairs.flatMap (fun q => pairPaths q.1)

/-- The files of the pair contain the texts of its keys. -/
def PairWritten (sha512 : Bytes → Bytes) (fs : FS) (s : KeyPairOutputStreams) (pk sk : Bytes) : Prop :=
  ∃ priv, KeyText.privateKeyText sha512 pk sk = .ok priv ∧
    (∀ p, s.publicKeyStream = some (.file p) → fs.holds p (Text.encode (KeyText.publicKeyText sha512 pk))) ∧
    (∀ p, s.privateKeyStream = .file p → fs.holds p (Text.encode priv))

/-- Different paths of the list are different files, and none is a link, a directory or a device. -/
structure Separate (fs : FS) (ps : List Path) : Prop where
  plain : ∀ p ∈ ps, fs.entry (fs.loc p) = none ∨ ∃ ino, fs.entry (fs.loc p) = some (.file ino)
  places : ∀ p ∈ ps, ∀ q ∈ ps, p ≠ q → fs.loc p ≠ fs.loc q
  inodes : ∀ p ∈ ps, ∀ q ∈ ps, ∀ ino, p ≠ q → fs.entry (fs.loc p) = some (.file ino) → fs.entry (fs.loc q) ≠ some (.file ino)

/-- Pairs with the same streams and public keys; the private keys fit the public ones. -/
def SamePublic (a b : List (KeyPairOutputStreams × Bytes × Bytes)) : Prop :=
  List.Forall₂ (fun x y => x.1 = y.1 ∧ x.2.1 = y.2.1 ∧ x.2.2.drop 32 = x.2.1 ∧ y.2.2.drop 32 = y.2.1) a b

/-- The text `b` is to be written to `out` for the pair: the public key, or the private key. -/
def TextFor (sha512 : Bytes → Bytes) (q : KeyPairOutputStreams × Bytes × Bytes) (out : Output) (b : Bytes) : Prop :=
  (q.1.publicKeyStream = some out ∧ b = Text.encode (KeyText.publicKeyText sha512 q.2.1)) ∨
    (q.1.privateKeyStream = out ∧ ∃ priv, KeyText.privateKeyText sha512 q.2.1 q.2.2 = .ok priv ∧ b = Text.encode priv)

/-- The moments of a run: before it, while files are written, and at the end. -/
def Moment (sha512 : Bytes → Bytes) (force : Bool) (pairs : List (KeyPairOutputStreams × Bytes × Bytes)) (w : World)
    (fs : FS) (stdout : Bytes) : Prop :=
  let w' := (generateKeyPairFiles sha512 force pairs { w with past := [] }).2
  (fs = w.fs ∧ stdout = w.stdout) ∨ (fs, stdout) ∈ w'.past ∨ (fs = w'.fs ∧ stdout = w'.stdout)

end Rypt.GenKeys
