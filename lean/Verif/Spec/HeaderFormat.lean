import Verif.Spec.Access
import Verif.Spec.File
import Verif.Spec.Gf256
import Verif.Spec.Wire

/-!
Specification of the contents of a header: how the payload key is split among the members of a group, and how the parts are sealed for
passwords and keys. Written as relations between the credentials and the contents, without saying where random values come from.
-/

namespace Rypt.Spec

open Proto HeaderCrypto

/-- The value at `x` of the polynomial over the AES field with the given coefficients, lowest first. -/
def polyAt (x : UInt8) : List UInt8 → UInt8
  | [] => 0
  | c :: cs => c ^^^ aesMul x (polyAt x cs)

/-- The bytes of two strings of the same length, XORed. -/
def xored (a b : Bytes) : Bytes := List.zipWith (· ^^^ ·) a b

/-- `parts` are shares of `key`, `threshold` of which give the key. If one is enough, each is the key. If all are needed, the key is
their XOR. Otherwise, at most 255 shares: for each byte of the key there is a polynomial with `threshold` coefficients whose value at 0
is the byte, and share number `i` (from 0) has the value at `i + 1`. -/
def SharesOf (key : Bytes) (threshold : Nat) (parts : List Bytes) : Prop :=
  1 ≤ threshold ∧ threshold ≤ parts.length ∧ (∀ p ∈ parts, p.length = key.length) ∧
  (threshold = 1 → ∀ p ∈ parts, p = key) ∧
  (1 < threshold → threshold = parts.length → parts.foldl xored (List.replicate key.length 0) = key) ∧
  (1 < threshold → threshold < parts.length → parts.length ≤ 255 ∧
    ∀ (j : Nat) (k : UInt8), key[j]? = some k → ∃ cs : List UInt8, cs.length = threshold - 1 ∧
      ∀ (i : Nat) (p : Bytes), parts[i]? = some p → p[j]? = some (polyAt (UInt8.ofNat (i + 1)) (k :: cs)))

/-- Numbers of shares and thresholds of 1 are written as 0, that is, not at all. -/
def oneOmitted (n : Nat) : Nat := if n = 1 then 0 else n

mutual

/-- A part of the key, sealed for a password, a symmetric key, a public key or a group. The passwords and keys are numbered in order, in
32 bits: `i` is the number of the first, `j` the one after the last. `epk` and `esk` are the ephemeral keys of the file. -/
inductive SealedFor (C : Crypto) (epk esk : Bytes) : Credential → Bytes → UInt32 → KeyData → UInt32 → Prop
  | password (p part : Bytes) (i : UInt32) :
      SealedFor C epk esk (.password p) part i
        (.encrypted (sealBox C (passwordKey C epk p) (wrapNonce i.toNat) [] part).bytes) (i + 1)
  | symmetricKey (k part : Bytes) (i : UInt32) :
      SealedFor C epk esk (.symmetricKey k) part i
        (.encrypted (sealBox C (secretKey C epk k) (wrapNonce i.toNat) [] part).bytes) (i + 1)
  | publicKey (pk part key : Bytes) (i : UInt32) (hkey : C.boxBeforenm pk esk = some key) :
      SealedFor C epk esk (.publicKey pk) part i
        (.encrypted ((C.boxSeal key (wrapBoxNonce i.toNat) part).1 ++ (C.boxSeal key (wrapBoxNonce i.toNat) part).2)) (i + 1)
  | group (subs : List (Nat × Credential)) (threshold : Nat) (part : Bytes) (shares : List Bytes) (i j : UInt32)
      (ps : List EncryptedKeyParts) (hshares : SharesOf part threshold shares)
      (hsize : wrap64 (part.length * shares.length) < maxHeader) (hmembers : MembersSealed C epk esk subs shares i ps j) :
      SealedFor C epk esk (.complex subs shares.length threshold) part i (.composite (.mk (oneOmitted threshold) ps)) j

/-- The members of a group in order: each gets as many of the shares as it counts, one after another. -/
inductive MembersSealed (C : Crypto) (epk esk : Bytes) :
    List (Nat × Credential) → List Bytes → UInt32 → List EncryptedKeyParts → UInt32 → Prop
  | nil (i : UInt32) (left : List Bytes) : MembersSealed C epk esk [] left i [] i
  | cons (c : Credential) (rest : List (Nat × Credential)) (mine others : List Bytes) (i j k : UInt32) (d : KeyData)
      (ps : List EncryptedKeyParts) (hmember : SealedFor C epk esk c mine.flatten i d j)
      (hrest : MembersSealed C epk esk rest others j ps k) :
      MembersSealed C epk esk ((mine.length, c) :: rest) (mine ++ others) i (.mk (oneOmitted mine.length) d :: ps) k

end

/-- A header for the credentials `cred` with the payload key `key` and chunks of `size` bytes: the number of the algorithm, the public
ephemeral key, the sealed key, and sealed under the payload key: the size of chunks, the number 1 (no authenticated sender) and the
ephemeral key again. -/
structure HeaderFor (C : Crypto) (fast : Bool) (cred : ComplexCredential) (key : Bytes) (size : Nat) (hd : RyptFileHeader) : Prop where
  family : hd.cryptoFamily = some (if fast then 2 else 1)
  keyLen : key.length = 32
  keys : ∃ seed ck j, hd.ephemeralPk = (C.keypair seed).1 ∧ hd.payloadKey = some ck ∧
    SealedFor C (C.keypair seed).1 (C.keypair seed).2 (.complex cred.subCreds cred.numShares cred.threshold) key 0 (.composite ck) j
  protectedPart : ∃ pb, hd.protectedHeader = (sealBox C key headerNonce [] pb).bytes ∧
    ReadsProtected pb ⟨size, 1, hd.ephemeralPk⟩

end Rypt.Spec
