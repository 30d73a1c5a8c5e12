import Verif.Model.HeaderCrypto

/-!
Access structures: which sets of credentials should open a file. Written without reference to key splitting.
-/

namespace Rypt

mutual

/-- A leaf is satisfied if it can be opened (`has`); a group if the shares of its satisfied members reach the
threshold. -/
def Credential.satisfied (has : Credential → Bool) : Credential → Bool
  | .password p => has (.password p)
  | .symmetricKey k => has (.symmetricKey k)
  | .publicKey pk => has (.publicKey pk)
  | .privateKey sk => has (.privateKey sk)
  | .complex subs _ threshold => decide (threshold ≤ satisfiedShares has subs)

/-- Total shares of the satisfied members. -/
def satisfiedShares (has : Credential → Bool) : List (Nat × Credential) → Nat
  | [] => 0
  | (shares, c) :: rest => (if c.satisfied has then shares else 0) + satisfiedShares has rest

end

/-- The whole tree is satisfied. -/
def ComplexCredential.satisfied (has : Credential → Bool) (cred : ComplexCredential) : Bool :=
  decide (cred.threshold ≤ satisfiedShares has cred.subCreds)

/-- Total shares of the members of a group. -/
def totalShares : List (Nat × Credential) → Nat
  | [] => 0
  | (shares, _) :: rest => shares + totalShares rest

mutual

/-- Credentials one can encrypt to: every group records the sum of its members' shares, has a threshold between 1
and that sum, gives each member at least one share; no private keys. -/
def Credential.WF : Credential → Prop
  | .password _ => True
  | .symmetricKey _ => True
  | .publicKey _ => True
  | .privateKey _ => False
  | .complex subs numShares threshold =>
    numShares = totalShares subs ∧ numShares < 2 ^ 64 ∧ 1 ≤ threshold ∧ threshold ≤ numShares ∧ MembersWF subs

def MembersWF : List (Nat × Credential) → Prop
  | [] => True
  | (shares, c) :: rest => 1 ≤ shares ∧ c.WF ∧ MembersWF rest

end

/-- See `Credential.WF`. -/
def ComplexCredential.WF (cred : ComplexCredential) : Prop :=
  (Credential.complex cred.subCreds cred.numShares cred.threshold).WF

mutual

/-- The passwords and keys of a tree, in order. -/
def Credential.leaves : Credential → List Credential
  | .complex subs _ _ => leavesOf subs
  | c => [c]

def leavesOf : List (Nat × Credential) → List Credential
  | [] => []
  | (_, c) :: rest => c.leaves ++ leavesOf rest

end

namespace Proto

mutual

/-- The encrypted blobs of a composite key, in order. -/
def CompositeKey.blobs : CompositeKey → List Bytes
  | .mk _ parts => blobsOf parts

def blobsOf : List EncryptedKeyParts → List Bytes
  | [] => []
  | p :: ps => p.blobs ++ blobsOf ps

def EncryptedKeyParts.blobs : EncryptedKeyParts → List Bytes
  | .mk _ d => d.blobs

def KeyData.blobs : KeyData → List Bytes
  | .missing => []
  | .encrypted b => [b]
  | .composite c => c.blobs

end

end Proto

open HeaderCrypto

/-- What it means to hold the secret for a leaf: the same password, the same symmetric key, or the private key of
the pair. -/
def Opens (C : Crypto) (supplied leaf : Credential) : Prop :=
  match leaf with
  | .password p => supplied = .password p
  | .symmetricKey k => supplied = .symmetricKey k
  | .publicKey pk => ∃ seed, (C.keypair seed).1 = pk ∧ supplied = .privateKey (C.keypair seed).2
  | _ => False

open Classical in
/-- The leaves opened by a list of supplied credentials. -/
noncomputable def heldBy (C : Crypto) (supplied : List Credential) (leaf : Credential) : Bool :=
  decide (∃ c ∈ supplied, Opens C c leaf)

/-- Bytes of a 32-bit number, least significant first. -/
def le32 (i : Nat) : Bytes :=
  [UInt8.ofNat i, UInt8.ofNat (i / 2 ^ 8), UInt8.ofNat (i / 2 ^ 16), UInt8.ofNat (i / 2 ^ 24)]

/-- The nonce for parts sealed with a password or symmetric key: "ryptrecp" and the index of the recipient. -/
def wrapNonce (i : Nat) : Bytes := [114, 121, 112, 116, 114, 101, 99, 112] ++ le32 i

/-- The nonce for parts sealed with a public key: "rypt recipient", six zeros and the index of the recipient. -/
def wrapBoxNonce (i : Nat) : Bytes :=
  [114, 121, 112, 116, 32, 114, 101, 99, 105, 112, 105, 101, 110, 116, 0, 0, 0, 0, 0, 0] ++ le32 i

/-- The key that a password stands for in a file: the password stretched with a salt made from the public ephemeral key
of the file (MAC under "rypt kdf salt" and 19 zeros). -/
def passwordKey (C : Crypto) (ephemeralPk password : Bytes) : Bytes :=
  C.keyDerivation password ((C.hmac ephemeralPk
    ([114, 121, 112, 116, 32, 107, 100, 102, 32, 115, 97, 108, 116] ++ List.replicate 19 0)).take 16)

/-- The key that a symmetric key stands for in a file: the MAC of the public ephemeral key of the file and the symmetric
key (under "rypt symmetric secret" and 11 zeros). -/
def secretKey (C : Crypto) (ephemeralPk key : Bytes) : Bytes :=
  C.hmac (ephemeralPk ++ key)
    ([114, 121, 112, 116, 32, 115, 121, 109, 109, 101, 116, 114, 105, 99, 32, 115, 101, 99, 114, 101, 116] ++
      List.replicate 11 0)

/-- Opening a sealed part: the last 16 bytes are the MAC. -/
def openSealed (opener : Bytes → Bytes → Option Bytes) (blob : Bytes) : Option Bytes :=
  if 16 ≤ blob.length then opener (blob.take (blob.length - 16)) (blob.drop (blob.length - 16)) else none

/-- Trying one supplied credential on a sealed part, in terms of the primitives. -/
def tryOpen (C : Crypto) (ephemeralPk : Bytes) (c : Credential) (blob : Bytes) (idx : UInt32) :
    Res (Option Bytes) :=
  match c with
  | .password p => .ok (openSealed (C.aeadDecrypt (passwordKey C ephemeralPk p) (wrapNonce idx.toNat) []) blob)
  | .symmetricKey k => .ok (openSealed (C.aeadDecrypt (secretKey C ephemeralPk k) (wrapNonce idx.toNat) []) blob)
  | .privateKey sk =>
    if blob.length < 16 then .ok none
    else
      match C.boxBeforenm ephemeralPk sk with
      | none => .err .invalidKeyPair
      | some k => .ok (openSealed (C.boxOpen k (wrapBoxNonce idx.toNat)) blob)
  | _ => .panic

/-- In this header, no supplied credential that does not belong to a leaf is accepted for it, or fails in another way
than "wrong key". (Real primitives satisfy this except with negligible probability.) -/
def WrongCredentialsDetected (C : Crypto) (ephemeralPk : Bytes) (leaves : List Credential) (blobs : List Bytes)
    (supplied : List Credential) : Prop :=
  ∀ i leaf blob, leaves[i]? = some leaf → blobs[i]? = some blob → ∀ c ∈ supplied, ¬ Opens C c leaf →
    tryOpen C ephemeralPk c blob (UInt32.ofNat i) = .ok none

/-- Credentials accepted when decrypting: passwords, symmetric keys and private keys
(the others make the code panic; the command line never produces them, see C45). -/
def Usable : Credential → Prop
  | .password _ => True
  | .symmetricKey _ => True
  | .privateKey _ => True
  | _ => False

/-- The secret held at a leaf is found by the supplied credentials in no other way than holding it: in the header
`hdr`, no supplied credential is accepted for a leaf it does not belong to. -/
def HeaderDetectsWrongCredentials (C : Crypto) (hdr : Bytes) (cred : ComplexCredential)
    (supplied : List Credential) : Prop :=
  ∀ hd ck, Proto.decodeHeader hdr = some hd → hd.payloadKey = some ck →
    WrongCredentialsDetected C hd.ephemeralPk (leavesOf cred.subCreds) ck.blobs supplied

open Proto

mutual

/-- Key data whose decryptions have consistent sizes: whatever the decryptors make of a blob has the length
required by its place in the tree, `len` bytes. -/
def KeyData.Sized (ds : List Decryptor) : KeyData → Nat → Prop
  | .missing, _ => True
  | .encrypted b, len => ∀ idx m, tryDecryptors ds b idx = .ok (some m) → m.length = len
  | .composite (.mk _ ps), len => PartsSized ds ps len

/-- All members of a group with parts of `len` bytes. -/
def PartsSized (ds : List Decryptor) : List EncryptedKeyParts → Nat → Prop
  | [], _ => True
  | p :: ps, len => EncryptedKeyParts.Sized ds p len ∧ PartsSized ds ps len

/-- A member with `n` parts of `len` bytes (0 stands for 1). -/
def EncryptedKeyParts.Sized (ds : List Decryptor) : EncryptedKeyParts → Nat → Prop
  | .mk n d, len => KeyData.Sized ds d (max n 1 * len)

end

mutual

/-- Key data which the decryptors may turn into `len` bytes: a blob one of them opens, or a group with a part of that length. -/
inductive KeyData.Yields (ds : List Decryptor) : KeyData → Nat → Prop where
  | blob (b m : Bytes) (idx : UInt32) : tryDecryptors ds b idx = .ok (some m) → KeyData.Yields ds (.encrypted b) m.length
  | group (t : Nat) (ps : List EncryptedKeyParts) (p : EncryptedKeyParts) (len : Nat) : p ∈ ps → PartsYield ds p len →
      KeyData.Yields ds (.composite (.mk t ps)) len

/-- A member of a group which may yield parts of `len` bytes. -/
inductive PartsYield (ds : List Decryptor) : EncryptedKeyParts → Nat → Prop where
  | mk (n : Nat) (d : KeyData) (len : Nat) : KeyData.Yields ds d (max n 1 * len) → PartsYield ds (.mk n d) len

end

/-- The number of parts of a member of a group (0 stands for 1). -/
def partsIn : EncryptedKeyParts → Nat
  | .mk n _ => max n 1

mutual

/-- A group with a flaw: all parts of it, two at least, are to be put together, and two of them may have different lengths; or
one of its members has a flaw. (Numbers of parts are 64-bit numbers.) -/
inductive FlawedGroup (ds : List Decryptor) : CompositeKey → Prop where
  | unequal (t : Nat) (ps : List EncryptedKeyParts) (p q : EncryptedKeyParts) (a b : Nat) : 2 ≤ t → t = (ps.map partsIn).sum % 2 ^ 64 →
      p ∈ ps → q ∈ ps → PartsYield ds p a → PartsYield ds q b → a ≠ b → FlawedGroup ds (.mk t ps)
  | member (t : Nat) (ps : List EncryptedKeyParts) (p : EncryptedKeyParts) : p ∈ ps → FlawedMember ds p → FlawedGroup ds (.mk t ps)

/-- A member of a group with a flaw: it has two parts or more, and no bytes for them; or it is a group with a flaw. -/
inductive FlawedMember (ds : List Decryptor) : EncryptedKeyParts → Prop where
  | empty (n : Nat) (d : KeyData) : 2 ≤ n → KeyData.Yields ds d 0 → FlawedMember ds (.mk n d)
  | group (n : Nat) (ck : CompositeKey) : FlawedGroup ds ck → FlawedMember ds (.mk n (.composite ck))

end

end Rypt
