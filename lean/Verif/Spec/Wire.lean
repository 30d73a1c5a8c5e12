import Verif.Spec.Later
import Verif.Spec.File
import Verif.Model.Proto
import Mathlib.Data.List.Forall2

/-!
What messages mean: an independent description of the messages of src/proto/header.proto in the encoding of protobuf. Fields can be in any
order and numbers in any length. Of a field that occurs more than once the last one counts; messages that occur more than once are put
together.
-/

namespace Rypt.Spec

open Proto

/-- A number of 64 bits in at most ten bytes. Bits above the 64th are ignored. -/
def Num (n : Nat) (bs : Bytes) : Prop := ∃ m, Base128 m bs ∧ bs.length ≤ 10 ∧ n = m % 2 ^ 64

/-- What starts a field: its number and its kind. -/
def Start (tag kind : Nat) (bs : Bytes) : Prop := 0 < tag ∧ tag < 2 ^ 29 ∧ Num (8 * tag + kind) bs

/-- The contents of a field: a number, eight bytes, a string of bytes, four bytes. -/
inductive Val where
  | number (n : Nat)
  | eight (b : Bytes)
  | bytes (b : Bytes)
  | four (b : Bytes)

/-- The bytes are these fields, one after another. -/
inductive Fields : List (Nat × Val) → Bytes → Prop where
  | nil : Fields [] []
  | number (tag n : Nat) (k v : Bytes) (fs : List (Nat × Val)) (b : Bytes) : Start tag 0 k → Num n v → Fields fs b →
      Fields ((tag, .number n) :: fs) (k ++ v ++ b)
  | eight (tag : Nat) (k v : Bytes) (fs : List (Nat × Val)) (b : Bytes) : Start tag 1 k → v.length = 8 → Fields fs b →
      Fields ((tag, .eight v) :: fs) (k ++ v ++ b)
  | bytes (tag : Nat) (k l v : Bytes) (fs : List (Nat × Val)) (b : Bytes) : Start tag 2 k → Num v.length l → Fields fs b →
      Fields ((tag, .bytes v) :: fs) (k ++ l ++ v ++ b)
  | four (tag : Nat) (k v : Bytes) (fs : List (Nat × Val)) (b : Bytes) : Start tag 5 k → v.length = 4 → Fields fs b →
      Fields ((tag, .four v) :: fs) (k ++ v ++ b)

/-- The contents of the fields with a number, in order. -/
def valuesAt (tag : Nat) (fs : List (Nat × Val)) : List Val := (fs.filter fun f => f.1 = tag).map Prod.snd

/-- The fields with this number are numbers; the last is `n`, or there are none and `n` is 0. -/
def NumberIs (tag : Nat) (fs : List (Nat × Val)) (n : Nat) : Prop :=
  ∃ ns : List Nat, valuesAt tag fs = ns.map .number ∧ n = ns.getLast?.getD 0

/-- The fields with this number are the strings `bs`. -/
def BytesAre (tag : Nat) (fs : List (Nat × Val)) (bs : List Bytes) : Prop := valuesAt tag fs = bs.map .bytes

mutual

/-- A group, in one or more pieces: field 1 is the threshold, fields 2 are the members. -/
inductive ReadsGroup : List Bytes → CompositeKey → Prop
  | mk (bs : List Bytes) (fss : List (List (Nat × Val))) (t : Nat) (cs : List Bytes) (ps : List EncryptedKeyParts)
      (hfields : List.Forall₂ Fields fss bs) (ht : NumberIs 1 fss.flatten t) (hcs : BytesAre 2 fss.flatten cs)
      (hps : ReadsMembers cs ps) : ReadsGroup bs (.mk t ps)

inductive ReadsMembers : List Bytes → List EncryptedKeyParts → Prop
  | nil : ReadsMembers [] []
  | cons (c : Bytes) (p : EncryptedKeyParts) (cs : List Bytes) (ps : List EncryptedKeyParts) (hp : ReadsMember c p)
      (hps : ReadsMembers cs ps) : ReadsMembers (c :: cs) (p :: ps)

/-- A member of a group: field 1 is the number of shares, fields 2 and 3 exclude each other: sealed shares, or a group. -/
inductive ReadsMember : Bytes → EncryptedKeyParts → Prop
  | mk (b : Bytes) (fs : List (Nat × Val)) (n : Nat) (d : KeyData) (hfields : Fields fs b) (hn : NumberIs 1 fs n)
      (hd : ReadsData (fs.filter fun f => f.1 = 2 ∨ f.1 = 3) d) : ReadsMember b (.mk n d)

/-- The last of these fields counts, but all must be well formed. -/
inductive ReadsData : List (Nat × Val) → KeyData → Prop
  | missing : ReadsData [] .missing
  | sealed (fs : List (Nat × Val)) (d : KeyData) (b : Bytes) (hfs : ReadsData fs d) : ReadsData (fs ++ [(2, .bytes b)]) (.encrypted b)
  | group (fs : List (Nat × Val)) (d : KeyData) (b : Bytes) (ck : CompositeKey) (hfs : ReadsData fs d) (hck : ReadsGroup [b] ck) :
      ReadsData (fs ++ [(3, .bytes b)]) (.composite ck)

end

/-- The family of algorithms: field 1 is the number of the algorithm, in 32 bits. -/
def ReadsFamily (b : Bytes) (alg : Nat) : Prop := ∃ fs n, Fields fs b ∧ NumberIs 1 fs n ∧ alg = n % 2 ^ 32

/-- The header: field 1 is the family, 6 the ephemeral public key, 7 the group of the payload key, 8 the protected part. -/
def ReadsHeader (b : Bytes) (hd : RyptFileHeader) : Prop :=
  ∃ fs fams, ∃ algs : List Nat, ∃ epks groups parts, Fields fs b ∧ BytesAre 1 fs fams ∧ BytesAre 6 fs epks ∧ BytesAre 7 fs groups ∧ BytesAre 8 fs parts ∧
    List.Forall₂ ReadsFamily fams algs ∧ hd.cryptoFamily = algs.getLast? ∧
    hd.ephemeralPk = epks.getLast?.getD [] ∧
    (groups = [] ∧ hd.payloadKey = none ∨ groups ≠ [] ∧ ∃ ck, ReadsGroup groups ck ∧ hd.payloadKey = some ck) ∧
    hd.protectedHeader = parts.getLast?.getD []

/-- The protected part: field 1 is the type of the sender, in 32 bits, 2 the public key of the sender, 4 the size of chunks in eight
bytes. -/
def ReadsProtected (b : Bytes) (ph : ProtectedHeader) : Prop :=
  ∃ fs n pks, ∃ sizes : List Bytes, Fields fs b ∧ NumberIs 1 fs n ∧ BytesAre 2 fs pks ∧ valuesAt 4 fs = sizes.map .eight ∧
    ph.senderAuthType = n % 2 ^ 32 ∧ ph.senderPk = pks.getLast?.getD [] ∧
    ph.plaintextChunkSize < 2 ^ 64 ∧ le64 ph.plaintextChunkSize = sizes.getLast?.getD (List.replicate 8 0)

end Rypt.Spec
