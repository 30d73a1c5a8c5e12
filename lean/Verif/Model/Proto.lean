import Verif.Model.Endian

/-!
Model of the protobuf messages of src/proto/header.proto and of their wire encoding.

The generated code (prost 0.5.0) is not part of /repo. The encoding below follows the proto3 wire format as prost
implements it: fields in tag order, default scalars and empty byte strings skipped, members of a `oneof` always
written when set. The decoder accepts fields in any order, skips unknown tags, lets the last occurrence of a
scalar or `oneof` win, and merges repeated occurrences of the `payload_key` message.
Simplifications: group wire types (3, 4) are an error in any position; decoding a message first splits it
into fields, so only the success value is meaningful, not which decode error is reported; nesting depth is unbounded
(prost would exhaust the stack).
-/

namespace Rypt.Proto

mutual

/-- src/proto/header.proto:39-50 `CompositeKey`. -/
inductive CompositeKey where
  | mk (threshold : Nat) (keyParts : List EncryptedKeyParts)

/-- src/proto/header.proto:54-68 `EncryptedKeyParts`. -/
inductive EncryptedKeyParts where
  | mk (numKeyParts : Nat) (keyData : KeyData)

/-- src/proto/header.proto:60-67, the `oneof key_data`; `missing` when unset. -/
inductive KeyData where
  | missing
  | encrypted (data : Bytes)
  | composite (key : CompositeKey)

end

instance : Inhabited CompositeKey := ⟨.mk 0 []⟩
instance : Inhabited EncryptedKeyParts := ⟨.mk 0 .missing⟩

/-- src/proto/header.proto:46. -/
def CompositeKey.threshold : CompositeKey → Nat | .mk t _ => t
/-- src/proto/header.proto:49. -/
def CompositeKey.keyParts : CompositeKey → List EncryptedKeyParts | .mk _ p => p
/-- src/proto/header.proto:56. -/
def EncryptedKeyParts.numKeyParts : EncryptedKeyParts → Nat | .mk n _ => n
/-- src/proto/header.proto:60-67. -/
def EncryptedKeyParts.keyData : EncryptedKeyParts → KeyData | .mk _ d => d

/-- src/proto/header.proto:7-22 `RyptFileHeader`. `cryptoFamily` is the `aead_algorithm` field (a 32-bit enum
value) of the only crypto family, src/proto/header.proto:25-33. -/
structure RyptFileHeader where
  cryptoFamily : Option Nat
  ephemeralPk : Bytes
  payloadKey : Option CompositeKey
  protectedHeader : Bytes

/-- src/proto/header.proto:81-95 `ProtectedHeader`. -/
structure ProtectedHeader where
  plaintextChunkSize : Nat
  senderAuthType : Nat
  senderPk : Bytes
  deriving DecidableEq, Repr

/-! ### Ranges guaranteed by the Rust types -/

mutual
/-- Integers in the ranges of their Rust types (`u64`), src/proto/header.proto:46. -/
def CompositeKey.Fits : CompositeKey → Prop
  | .mk t ps => t < 2 ^ 64 ∧ FitsList ps
/-- See `CompositeKey.Fits`; src/proto/header.proto:49. -/
def FitsList : List EncryptedKeyParts → Prop
  | [] => True
  | p :: ps => p.Fits ∧ FitsList ps
/-- See `CompositeKey.Fits`; src/proto/header.proto:56. -/
def EncryptedKeyParts.Fits : EncryptedKeyParts → Prop
  | .mk n d => n < 2 ^ 64 ∧ d.Fits
/-- See `CompositeKey.Fits`; src/proto/header.proto:60-67. -/
def KeyData.Fits : KeyData → Prop
  | .missing => True
  | .encrypted _ => True
  | .composite c => c.Fits
end

/-- The 32- and 64-bit fields of a header are in range (`i32` enum, src/proto/header.proto:32). -/
def RyptFileHeader.Fits (h : RyptFileHeader) : Prop :=
  (∀ alg, h.cryptoFamily = some alg → alg < 2 ^ 32) ∧ (∀ ck, h.payloadKey = some ck → ck.Fits)

/-! ### Wire format -/

/-- prost `encode_varint`: at most ten groups of seven bits, least significant first. Used by src/util.rs:121. -/
def encodeVarintAux : Nat → Nat → Bytes
  | 0, _ => []
  | k + 1, n => if n < 128 then [UInt8.ofNat n] else UInt8.ofNat (n % 128 + 128) :: encodeVarintAux k (n / 128)

/-- prost's varint encoder, for src/util.rs:121. -/
def encodeVarint (n : Nat) : Bytes := encodeVarintAux 10 n

/-- prost `decode_varint`: up to ten bytes; bits beyond 64 are dropped. `shift` is the weight of the next group.
Used by src/header_crypto.rs:437, 471. -/
def decodeVarintAux : Nat → Nat → Nat → Bytes → Option (Nat × Bytes)
  | 0, _, _, _ => none
  | _ + 1, _, _, [] => none
  | k + 1, weight, acc, b :: bs =>
    let acc := acc + (b.toNat % 128) * weight
    if b.toNat < 128 then some (acc % 2 ^ 64, bs) else decodeVarintAux k (weight * 128) acc bs

/-- prost's varint decoder, called by src/header_crypto.rs:437, 471. -/
def decodeVarint (b : Bytes) : Option (Nat × Bytes) := decodeVarintAux 10 1 0 b

/-- Field values by wire type. Of src/proto/header.proto:7-95. -/
inductive WireVal where
  | varint (n : Nat)
  | fixed64 (n : Nat)
  | bytes (b : Bytes)
  | fixed32 (n : Nat)

/-- Field key: tag and wire type. prost, for src/util.rs:121. -/
def encodeKey (tag wire : Nat) : Bytes := encodeVarint (tag * 8 + wire)

/-- Scalar field, skipped when default. src/proto/header.proto:46, 56. -/
def encodeUint (tag n : Nat) : Bytes :=
  if n = 0 then [] else encodeKey tag 0 ++ encodeVarint n

/-- Length-delimited field. src/proto/header.proto:10, 18, 49, 63, 66. -/
def encodeBytes (tag : Nat) (b : Bytes) : Bytes :=
  encodeKey tag 2 ++ encodeVarint b.length ++ b

/-- `bytes` field, skipped when empty. src/proto/header.proto:15, 21, 94. -/
def encodeBytesOpt (tag : Nat) (b : Bytes) : Bytes :=
  if b = [] then [] else encodeBytes tag b

/-- `enum` field: a 32-bit value, sign-extended to 64 bits on the wire, skipped when zero. src/proto/header.proto:32, 89. -/
def encodeEnum (tag v : Nat) : Bytes :=
  if v = 0 then []
  else encodeKey tag 0 ++ encodeVarint (if v < 2 ^ 31 then v else v + (2 ^ 64 - 2 ^ 32))

/-- `fixed64` field, skipped when zero. src/proto/header.proto:86. -/
def encodeFixed64 (tag n : Nat) : Bytes :=
  if n = 0 then [] else encodeKey tag 1 ++ leBytes 8 n

/-- One field from the front of a buffer. prost, called by src/header_crypto.rs:437, 471. -/
def parseField (b : Bytes) : Option ((Nat × WireVal) × Bytes) := do
  let (key, b) ← decodeVarint b
  if key ≥ 2 ^ 32 then none
  let tag := key / 8
  if tag = 0 then none
  match key % 8 with
  | 0 =>
    let (n, b) ← decodeVarint b
    some ((tag, .varint n), b)
  | 1 => if 8 ≤ b.length then some ((tag, .fixed64 (leNat (b.take 8))), b.drop 8) else none
  | 2 =>
    let (len, b) ← decodeVarint b
    if len ≤ b.length then some ((tag, .bytes (b.take len)), b.drop len) else none
  | 5 => if 4 ≤ b.length then some ((tag, .fixed32 (leNat (b.take 4))), b.drop 4) else none
  | _ => none

/-- All fields of a buffer. The first argument bounds the number of fields; the buffer's length is always enough.
prost, called by src/header_crypto.rs:437, 471. -/
def parseFields : Nat → Bytes → Option (List (Nat × WireVal))
  | _, [] => some []
  | 0, _ :: _ => none
  | k + 1, b => do
    let (f, rest) ← parseField b
    let fs ← parseFields k rest
    some (f :: fs)

/-! ### Encoding of the messages -/

mutual

/-- src/proto/header.proto:39-50, serialized. -/
def encodeCompositeKey : CompositeKey → Bytes
  | .mk threshold keyParts => encodeUint 1 threshold ++ encodeKeyPartsList keyParts

/-- The repeated field `key_parts` (src/proto/header.proto:49). -/
def encodeKeyPartsList : List EncryptedKeyParts → Bytes
  | [] => []
  | p :: ps => encodeBytes 2 (encodeEncryptedKeyParts p) ++ encodeKeyPartsList ps

/-- src/proto/header.proto:54-68, serialized. -/
def encodeEncryptedKeyParts : EncryptedKeyParts → Bytes
  | .mk numKeyParts keyData => encodeUint 1 numKeyParts ++ encodeKeyData keyData

/-- The `oneof key_data` (src/proto/header.proto:60-67). -/
def encodeKeyData : KeyData → Bytes
  | .missing => []
  | .encrypted b => encodeBytes 2 b
  | .composite c => encodeBytes 3 (encodeCompositeKey c)

end

/-- src/proto/header.proto:7-22 serialized (`serialize_proto`, src/util.rs:118-123). -/
def encodeHeader (h : RyptFileHeader) : Bytes :=
  (match h.cryptoFamily with | none => [] | some alg => encodeBytes 1 (encodeEnum 1 alg)) ++
  encodeBytesOpt 6 h.ephemeralPk ++
  (match h.payloadKey with | none => [] | some ck => encodeBytes 7 (encodeCompositeKey ck)) ++
  encodeBytesOpt 8 h.protectedHeader

/-- src/proto/header.proto:81-95 serialized. -/
def encodeProtectedHeader (p : ProtectedHeader) : Bytes :=
  encodeEnum 1 p.senderAuthType ++ encodeBytesOpt 2 p.senderPk ++ encodeFixed64 4 p.plaintextChunkSize

/-! ### Decoding of the messages -/

/-- Merge one field into a `CompositeKey`, given the decoder of `EncryptedKeyParts`. src/proto/header.proto:39-50. -/
def mergeCompositeKey (decodeParts : Bytes → Option EncryptedKeyParts) (acc : CompositeKey) :
    Nat × WireVal → Option CompositeKey
  | (1, .varint n) => some (.mk n acc.keyParts)
  | (1, _) => none
  | (2, .bytes b) => do
    let p ← decodeParts b
    some (.mk acc.threshold (acc.keyParts ++ [p]))
  | (2, _) => none
  | _ => some acc

/-- Merge one field into an `EncryptedKeyParts`, given the decoder of `CompositeKey`. src/proto/header.proto:54-68. -/
def mergeEncryptedKeyParts (decodeComposite : Bytes → Option CompositeKey) (acc : EncryptedKeyParts) :
    Nat × WireVal → Option EncryptedKeyParts
  | (1, .varint n) => some (.mk n acc.keyData)
  | (1, _) => none
  | (2, .bytes b) => some (.mk acc.numKeyParts (.encrypted b))
  | (2, _) => none
  | (3, .bytes b) => do
    let c ← decodeComposite b
    some (.mk acc.numKeyParts (.composite c))
  | (3, _) => none
  | _ => some acc

mutual

/-- `CompositeKey` from a buffer, merging into `acc`; the first argument bounds the nesting depth. src/proto/header.proto:39-50. -/
def decodeCompositeKey : Nat → CompositeKey → Bytes → Option CompositeKey
  | 0, _, _ => none
  | fuel + 1, acc, b => do
    let fs ← parseFields b.length b
    fs.foldlM (mergeCompositeKey (decodeEncryptedKeyParts fuel)) acc

/-- `EncryptedKeyParts` from a buffer. src/proto/header.proto:54-68. -/
def decodeEncryptedKeyParts : Nat → Bytes → Option EncryptedKeyParts
  | 0, _ => none
  | fuel + 1, b => do
    let fs ← parseFields b.length b
    fs.foldlM (mergeEncryptedKeyParts (decodeCompositeKey fuel default)) default

end

/-- `LibsodiumCryptoFamily` from a buffer: the value of `aead_algorithm` (32 bits of the varint). src/proto/header.proto:25-33. -/
def decodeCryptoFamily (b : Bytes) : Option Nat := do
  let fs ← parseFields b.length b
  fs.foldlM (fun acc f => match f with
    | (1, .varint n) => some (n % 2 ^ 32)
    | (1, _) => none
    | _ => some acc) 0

/-- Merge one field into a `RyptFileHeader`. src/proto/header.proto:7-22. -/
def mergeHeader (h : RyptFileHeader) : Nat × WireVal → Option RyptFileHeader
  | (1, .bytes b) => do
    let alg ← decodeCryptoFamily b
    some { h with cryptoFamily := some alg }
  | (1, _) => none
  | (6, .bytes b) => some { h with ephemeralPk := b }
  | (6, _) => none
  | (7, .bytes b) => do
    let ck ← decodeCompositeKey (b.length + 1) (h.payloadKey.getD default) b
    some { h with payloadKey := some ck }
  | (7, _) => none
  | (8, .bytes b) => some { h with protectedHeader := b }
  | (8, _) => none
  | _ => some h

/-- `RyptFileHeader::decode` (src/header_crypto.rs:437). -/
def decodeHeader (b : Bytes) : Option RyptFileHeader := do
  let fs ← parseFields b.length b
  fs.foldlM mergeHeader { cryptoFamily := none, ephemeralPk := [], payloadKey := none, protectedHeader := [] }

/-- Merge one field into a `ProtectedHeader`. src/proto/header.proto:81-95. -/
def mergeProtectedHeader (p : ProtectedHeader) : Nat × WireVal → Option ProtectedHeader
  | (1, .varint n) => some { p with senderAuthType := n % 2 ^ 32 }
  | (1, _) => none
  | (2, .bytes b) => some { p with senderPk := b }
  | (2, _) => none
  | (4, .fixed64 n) => some { p with plaintextChunkSize := n }
  | (4, _) => none
  | _ => some p

/-- `ProtectedHeader::decode` (src/header_crypto.rs:471). -/
def decodeProtectedHeader (b : Bytes) : Option ProtectedHeader := do
  let fs ← parseFields b.length b
  fs.foldlM mergeProtectedHeader { plaintextChunkSize := 0, senderAuthType := 0, senderPk := [] }

end Rypt.Proto
