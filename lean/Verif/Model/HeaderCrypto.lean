import Verif.Model.Crypto
import Verif.Model.Credentials
import Verif.Model.Shamir
import Verif.Model.Proto
import Verif.Model.HeaderIO

/-!
Model of src/header_crypto.rs.
-/

namespace Rypt

/-- src/util.rs:125-128 `xor_vec`: asserts equal lengths. -/
def xorVec (a b : Bytes) : Res Bytes :=
  if a.length ≠ b.length then .panic else .ok (List.zipWith (· ^^^ ·) a b)

namespace HeaderCrypto

open Proto HeaderIO

/-- src/header_crypto.rs:28-30. -/
def DEFAULT_CHUNK_SIZE : Nat := 1024 * 1024
/-- src/header_crypto.rs:29. -/
def DEFAULT_CHUNK_SIZE_UNCERTAINTY : Nat := 4096
/-- src/header_crypto.rs:30. -/
def MAX_CHUNK_SIZE : Nat := 1024 * 1024 * 1024

/-- ASCII bytes of a string constant. The literals in src/header_crypto.rs:33-38. -/
def ascii (s : String) : Bytes := s.toList.map fun c => UInt8.ofNat c.toNat

/-- src/header_crypto.rs:33. -/
def ENCRYPTED_HEADER_NONCE : Bytes := ascii "rypt enc hdr"
/-- src/header_crypto.rs:34. -/
def KDF_SALT_NONCE : Bytes := ascii "rypt kdf salt" ++ List.replicate 19 0
/-- src/header_crypto.rs:35. -/
def SYMMETRIC_SECRET_NONCE : Bytes := ascii "rypt symmetric secret" ++ List.replicate 11 0
/-- src/header_crypto.rs:36. -/
def RECIPIENT_NONCE : Bytes := ascii "ryptrecp####"
/-- src/header_crypto.rs:37. -/
def RECIP_IDX_POS : Nat := AEAD_NONCE_LEN - 4
/-- src/header_crypto.rs:38. -/
def RECIPIENT_BOX_NONCE : Bytes := ascii "rypt recipient" ++ List.replicate 6 0 ++ ascii "####"
/-- src/header_crypto.rs:39. -/
def RECIP_BOX_IDX_POS : Nat := BOX_NONCE_LEN - 4

/-- Encryption options (src/commands/mod.rs `EncryptOptions`), as far as the header needs them. src/commands/mod.rs:21-25. -/
structure EncryptOptions where
  credential : ComplexCredential
  fastAead : Bool

/-- src/header_crypto.rs:42-50: the enum value written to the header
(src/proto/header.proto:26-31: ChaCha20-Poly1305 = 1, AES256-GCM = 2). -/
def cryptoFamilyFromOpts (opts : EncryptOptions) : Option Nat :=
  some (if opts.fastAead then 2 else 1)

/-- src/header_crypto.rs:53-65. -/
def cryptosysFromProto (L : CryptoLib) : Option Nat → Res Crypto
  | some 1 => L.instantiate .chaCha20Poly1305Ietf
  | some 2 => L.instantiate .aes256Gcm
  | some _ => .err .unknownAlgorithm
  | none => .err .unknownCryptoFamily

/-- src/header_crypto.rs:67-89. -/
def recipientSecretKey (C : Crypto) (ephemeralPk : Bytes) : Credential → Res Bytes
  | .password p => .ok (C.keyDerivation p ((C.hmac ephemeralPk KDF_SALT_NONCE).take KDF_SALT_LEN))
  | .symmetricKey k => .ok (C.hmac (ephemeralPk ++ k) SYMMETRIC_SECRET_NONCE)
  | _ => .panic

/-- src/header_crypto.rs:91-95. -/
def recipientSecretNonce (idx : UInt32) : Bytes :=
  RECIPIENT_NONCE.take RECIP_IDX_POS ++ leBytes 4 idx.toNat

/-- src/header_crypto.rs:97-101. -/
def recipientBoxNonce (idx : UInt32) : Bytes :=
  RECIPIENT_BOX_NONCE.take RECIP_BOX_IDX_POS ++ leBytes 4 idx.toNat

/-- src/header_crypto.rs:125-131: draw `k` random parts, XORing each into `xorPart`; returns the parts, then the
final `xorPart`. -/
def xorSplit (keyLen : Nat) : Nat → Bytes → Tape → Res (List Bytes × Tape)
  | 0, xorPart, tape => .ok ([xorPart], tape)
  | k + 1, xorPart, tape => do
    let (v, tape) := tape.fill keyLen
    let xorPart ← xorVec xorPart v
    let (parts, tape) ← xorSplit keyLen k xorPart tape
    return (v :: parts, tape)

/-- src/header_crypto.rs:103-137 `split_key_into_key_parts`. The product of line 115 wraps in release builds. -/
def splitKey (key : Bytes) (numParts threshold : Nat) (tape : Tape) : Res (List Bytes × Tape) :=
  if ¬ threshold ≠ 0 then .err .invalidThreshold
  else if ¬ threshold ≤ numParts then .err .invalidThreshold
  else if ¬ wrap64 (key.length * numParts) < MAX_HEADER_LEN then .err .keyPartsTooLarge
  else if threshold = 1 then .ok (List.replicate numParts key, tape)
  else if threshold = numParts then xorSplit key.length (numParts - 1) key tape
  else Shamir.createSecretShares key numParts threshold tape

/-- src/header_crypto.rs:141-143. -/
def oneToZero (val : Nat) : Nat := if val = 1 then 0 else val

/-- State threaded through the encryption of a composite key: the next recipient index (`key_idx`, wraps at
2^32 in release builds) and the random tape. src/header_crypto.rs:145-218. -/
structure KeyState where
  keyIdx : UInt32
  tape : Tape

/-- src/header_crypto.rs:153-155 and 214-217: split the key, encrypt the parts with `encryptSubs`, wrap up. -/
def compositeWith (encryptSubs : List Bytes → KeyState → Res (List EncryptedKeyParts × KeyState))
    (key : Bytes) (numShares threshold : Nat) (st : KeyState) : Res (CompositeKey × KeyState) := do
  let (keyParts, tape) ← splitKey key numShares threshold st.tape
  let (parts, st) ← encryptSubs keyParts { st with tape := tape }
  return (.mk (oneToZero threshold) parts, st)

mutual

/-- src/header_crypto.rs:165-205: key data for one member. -/
def encryptKeyData (C : Crypto) (ephemeralPk ephemeralSk : Bytes) :
    Credential → Bytes → KeyState → Res (KeyData × KeyState)
  | .password p, keyPart, st => do
    let secretKey ← recipientSecretKey C ephemeralPk (.password p)
    let nonce := recipientSecretNonce st.keyIdx
    return (.encrypted (C.aeadEncryptEasy keyPart secretKey nonce), { st with keyIdx := st.keyIdx + 1 })
  | .symmetricKey k, keyPart, st => do
    let secretKey ← recipientSecretKey C ephemeralPk (.symmetricKey k)
    let nonce := recipientSecretNonce st.keyIdx
    return (.encrypted (C.aeadEncryptEasy keyPart secretKey nonce), { st with keyIdx := st.keyIdx + 1 })
  | .publicKey pk, keyPart, st => do
    let nonce := recipientBoxNonce st.keyIdx
    let ct ← C.boxEncryptEasy keyPart pk ephemeralSk nonce
    return (.encrypted ct, { st with keyIdx := st.keyIdx + 1 })
  | .privateKey _, _, _ => .panic
  | .complex subCreds numShares threshold, keyPart, st => do
    let (ck, st) ← compositeWith (encryptSubs C ephemeralPk ephemeralSk subCreds) keyPart numShares threshold st
    return (.composite ck, st)

/-- src/header_crypto.rs:157-212: the members in order, each taking its number of shares from the front of the
remaining key parts (`split_at` panics if there are too few). -/
def encryptSubs (C : Crypto) (ephemeralPk ephemeralSk : Bytes) :
    List (Nat × Credential) → List Bytes → KeyState → Res (List EncryptedKeyParts × KeyState)
  | [], _, st => .ok ([], st)
  | (numShares, credential) :: rest, keyParts, st =>
    if numShares > keyParts.length then .panic
    else do
      let keyPart := (keyParts.take numShares).flatten
      let (keyData, st) ← encryptKeyData C ephemeralPk ephemeralSk credential keyPart st
      let (parts, st) ← encryptSubs C ephemeralPk ephemeralSk rest (keyParts.drop numShares) st
      return (.mk (oneToZero numShares) keyData :: parts, st)

end

/-- src/header_crypto.rs:145-218 `encrypt_composite_key`. -/
def encryptCompositeKey (C : Crypto) (ephemeralPk ephemeralSk key : Bytes) (cred : ComplexCredential)
    (st : KeyState) : Res (CompositeKey × KeyState) :=
  compositeWith (encryptSubs C ephemeralPk ephemeralSk cred.subCreds) key cred.numShares cred.threshold st

/-- src/header_crypto.rs:220-230. -/
def checkChunkSize (chunkSize : Nat) : Res Unit :=
  if ¬ chunkSize ≤ MAX_CHUNK_SIZE then .err .chunkSizeTooLarge
  else if ¬ chunkSize % FILE_ALIGNMENT = 0 then .err .chunkSizeMisaligned
  else .ok ()

/-- src/stream_crypto.rs:14-19 `CryptoSystemAEADCodec`. -/
structure Codec where
  crypto : Crypto
  payloadKey : Bytes
  headerHash : Bytes
  isEncrypting : Bool

/-- The numeric value of `SenderAuthType::Anonymous` (src/proto/header.proto:72). -/
def ANONYMOUS : Nat := 1

/-- src/header_crypto.rs:239-242: the chunk size for a value drawn by `gen_range(0, 2*4096/8)`. -/
def chunkSizeOf (draw : Nat) : Nat :=
  DEFAULT_CHUNK_SIZE - DEFAULT_CHUNK_SIZE_UNCERTAINTY + draw * FILE_ALIGNMENT

/-- Upper end of the range of `draw` (src/header_crypto.rs:241). -/
def DRAW_RANGE : Nat := 2 * DEFAULT_CHUNK_SIZE_UNCERTAINTY / FILE_ALIGNMENT

/-- src/header_crypto.rs:232-289 `encrypt_header`. Simplified: the result of `gen_range` is the argument `draw`
(the theorems assume `draw < DRAW_RANGE`); everything else comes from the tape in order of consumption. -/
def encryptHeader (L : CryptoLib) (opts : EncryptOptions) (draw : Nat) (tape : Tape) :
    Res (Bytes × Codec × Nat) := do
  let cryptoFamily := cryptoFamilyFromOpts opts
  let C ← cryptosysFromProto L cryptoFamily
  let chunkSize := chunkSizeOf draw
  let _ ← checkChunkSize chunkSize
  let (payloadKey, tape) := tape.fill AEAD_KEY_LEN
  let (seed, tape) := tape.fill 32
  let (ephemeralPk, ephemeralSk) := C.keypair seed
  let protectedHeader := C.aeadEncryptEasy
    (encodeProtectedHeader { plaintextChunkSize := chunkSize, senderAuthType := ANONYMOUS, senderPk := ephemeralPk })
    payloadKey ENCRYPTED_HEADER_NONCE
  let (encryptedPayloadKey, _) ← encryptCompositeKey C ephemeralPk ephemeralSk payloadKey opts.credential
    { keyIdx := 0, tape := tape }
  let serializedHeader := encodeHeader {
    cryptoFamily := cryptoFamily
    ephemeralPk := ephemeralPk
    payloadKey := some encryptedPayloadKey
    protectedHeader := protectedHeader }
  let headerHash := C.hash serializedHeader
  return (serializedHeader,
    { crypto := C, payloadKey := payloadKey, headerHash := headerHash, isEncrypting := true }, chunkSize)

/-! ### Decryption -/

/-- src/header_crypto.rs:297 `DecryptorFn`. -/
abbrev Decryptor := Bytes → UInt32 → Res (Option Bytes)

/-- Success becomes `Some`, `InvalidCiphertext` becomes `None`, other errors stay
(src/header_crypto.rs:313-317, 327-331). -/
def toOption : Res Bytes → Res (Option Bytes)
  | .ok m => .ok (some m)
  | .err .invalidCiphertext => .ok none
  | .err e => .err e
  | .panic => .panic

/-- src/header_crypto.rs:300-338. -/
def decryptorFromCredential (C : Crypto) (ephemeralPk : Bytes) : Credential → Res Decryptor
  | .password p => do
    let secretKey ← recipientSecretKey C ephemeralPk (.password p)
    return fun ct idx => toOption (C.aeadDecryptEasy ct secretKey (recipientSecretNonce idx))
  | .symmetricKey k => do
    let secretKey ← recipientSecretKey C ephemeralPk (.symmetricKey k)
    return fun ct idx => toOption (C.aeadDecryptEasy ct secretKey (recipientSecretNonce idx))
  | .publicKey _ => .panic
  | .privateKey sk => .ok fun ct idx => toOption (C.boxDecryptEasy ct ephemeralPk sk (recipientBoxNonce idx))
  | .complex _ _ _ => .panic

/-- src/header_crypto.rs:352-355: the first decryptor that does not answer `Ok(None)` decides. -/
def tryDecryptors : List Decryptor → Bytes → UInt32 → Res (Option Bytes)
  | [], _, _ => .ok none
  | d :: ds, ct, idx =>
    match d ct idx with
    | .ok none => tryDecryptors ds ct idx
    | r => r

/-- `slice::chunks_exact(len)` (std) for a positive `len`; `n` bounds the number of chunks. Used in src/header_crypto.rs:379. -/
def chunksExact (len : Nat) : Nat → Bytes → List Bytes
  | 0, _ => []
  | n + 1, data => if data.length < len then [] else data.take len :: chunksExact len n (data.drop len)

/-- src/header_crypto.rs:369-386: distribute decrypted key data over `numKeyParts` parts. `chunks_exact(0)` panics.
The index additions wrap at 2^64 in release builds. -/
def distribute (numKeyParts keyPartIdx : Nat) : Option Bytes → Res (List (Nat × Bytes))
  | none => .ok []
  | some keyData =>
    if numKeyParts = 1 then .ok [(keyPartIdx, keyData)]
    else if ¬ keyData.length % numKeyParts = 0 then .err .keyDataLen
    else
      let keyLen := keyData.length / numKeyParts
      if keyLen = 0 then .panic
      else .ok ((chunksExact keyLen keyData.length keyData).zipIdx.map
        fun (key, idx) => (wrap64 (idx + keyPartIdx), key))

/-- src/header_crypto.rs:415-417: XOR all parts into `key`. -/
def xorAll : Bytes → List (Nat × Bytes) → Res Bytes
  | key, [] => .ok key
  | key, (_, part) :: rest => do
    let key ← xorVec key part
    xorAll key rest

/-- src/header_crypto.rs:405-429: reconstruct the key from the decrypted parts. -/
def reconstruct (threshold numKeyParts : Nat) (decrypted : List (Nat × Bytes)) : Res (Option Bytes) :=
  if threshold ≤ 1 then .ok (decrypted.getLast?.map Prod.snd)
  else if threshold = numKeyParts then
    if decrypted.length = threshold then
      match decrypted with
      | [] => .panic
      | (_, p0) :: _ => do
        let key ← xorAll (List.replicate p0.length 0) decrypted
        return some key
    else .ok none
  else
    match Shamir.recoverSecret decrypted threshold with
    | .ok key => .ok (some key)
    | .err (.notEnoughShares _ _) => .ok none
    | .err e => .err (.shares e)
    | .panic => .panic

/-- src/header_crypto.rs:390-430 given the loop over the members. -/
def compositeDecryptWith
    (decryptParts : UInt32 → Nat → Res (List (Nat × Bytes) × UInt32 × Nat))
    (threshold : Nat) (keyIdx : UInt32) : Res (Option Bytes × UInt32) := do
  let (decrypted, keyIdx, numKeyParts) ← decryptParts keyIdx 0
  let key ← reconstruct threshold numKeyParts decrypted
  return (key, keyIdx)

mutual

/-- src/header_crypto.rs:341-387 `decrypt_key_parts`; returns the parts and the advanced indices. -/
def decryptKeyParts (ds : List Decryptor) :
    EncryptedKeyParts → UInt32 → Nat → Res (List (Nat × Bytes) × UInt32 × Nat)
  | .mk numKeyParts keyData, keyIdx, keyPartIdx => do
    let (keyDataOpt, keyIdx) ← decryptKeyData ds keyData keyIdx
    let numKeyParts := max numKeyParts 1
    let parts ← distribute numKeyParts keyPartIdx keyDataOpt
    return (parts, keyIdx, wrap64 (keyPartIdx + numKeyParts))

/-- src/header_crypto.rs:348-361. -/
def decryptKeyData (ds : List Decryptor) : KeyData → UInt32 → Res (Option Bytes × UInt32)
  | .encrypted ct, keyIdx => do
    let r ← tryDecryptors ds ct keyIdx
    return (r, keyIdx + 1)
  | .composite (.mk threshold keyParts), keyIdx =>
    compositeDecryptWith (decryptPartsList ds keyParts) threshold keyIdx
  | .missing, _ => .err .missingKeyData

/-- src/header_crypto.rs:398-403: all members in order. -/
def decryptPartsList (ds : List Decryptor) :
    List EncryptedKeyParts → UInt32 → Nat → Res (List (Nat × Bytes) × UInt32 × Nat)
  | [], keyIdx, numKeyParts => .ok ([], keyIdx, numKeyParts)
  | p :: ps, keyIdx, numKeyParts => do
    let (parts, keyIdx, numKeyParts) ← decryptKeyParts ds p keyIdx numKeyParts
    let (rest, keyIdx, numKeyParts) ← decryptPartsList ds ps keyIdx numKeyParts
    return (parts ++ rest, keyIdx, numKeyParts)

end

/-- src/header_crypto.rs:390-430 `decrypt_composite_key`. -/
def decryptCompositeKey (ds : List Decryptor) (ck : CompositeKey) (keyIdx : UInt32) :
    Res (Option Bytes × UInt32) :=
  compositeDecryptWith (decryptPartsList ds ck.keyParts) ck.threshold keyIdx

/-- src/header_crypto.rs:444-460: the payload key. -/
def recoverPayloadKey (C : Crypto) (ephemeralPk : Bytes) (payloadKey : Option CompositeKey)
    (credentials : List Credential) : Res Bytes := do
  let decryptors ← credentials.mapM (decryptorFromCredential C ephemeralPk)
  match payloadKey with
  | none => .err .payloadKeyMissing
  | some ck =>
    let (key, _) ← decryptCompositeKey decryptors ck 0
    match key with
    | none => .err .insufficientCredentials
    | some key => .ok key

/-- src/header_crypto.rs:432-500 `decrypt_header`. -/
def decryptHeader (L : CryptoLib) (serializedHeader : Bytes) (credentials : List Credential) :
    Res (Codec × Nat) := do
  match decodeHeader serializedHeader with
  | none => .err .protoDecode
  | some header =>
    let C ← cryptosysFromProto L header.cryptoFamily
    if ¬ header.ephemeralPk.length = PUBLIC_KEY_LEN then .err .ephemeralPkLen
    else
      let payloadKey ← recoverPayloadKey C header.ephemeralPk header.payloadKey credentials
      if ¬ payloadKey.length = AEAD_KEY_LEN then .err .payloadKeyLen
      else
        let protectedBytes ← C.aeadDecryptEasy header.protectedHeader payloadKey ENCRYPTED_HEADER_NONCE
        match decodeProtectedHeader protectedBytes with
        | none => .err .protoDecode
        | some ph =>
          let chunkSize := ph.plaintextChunkSize
          let _ ← checkChunkSize chunkSize
          if ¬ ph.senderAuthType = ANONYMOUS then .err .senderAuth
          else if ¬ ph.senderPk = header.ephemeralPk then .err .senderPkMismatch
          else
            let headerHash := C.hash serializedHeader
            return ({ crypto := C, payloadKey := payloadKey, headerHash := headerHash, isEncrypting := false },
              chunkSize)

end HeaderCrypto
end Rypt
