import Verif.Model.Crypto
import Verif.Model.Endian
import Verif.Model.Text

/-!
Model of src/crypto/libsodium.rs, src/crypto/rng.rs and the version text: how the primitives are got from the functions of
libsodium. The functions of libsodium are arbitrary; they get the contents of the buffers whose addresses and lengths the code
passes, and give a return code and the contents of the buffer they fill.
-/

namespace Rypt.Sodium

/-- The functions of libsodium that are called (src/crypto/libsodium.rs:6-24). Simplified: they are functions of their arguments;
the random bytes that `crypto_sign_keypair` draws are an argument; return codes that the code ignores are left out. -/
structure Ffi where
  /-- `sodium_init`: -1 is failure, 1 is "already initialised" -/
  init : Int
  /-- `crypto_aead_aes256gcm_is_available` -/
  aesAvailable : Int
  /-- `sodium_version_string`, without the final zero -/
  versionString : Bytes
  /-- `crypto_hash` (SHA-512): message -/
  hash : Bytes → Bytes
  /-- `crypto_auth`: message, key -/
  auth : Bytes → Bytes → Bytes
  /-- `crypto_aead_chacha20poly1305_ietf_encrypt_detached`: message, additional data, nonce, key; ciphertext and MAC -/
  chachaEncrypt : Bytes → Bytes → Bytes → Bytes → Bytes × Bytes
  /-- `crypto_aead_aes256gcm_encrypt_detached` -/
  aesEncrypt : Bytes → Bytes → Bytes → Bytes → Bytes × Bytes
  /-- `crypto_aead_chacha20poly1305_ietf_decrypt_detached`: ciphertext, MAC, additional data, nonce, key; code and message -/
  chachaDecrypt : Bytes → Bytes → Bytes → Bytes → Bytes → Int × Bytes
  /-- `crypto_aead_aes256gcm_decrypt_detached` -/
  aesDecrypt : Bytes → Bytes → Bytes → Bytes → Bytes → Int × Bytes
  /-- `crypto_aead_chacha20poly1305_ietf_messagebytes_max` -/
  chachaMax : Nat
  /-- `crypto_aead_aes256gcm_messagebytes_max` -/
  aesMax : Nat
  /-- `crypto_sign_keypair`: random bytes; public key, secret key -/
  signKeypair : Bytes → Bytes × Bytes
  /-- `crypto_sign_ed25519_pk_to_curve25519` -/
  pkToCurve : Bytes → Int × Bytes
  /-- `crypto_sign_ed25519_sk_to_curve25519` -/
  skToCurve : Bytes → Int × Bytes
  /-- `crypto_box_beforenm`: public key, secret key -/
  beforenm : Bytes → Bytes → Int × Bytes
  /-- `crypto_box_detached_afternm`: message, nonce, shared key; ciphertext and MAC -/
  boxDetached : Bytes → Bytes → Bytes → Bytes × Bytes
  /-- `crypto_box_open_detached_afternm`: ciphertext, MAC, nonce, shared key -/
  boxOpenDetached : Bytes → Bytes → Bytes → Bytes → Int × Bytes
  /-- `crypto_sign_detached`: message, secret key -/
  signDetached : Bytes → Bytes → Bytes
  /-- `crypto_sign_verify_detached`: signature, message, public key -/
  verifyDetached : Bytes → Bytes → Bytes → Int
  /-- `crypto_pwhash` for 32 bytes with the limits for interactive use and Argon2id 1.3: password, salt -/
  pwhash : Bytes → Bytes → Int × Bytes

/-- src/crypto/libsodium.rs:27-31: the discriminants. -/
def algNumber : AeadAlgorithm → Nat
  | .chaCha20Poly1305Ietf => 1
  | .aes256Gcm => 2

/-- src/crypto/libsodium.rs:33-37 -/
def defaultAlgorithm : AeadAlgorithm := .chaCha20Poly1305Ietf

/-- src/crypto/libsodium.rs:39-42 `ALL_AEAD_ALGORITHMS` -/
def allAlgorithms : List AeadAlgorithm := [.chaCha20Poly1305Ietf, .aes256Gcm]

/-- src/crypto/libsodium.rs:44-55 `try_from` -/
def tryFrom (value : Nat) : Option AeadAlgorithm := allAlgorithms.find? (fun alg => algNumber alg = value)

/-- src/crypto/mod.rs:75-82 `CryptoInstantiationError` -/
inductive InstantiationError where
  | initializationError
  | hardwareUnsupported
  deriving DecidableEq, Repr

/-- src/crypto/libsodium.rs:62-76 `new` -/
def new (F : Ffi) (alg : AeadAlgorithm) : Except InstantiationError AeadAlgorithm :=
  if F.init = -1 then .error .initializationError
  else if alg = .aes256Gcm ∧ F.aesAvailable = 0 then .error .hardwareUnsupported
  else .ok alg

/-- src/crypto/libsodium.rs:78-88 `version`; `to_str().unwrap()` panics if the version is not UTF-8 -/
def version (F : Ffi) : Res (List Char) :=
  let suffix := match new F .aes256Gcm with
    | .ok _ => "AES256-GCM is supported"
    | .error .hardwareUnsupported => "AES256-GCM is NOT supported"
    | .error _ => "Library initialization error"
  match Text.fromUtf8 F.versionString with
  | .ok v => .ok (v ++ " [".toList ++ suffix.toList ++ "]".toList)
  | _ => .panic

/-- src/crypto/libsodium.rs:92-105: the first half. -/
def hash (F : Ffi) (message : Bytes) : Bytes := (F.hash message).take HASH_OUTPUT_LEN

/-- src/crypto/libsodium.rs:107-120 -/
def hmac (F : Ffi) (message key : Bytes) : Bytes := F.auth message key

/-- src/crypto/libsodium.rs:142-196 -/
def aeadEncrypt (F : Ffi) (alg : AeadAlgorithm) (message ad key nonce : Bytes) : Bytes × Bytes :=
  match alg with
  | .chaCha20Poly1305Ietf => F.chachaEncrypt message ad nonce key
  | .aes256Gcm => F.aesEncrypt message ad nonce key

/-- src/crypto/libsodium.rs:198-240. The message is decrypted in place; what is there after an error is not modelled. -/
def aeadDecrypt (F : Ffi) (alg : AeadAlgorithm) (message ad key nonce mac : Bytes) : Option Bytes :=
  let res := match alg with
    | .chaCha20Poly1305Ietf => F.chachaDecrypt message mac ad nonce key
    | .aes256Gcm => F.aesDecrypt message mac ad nonce key
  if res.1 ≠ 0 then none else some res.2

/-- src/crypto/libsodium.rs:242-249 -/
def aeadMaxMessageSize (F : Ffi) : AeadAlgorithm → Nat
  | .chaCha20Poly1305Ietf => F.chachaMax
  | .aes256Gcm => F.aesMax

/-- src/crypto/libsodium.rs:251-259 -/
def generateKeypair (F : Ffi) (random : Bytes) : Bytes × Bytes := F.signKeypair random

/-- src/crypto/libsodium.rs:384-421 -/
def boxBeforenm (F : Ffi) (publicKey privateKey : Bytes) : Option Bytes :=
  let pk := F.pkToCurve publicKey
  if pk.1 ≠ 0 then none
  else
    let sk := F.skToCurve privateKey
    if sk.1 ≠ 0 then none
    else
      let k := F.beforenm pk.2 sk.2
      if k.1 ≠ 0 then none else some k.2

/-- src/crypto/libsodium.rs:277-286 -/
def boxSeal (F : Ffi) (k nonce message : Bytes) : Bytes × Bytes := F.boxDetached message nonce k

/-- src/crypto/libsodium.rs:304-318 -/
def boxOpen (F : Ffi) (k nonce message mac : Bytes) : Option Bytes :=
  let res := F.boxOpenDetached message mac nonce k
  if res.1 ≠ 0 then none else some res.2

/-- src/crypto/libsodium.rs:262-289 -/
def boxEncrypt (F : Ffi) (message publicKey privateKey nonce : Bytes) : Option (Bytes × Bytes) :=
  (boxBeforenm F publicKey privateKey).map fun k => boxSeal F k nonce message

/-- src/crypto/libsodium.rs:291-319 -/
def boxDecrypt (F : Ffi) (message publicKey privateKey nonce mac : Bytes) : Option Bytes :=
  (boxBeforenm F publicKey privateKey).bind fun k => boxOpen F k nonce message mac

/-- src/crypto/libsodium.rs:321-334 -/
def sign (F : Ffi) (message privateKey : Bytes) : Bytes := F.signDetached message privateKey

/-- src/crypto/libsodium.rs:335-354: whether the signature is accepted. -/
def verify (F : Ffi) (message publicKey signature : Bytes) : Bool := !(F.verifyDetached signature message publicKey != 0)

/-- src/crypto/libsodium.rs:356-375; the assertion in line 373 panics. -/
def keyDerivation (F : Ffi) (password salt : Bytes) : Res Bytes :=
  let res := F.pwhash password salt
  if res.1 = 0 then .ok res.2 else .panic

/-- The primitives as the rest of the model uses them (src/crypto/libsodium.rs:91-380). Simplified: a failing key derivation, which
is a panic (`keyDerivation`), gives some bytes. -/
def crypto (F : Ffi) (alg : AeadAlgorithm) : Crypto where
  hash := hash F
  hmac := hmac F
  keyDerivation p s := (F.pwhash p s).2
  aeadEncrypt key nonce ad message := aeadEncrypt F alg message ad key nonce
  aeadDecrypt key nonce ad message mac := aeadDecrypt F alg message ad key nonce mac
  keypair := generateKeypair F
  boxBeforenm := boxBeforenm F
  boxSeal := boxSeal F
  boxOpen := boxOpen F

/-- src/crypto/mod.rs:220-224 `instantiate_crypto_system`; the two errors are not told apart by the callers. -/
def lib (F : Ffi) : CryptoLib :=
  ⟨fun alg =>
    match new F alg with
    | .ok a => .ok (crypto F a)
    | .error _ => .err .cryptoInit⟩

/-- src/crypto/rng.rs:17-21 `next_u32` -/
def nextU32 (t : Tape) : Nat × Tape := let (b, t') := t.fill 4; (leNat b, t')

/-- src/crypto/rng.rs:23-27 `next_u64` -/
def nextU64 (t : Tape) : Nat × Tape := let (b, t') := t.fill 8; (leNat b, t')

/-- src/commands/help.rs:53-58 `print_version`; the name and the version of the package come from Cargo.toml:2-3. -/
def versionText (F : Ffi) (pkgName pkgVersion : List Char) : Res (List Char) :=
  match version F with
  | .ok v => .ok (pkgName ++ " ".toList ++ pkgVersion ++ "\nlibsodium ".toList ++ v ++ "\n".toList)
  | .err e => .err e
  | .panic => .panic

end Rypt.Sodium
