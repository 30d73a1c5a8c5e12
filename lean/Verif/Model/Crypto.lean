import Verif.Model.Base

/-!
Model of src/crypto/mod.rs and src/crypto/libsodium.rs: the primitives are arbitrary functions.
-/

namespace Rypt

/-- src/crypto/mod.rs:24-61, lengths. -/
def HASH_OUTPUT_LEN : Nat := 32
/-- src/crypto/mod.rs:33. -/
def AEAD_KEY_LEN : Nat := 32
/-- src/crypto/mod.rs:36. -/
def AEAD_NONCE_LEN : Nat := 12
/-- src/crypto/mod.rs:39. -/
def AEAD_MAC_LEN : Nat := 16
/-- src/crypto/mod.rs:42. -/
def PUBLIC_KEY_LEN : Nat := 32
/-- src/crypto/mod.rs:45. -/
def PRIVATE_KEY_LEN : Nat := 64
/-- src/crypto/mod.rs:48. -/
def BOX_NONCE_LEN : Nat := 24
/-- src/crypto/mod.rs:51. -/
def BOX_MAC_LEN : Nat := 16
/-- src/crypto/mod.rs:57. -/
def KDF_SALT_LEN : Nat := 16

/-- src/crypto/libsodium.rs:27-31. -/
inductive AeadAlgorithm where
  | chaCha20Poly1305Ietf
  | aes256Gcm
  deriving DecidableEq, Repr

/-- The primitives of the `CryptoSystem` trait (src/crypto/mod.rs:84-145), one instantiated algorithm.
libsodium itself is not modelled: the fields are arbitrary functions. `sign`/`verify` are unused by rypt and left out. -/
structure Crypto where
  /-- src/crypto/libsodium.rs:92-105 -/
  hash : Bytes → Bytes
  /-- src/crypto/libsodium.rs:107-120; message, key -/
  hmac : Bytes → Bytes → Bytes
  /-- src/crypto/libsodium.rs:356-375; password, salt. The assertion on libsodium's return value
  (out of memory) is not modelled. -/
  keyDerivation : Bytes → Bytes → Bytes
  /-- src/crypto/libsodium.rs:142-196; key, nonce, additional data, message; returns ciphertext and MAC -/
  aeadEncrypt : Bytes → Bytes → Bytes → Bytes → Bytes × Bytes
  /-- src/crypto/libsodium.rs:198-240; key, nonce, additional data, ciphertext, MAC; `none` is `InvalidCiphertext` -/
  aeadDecrypt : Bytes → Bytes → Bytes → Bytes → Bytes → Option Bytes
  /-- src/crypto/libsodium.rs:251-259; from the 32 random bytes libsodium draws; public key, private key -/
  keypair : Bytes → Bytes × Bytes
  /-- src/crypto/libsodium.rs:384-421 `box_beforenm`; public key, private key;
  `none` is `InvalidPublicPrivateKeyPair` -/
  boxBeforenm : Bytes → Bytes → Option Bytes
  /-- `crypto_box_detached_afternm` in src/crypto/libsodium.rs:277-286; shared key, nonce, message -/
  boxSeal : Bytes → Bytes → Bytes → Bytes × Bytes
  /-- `crypto_box_open_detached_afternm` in src/crypto/libsodium.rs:304-318; shared key, nonce, ciphertext, MAC -/
  boxOpen : Bytes → Bytes → Bytes → Bytes → Option Bytes

namespace Crypto

variable (C : Crypto)

/-- src/crypto/mod.rs:149-162. -/
def aeadEncryptEasy (plaintext key nonce : Bytes) : Bytes :=
  let (ct, mac) := C.aeadEncrypt key nonce [] plaintext
  ct ++ mac

/-- src/crypto/mod.rs:164-179. -/
def aeadDecryptEasy (ciphertext key nonce : Bytes) : Res Bytes :=
  if ciphertext.length < AEAD_MAC_LEN then .err .invalidCiphertext
  else
    let plaintextLen := ciphertext.length - AEAD_MAC_LEN
    match C.aeadDecrypt key nonce [] (ciphertext.take plaintextLen) (ciphertext.drop plaintextLen) with
    | some m => .ok m
    | none => .err .invalidCiphertext

/-- src/crypto/mod.rs:181-199 with src/crypto/libsodium.rs:262-289. -/
def boxEncryptEasy (plaintext publicKey privateKey nonce : Bytes) : Res Bytes :=
  match C.boxBeforenm publicKey privateKey with
  | none => .err .invalidKeyPair
  | some k =>
    let (ct, mac) := C.boxSeal k nonce plaintext
    .ok (ct ++ mac)

/-- src/crypto/mod.rs:201-217 with src/crypto/libsodium.rs:291-319. -/
def boxDecryptEasy (ciphertext publicKey privateKey nonce : Bytes) : Res Bytes :=
  if ciphertext.length < BOX_MAC_LEN then .err .invalidCiphertext
  else
    let plaintextLen := ciphertext.length - BOX_MAC_LEN
    match C.boxBeforenm publicKey privateKey with
    | none => .err .invalidKeyPair
    | some k =>
      match C.boxOpen k nonce (ciphertext.take plaintextLen) (ciphertext.drop plaintextLen) with
      | some m => .ok m
      | none => .err .invalidCiphertext

/-- What libsodium documents about its primitives, as far as correctness (not security) goes: output lengths,
decryption undoes encryption (and works in place, so keeps the length), the shared box key is the same from both sides of
generated key pairs.
The functions of src/crypto/mod.rs:84-218. -/
structure Lawful : Prop where
  hash_len : ∀ m, (C.hash m).length = 32
  hmac_len : ∀ m k, (C.hmac m k).length = 32
  kdf_len : ∀ p s, (C.keyDerivation p s).length = 32
  aead_ct_len : ∀ k n ad m, (C.aeadEncrypt k n ad m).1.length = m.length
  aead_mac_len : ∀ k n ad m, (C.aeadEncrypt k n ad m).2.length = 16
  aead_dec_enc : ∀ k n ad m, C.aeadDecrypt k n ad (C.aeadEncrypt k n ad m).1 (C.aeadEncrypt k n ad m).2 = some m
  aead_dec_len : ∀ k n ad ct mac m, C.aeadDecrypt k n ad ct mac = some m → m.length = ct.length
  box_ct_len : ∀ k n m, (C.boxSeal k n m).1.length = m.length
  box_mac_len : ∀ k n m, (C.boxSeal k n m).2.length = 16
  box_open_seal : ∀ k n m, C.boxOpen k n (C.boxSeal k n m).1 (C.boxSeal k n m).2 = some m
  box_dec_len : ∀ k n ct mac m, C.boxOpen k n ct mac = some m → m.length = ct.length
  pk_len : ∀ s, (C.keypair s).1.length = 32
  sk_len : ∀ s, (C.keypair s).2.length = 64
  box_shared : ∀ s s', C.boxBeforenm (C.keypair s).1 (C.keypair s').2 = C.boxBeforenm (C.keypair s').1 (C.keypair s).2

end Crypto

/-- `instantiate_crypto_system` (src/crypto/mod.rs:220-224, src/crypto/libsodium.rs:62-76): may fail
(library initialisation, missing hardware support). -/
structure CryptoLib where
  instantiate : AeadAlgorithm → Res Crypto

/-- Every crypto system the library hands out is lawful. src/crypto/mod.rs:220-224 `instantiate_crypto_system`. -/
def CryptoLib.Lawful (L : CryptoLib) : Prop := ∀ alg C, L.instantiate alg = .ok C → C.Lawful

end Rypt
