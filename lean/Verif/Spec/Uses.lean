import Verif.Spec.Access

/-! What passwords and keys are used for. -/

namespace Rypt.Spec

/-- The key of the MAC that makes the salt of passwords: "rypt kdf salt" and 19 zeros. -/
def saltContext : Bytes := [114, 121, 112, 116, 32, 107, 100, 102, 32, 115, 97, 108, 116] ++ List.replicate 19 0

/-- The key of the MAC for symmetric keys: "rypt symmetric secret" and 11 zeros. -/
def symmetricContext : Bytes :=
  [114, 121, 112, 116, 32, 115, 121, 109, 109, 101, 116, 114, 105, 99, 32, 115, 101, 99, 114, 101, 116] ++ List.replicate 11 0

/-- The salt of passwords in a file with the ephemeral key `epk`. -/
def saltOf (C : Crypto) (epk : Bytes) : Bytes := (C.hmac epk saltContext).take 16

/-- `C'` does the same as `C`, except that the functions that take passwords and keys may give other results. They give the same when
a password of `S` is derived with the salt of the file, when a symmetric key of `S` is hashed together with the ephemeral key, and when a
private key of `S` meets the ephemeral key. -/
structure SameForOpening (epk : Bytes) (S : List Credential) (C C' : Crypto) : Prop where
  others : C' = { C with keyDerivation := C'.keyDerivation, hmac := C'.hmac, boxBeforenm := C'.boxBeforenm }
  salt : C'.hmac epk saltContext = C.hmac epk saltContext
  password : ∀ p, .password p ∈ S → C'.keyDerivation p (saltOf C epk) = C.keyDerivation p (saltOf C epk)
  symmetric : ∀ k, .symmetricKey k ∈ S → C'.hmac (epk ++ k) symmetricContext = C.hmac (epk ++ k) symmetricContext
  privateKey : ∀ sk, .privateKey sk ∈ S → C'.boxBeforenm epk sk = C.boxBeforenm epk sk

/-- The same for encryption: public keys only meet the ephemeral private key `esk`. -/
structure SameForSealing (epk esk : Bytes) (S : List Credential) (C C' : Crypto) : Prop where
  others : C' = { C with keyDerivation := C'.keyDerivation, hmac := C'.hmac, boxBeforenm := C'.boxBeforenm }
  salt : C'.hmac epk saltContext = C.hmac epk saltContext
  password : ∀ p, .password p ∈ S → C'.keyDerivation p (saltOf C epk) = C.keyDerivation p (saltOf C epk)
  symmetric : ∀ k, .symmetricKey k ∈ S → C'.hmac (epk ++ k) symmetricContext = C.hmac (epk ++ k) symmetricContext
  publicKey : ∀ pk, .publicKey pk ∈ S → C'.boxBeforenm pk esk = C.boxBeforenm pk esk

end Rypt.Spec
