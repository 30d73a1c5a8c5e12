import Verif.Spec.HeaderFormat

/-! What an encrypted file is, whatever program has made it. -/

namespace Rypt.Spec

open Proto HeaderCrypto

/-- `F` is an encrypted file with the header `hdr` for the credentials `cred`, made with the primitives `C` of the library, and `plain` is
its content. Chunks have some size up to 1 GiB that is a multiple of 8; rypt itself only uses sizes near 1 MiB. -/
def InFormat (L : CryptoLib) (fast : Bool) (cred : ComplexCredential) (C : Crypto) (hdr plain F : Bytes) : Prop :=
  L.instantiate (if fast then .aes256Gcm else .chaCha20Poly1305Ietf) = .ok C ∧ 0 < hdr.length ∧ hdr.length ≤ maxHeader ∧
  ∃ key size hd, F = file C key hdr size plain ∧ 0 < size ∧ size ≤ 2 ^ 30 ∧ size % 8 = 0 ∧ ReadsHeader hdr hd ∧
    HeaderFor C fast cred key size hd

end Rypt.Spec
