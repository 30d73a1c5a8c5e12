import Verif.Model.Sodium

/-!
What the documentation of libsodium says about the functions that are called, as far as correctness goes.
-/

namespace Rypt.Spec

open Sodium

/-- Lengths of the buffers that are filled; decryption undoes encryption; keys that `crypto_sign_keypair` has made can be converted,
and two such pairs agree on a shared key; their signatures are accepted. AES only has to work where it is available. -/
structure Documented (F : Ffi) : Prop where
  hash_len : ∀ m, (F.hash m).length = 64
  auth_len : ∀ m k, (F.auth m k).length = 32
  pwhash_len : ∀ p s, (F.pwhash p s).2.length = 32
  chacha_len : ∀ m ad n k, (F.chachaEncrypt m ad n k).1.length = m.length ∧ (F.chachaEncrypt m ad n k).2.length = 16
  chacha_len' : ∀ c mac ad n k, (F.chachaDecrypt c mac ad n k).2.length = c.length
  chacha_inverse : ∀ m ad n k, F.chachaDecrypt (F.chachaEncrypt m ad n k).1 (F.chachaEncrypt m ad n k).2 ad n k = (0, m)
  aes_len : F.aesAvailable ≠ 0 → ∀ m ad n k, (F.aesEncrypt m ad n k).1.length = m.length ∧ (F.aesEncrypt m ad n k).2.length = 16
  aes_len' : F.aesAvailable ≠ 0 → ∀ c mac ad n k, (F.aesDecrypt c mac ad n k).2.length = c.length
  aes_inverse : F.aesAvailable ≠ 0 → ∀ m ad n k,
    F.aesDecrypt (F.aesEncrypt m ad n k).1 (F.aesEncrypt m ad n k).2 ad n k = (0, m)
  keypair_len : ∀ r, (F.signKeypair r).1.length = 32 ∧ (F.signKeypair r).2.length = 64
  convertible : ∀ r, (F.pkToCurve (F.signKeypair r).1).1 = 0 ∧ (F.skToCurve (F.signKeypair r).2).1 = 0
  agreement : ∀ r r', F.beforenm (F.pkToCurve (F.signKeypair r).1).2 (F.skToCurve (F.signKeypair r').2).2 =
    F.beforenm (F.pkToCurve (F.signKeypair r').1).2 (F.skToCurve (F.signKeypair r).2).2
  box_len : ∀ m n k, (F.boxDetached m n k).1.length = m.length ∧ (F.boxDetached m n k).2.length = 16
  box_len' : ∀ c mac n k, (F.boxOpenDetached c mac n k).2.length = c.length
  box_inverse : ∀ m n k, F.boxOpenDetached (F.boxDetached m n k).1 (F.boxDetached m n k).2 n k = (0, m)
  sign_len : ∀ m sk, (F.signDetached m sk).length = 64
  sign_verify : ∀ m r, F.verifyDetached (F.signDetached m (F.signKeypair r).2) m (F.signKeypair r).1 = 0

end Rypt.Spec
