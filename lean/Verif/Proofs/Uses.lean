import Verif.Spec.Uses
import Verif.Proofs.Header

/-! Helpers for C123. -/

namespace Rypt.HeaderCrypto

open Spec Proto

theorem salt_context : KDF_SALT_NONCE = saltContext := by decide

theorem symmetric_context : SYMMETRIC_SECRET_NONCE = symmetricContext := by decide

theorem decryptor_same {epk : Bytes} {S : List Credential} {C C' : Crypto} (h : SameForOpening epk S C C') (c : Credential) (hc : c ∈ S) :
    decryptorFromCredential C' epk c = decryptorFromCredential C epk c := by
  have e1 : C'.aeadDecrypt = C.aeadDecrypt := by rw [h.others]
  have e2 : C'.boxOpen = C.boxOpen := by rw [h.others]
  cases c with
  | password p =>
    have := h.password p hc
    simp only [decryptorFromCredential, recipientSecretKey, salt_context, h.salt, KDF_SALT_LEN, Crypto.aeadDecryptEasy, e1]
    unfold saltOf at this
    rw [this]
  | symmetricKey k =>
    simp only [decryptorFromCredential, recipientSecretKey, symmetric_context, h.symmetric k hc, Crypto.aeadDecryptEasy, e1]
  | publicKey pk => rfl
  | privateKey sk => simp only [decryptorFromCredential, Crypto.boxDecryptEasy, h.privateKey sk hc, e2]
  | complex subs n t => rfl

theorem mapM_same {α β : Type} {f g : α → Res β} : ∀ (l : List α), (∀ x ∈ l, f x = g x) → l.mapM f = l.mapM g := by
  intro l
  induction l with
  | nil => intro _; rfl
  | cons x l ih =>
    intro h
    rw [List.mapM_cons, List.mapM_cons, h x (by simp), ih fun y hy => h y (by simp [hy])]

theorem recoverPayloadKey_same {epk : Bytes} {S : List Credential} {C C' : Crypto} (h : SameForOpening epk S C C')
    (ck : Option CompositeKey) : recoverPayloadKey C' epk ck S = recoverPayloadKey C epk ck S := by
  unfold recoverPayloadKey
  rw [mapM_same S fun c hc => decryptor_same h c hc]

mutual

theorem encryptKeyData_same {epk esk : Bytes} {C C' : Crypto} : ∀ (c : Credential), SameForSealing epk esk c.leaves C C' →
    ∀ part st, encryptKeyData C' epk esk c part st = encryptKeyData C epk esk c part st
  | .password p, h, part, st => by
    have e1 : C'.aeadEncrypt = C.aeadEncrypt := by rw [h.others]
    have := h.password p (by simp [Credential.leaves])
    unfold saltOf at this
    simp only [encryptKeyData, recipientSecretKey, salt_context, h.salt, KDF_SALT_LEN, Crypto.aeadEncryptEasy, e1, this]
  | .symmetricKey k, h, part, st => by
    have e1 : C'.aeadEncrypt = C.aeadEncrypt := by rw [h.others]
    simp only [encryptKeyData, recipientSecretKey, symmetric_context, h.symmetric k (by simp [Credential.leaves]), Crypto.aeadEncryptEasy, e1]
  | .publicKey pk, h, part, st => by
    have e1 : C'.boxSeal = C.boxSeal := by rw [h.others]
    simp only [encryptKeyData, h.publicKey pk (by simp [Credential.leaves]), Crypto.boxEncryptEasy, e1]
  | .privateKey _, _, _, _ => rfl
  | .complex subs n t, h, part, st => by
    rw [encryptKeyData, encryptKeyData]
    rw [show encryptSubs C' epk esk subs = encryptSubs C epk esk subs from
      funext fun ps => funext fun st => encryptSubs_same subs (by rwa [Credential.leaves] at h) ps st]

theorem encryptSubs_same {epk esk : Bytes} {C C' : Crypto} : ∀ (subs : List (Nat × Credential)),
    SameForSealing epk esk (leavesOf subs) C C' → ∀ ps st, encryptSubs C' epk esk subs ps st = encryptSubs C epk esk subs ps st
  | [], _, _, _ => rfl
  | (n, c) :: rest, h, ps, st => by
    rw [encryptSubs, encryptSubs]
    split
    · rfl
    · simp only
      have h1 : SameForSealing epk esk c.leaves C C' :=
        ⟨h.others, h.salt, fun p hp => h.password p (by simp [leavesOf, hp]), fun k hk => h.symmetric k (by simp [leavesOf, hk]),
          fun pk hp => h.publicKey pk (by simp [leavesOf, hp])⟩
      have h2 : SameForSealing epk esk (leavesOf rest) C C' :=
        ⟨h.others, h.salt, fun p hp => h.password p (by simp [leavesOf, hp]), fun k hk => h.symmetric k (by simp [leavesOf, hk]),
          fun pk hp => h.publicKey pk (by simp [leavesOf, hp])⟩
      rw [encryptKeyData_same c h1]
      congr 1
      funext r
      rw [encryptSubs_same rest h2]

end

end Rypt.HeaderCrypto
