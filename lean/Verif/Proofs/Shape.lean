import Verif.Proofs.Header
import Verif.Spec.Shape

/-! Redacted headers depend on the shape only; header sizes bound the number of blobs. -/

namespace Rypt.HeaderCrypto

open Proto

mutual

/-- The redacted key data of a credential of this shape holding a part of `len` bytes. -/
def redactedData : Shape → Nat → KeyData
  | .leaf, len => .encrypted (List.replicate (len + 16) 0)
  | .group ms _ t, len => .composite (.mk (oneToZero t) (redactedMembers ms len))

def redactedMembers : List (Nat × Shape) → Nat → List EncryptedKeyParts
  | [], _ => []
  | (n, s) :: rest, len => .mk (oneToZero n) (redactedData s (n * len)) :: redactedMembers rest len

end

theorem wrapLeaf_length {C : Crypto} (hC : C.Lawful) {epk esk part blob : Bytes} {c : Credential} {i : UInt32}
    (h : wrapLeaf C epk esk c part i = .ok blob) : blob.length = part.length + 16 := by
  cases c with
  | password p =>
    simp only [wrapLeaf, recipientSecretKey, Res.bind_ok, Res.pure_def, Res.ok.injEq] at h
    rw [← h, Crypto.aeadEncryptEasy_length hC]
  | symmetricKey p =>
    simp only [wrapLeaf, recipientSecretKey, Res.bind_ok, Res.pure_def, Res.ok.injEq] at h
    rw [← h, Crypto.aeadEncryptEasy_length hC]
  | publicKey p => exact Crypto.boxEncryptEasy_length hC h
  | privateKey p => simp [wrapLeaf] at h
  | complex _ _ _ => simp [wrapLeaf] at h

theorem redact_leaf {C : Crypto} (hC : C.Lawful) {epk esk part : Bytes} {c : Credential} {st st' : KeyState}
    {kd : KeyData} (hc : ∀ subs n t, c ≠ .complex subs n t)
    (h : encryptKeyData C epk esk c part st = .ok (kd, st')) :
    kd.redact = .encrypted (List.replicate (part.length + 16) 0) := by
  rw [encryptKeyData_leaf hc] at h
  obtain ⟨ct, h1, h⟩ := Res.bind_eq_ok.mp h
  simp only [Res.ok.injEq, Prod.mk.injEq] at h
  obtain ⟨rfl, rfl⟩ := h
  rw [KeyData.redact, blank, wrapLeaf_length hC h1]

mutual

theorem redact_keyData (C : Crypto) (hC : C.Lawful) (epk esk : Bytes) : ∀ (c : Credential) (part : Bytes)
    (st st' : KeyState) (kd : KeyData), encryptKeyData C epk esk c part st = .ok (kd, st') →
    kd.redact = redactedData c.shape part.length
  | .complex subs n t, part, st, st', kd, h => by
    obtain ⟨parts, tape, eks, h1, h2, rfl⟩ := encryptKeyData_complex_ok h
    obtain ⟨parts', h1', hl, hlen, -, -, -⟩ := splitKey_eq st.tape (splitKey_ok_iff h1)
    rw [h1] at h1'
    injection h1' with h1'
    injection h1' with h1' _
    subst h1'
    rw [KeyData.redact, CompositeKey.redact, Credential.shape, redactedData,
      redact_subs C hC epk esk subs parts part.length { st with tape := tape } st' eks hlen h2]
  | .password p, part, st, st', kd, h => by
    simp only [Credential.shape, redactedData]; exact redact_leaf hC (by simp) h
  | .symmetricKey p, part, st, st', kd, h => by
    simp only [Credential.shape, redactedData]; exact redact_leaf hC (by simp) h
  | .publicKey p, part, st, st', kd, h => by
    simp only [Credential.shape, redactedData]; exact redact_leaf hC (by simp) h
  | .privateKey p, part, st, st', kd, h => by simp [encryptKeyData] at h

theorem redact_subs (C : Crypto) (hC : C.Lawful) (epk esk : Bytes) : ∀ (subs : List (Nat × Credential))
    (parts : List Bytes) (len : Nat) (st st' : KeyState) (eks : List EncryptedKeyParts),
    (∀ p ∈ parts, p.length = len) → encryptSubs C epk esk subs parts st = .ok (eks, st') →
    redactList eks = redactedMembers (shapes subs) len
  | [], parts, len, st, st', eks, _, h => by
    simp only [encryptSubs, Res.ok.injEq, Prod.mk.injEq] at h
    obtain ⟨rfl, rfl⟩ := h
    simp [redactList, shapes, redactedMembers]
  | (n, c) :: rest, parts, len, st, st', eks, hlen, h => by
    obtain ⟨hn, kd, st1, eks', h1, h2, rfl⟩ := encryptSubs_cons_ok h
    have hlen1 : ∀ p ∈ parts.take n, p.length = len := fun p hp => hlen p (List.mem_of_mem_take hp)
    have hlen2 : ∀ p ∈ parts.drop n, p.length = len := fun p hp => hlen p (List.mem_of_mem_drop hp)
    rw [redactList, EncryptedKeyParts.redact, shapes, redactedMembers,
      redact_keyData C hC epk esk c _ st st1 kd h1, flatten_length _ hlen1,
      redact_subs C hC epk esk rest _ len st1 st' eks' hlen2 h2]
    simp only [List.length_take, Nat.min_eq_left hn]

end

theorem redact_composite {C : Crypto} (hC : C.Lawful) {epk esk key : Bytes} {cred : ComplexCredential}
    {st st' : KeyState} {ck : CompositeKey} (h : encryptCompositeKey C epk esk key cred st = .ok (ck, st')) :
    KeyData.composite ck.redact = redactedData cred.shape key.length := by
  have hk : encryptKeyData C epk esk (.complex cred.subCreds cred.numShares cred.threshold) key st =
      .ok (.composite ck, st') := by
    rw [encryptKeyData]
    unfold encryptCompositeKey at h
    rw [h]; rfl
  have := redact_keyData C hC epk esk _ key st st' _ hk
  rwa [KeyData.redact, Credential.shape] at this

/-! ### Encodings of redacted messages have the same length -/

theorem encodeBytes_length_eq (tag : Nat) {a b : Bytes} (h : a.length = b.length) :
    (encodeBytes tag a).length = (encodeBytes tag b).length := by simp [encodeBytes, h]

theorem encodeBytesOpt_length_eq (tag : Nat) {a b : Bytes} (h : a.length = b.length) :
    (encodeBytesOpt tag a).length = (encodeBytesOpt tag b).length := by
  unfold encodeBytesOpt
  by_cases ha : a = []
  · subst ha
    have : b = [] := by cases b with | nil => rfl | cons _ _ => simp at h
    simp [this]
  · have hb : b ≠ [] := by
      intro hb; subst hb
      cases a with | nil => exact ha rfl | cons _ _ => simp at h
    rw [if_neg ha, if_neg hb]; exact encodeBytes_length_eq tag h

mutual

theorem len_compositeKey : ∀ ck : CompositeKey, (encodeCompositeKey ck.redact).length = (encodeCompositeKey ck).length
  | .mk t ps => by
    rw [CompositeKey.redact, encodeCompositeKey, encodeCompositeKey, List.length_append, List.length_append,
      len_list ps]

theorem len_list : ∀ ps, (encodeKeyPartsList (redactList ps)).length = (encodeKeyPartsList ps).length
  | [] => by rw [redactList]
  | p :: ps => by
    rw [redactList, encodeKeyPartsList, encodeKeyPartsList, List.length_append, List.length_append, len_list ps,
      encodeBytes_length_eq 2 (len_parts p)]

theorem len_parts : ∀ p : EncryptedKeyParts,
    (encodeEncryptedKeyParts p.redact).length = (encodeEncryptedKeyParts p).length
  | .mk n d => by
    rw [EncryptedKeyParts.redact, encodeEncryptedKeyParts, encodeEncryptedKeyParts, List.length_append,
      List.length_append, len_keyData d]

theorem len_keyData : ∀ d : KeyData, (encodeKeyData d.redact).length = (encodeKeyData d).length
  | .missing => by rw [KeyData.redact]
  | .encrypted b => by
    rw [KeyData.redact, encodeKeyData, encodeKeyData]; exact encodeBytes_length_eq 2 (by simp [blank])
  | .composite c => by
    rw [KeyData.redact, encodeKeyData, encodeKeyData]; exact encodeBytes_length_eq 3 (len_compositeKey c)

end

theorem len_header (h : RyptFileHeader) : (encodeHeader h.redact).length = (encodeHeader h).length := by
  unfold encodeHeader
  simp only [RyptFileHeader.redact, List.length_append]
  rw [encodeBytesOpt_length_eq 6 (a := blank h.ephemeralPk) (b := h.ephemeralPk) (by simp [blank]),
    encodeBytesOpt_length_eq 8 (a := blank h.protectedHeader) (b := h.protectedHeader) (by simp [blank])]
  cases h.payloadKey with
  | none => rfl
  | some ck => simp only [Option.map_some]; rw [encodeBytes_length_eq 7 (len_compositeKey ck)]

/-! ### Number of blobs -/

mutual

theorem blobs_compositeKey : ∀ ck : CompositeKey, ck.blobs.length ≤ (encodeCompositeKey ck).length
  | .mk t ps => by
    rw [CompositeKey.blobs, encodeCompositeKey, List.length_append]
    have := blobs_list ps
    omega

theorem blobs_list : ∀ ps, (blobsOf ps).length ≤ (encodeKeyPartsList ps).length
  | [] => by simp [blobsOf]
  | p :: ps => by
    rw [blobsOf, encodeKeyPartsList, List.length_append, List.length_append]
    have := blobs_list ps
    have := blobs_parts p
    have := encodeBytes_length 2 (encodeEncryptedKeyParts p)
    omega

theorem blobs_parts : ∀ p : EncryptedKeyParts, p.blobs.length ≤ (encodeEncryptedKeyParts p).length
  | .mk n d => by
    rw [EncryptedKeyParts.blobs, encodeEncryptedKeyParts, List.length_append]
    have := blobs_keyData d
    omega

theorem blobs_keyData : ∀ d : KeyData, d.blobs.length ≤ (encodeKeyData d).length
  | .missing => by simp [KeyData.blobs]
  | .encrypted b => by
    rw [KeyData.blobs, encodeKeyData]
    have := encodeBytes_length 2 b
    simp; omega
  | .composite c => by
    rw [KeyData.blobs, encodeKeyData]
    have := blobs_compositeKey c
    have := encodeBytes_length 3 (encodeCompositeKey c)
    omega

end

theorem blobs_header {h : RyptFileHeader} {ck : CompositeKey} (hk : h.payloadKey = some ck) :
    ck.blobs.length ≤ (encodeHeader h).length := by
  unfold encodeHeader
  rw [hk]
  simp only [List.length_append]
  have := blobs_compositeKey ck
  have := encodeBytes_length 7 (encodeCompositeKey ck)
  omega

end Rypt.HeaderCrypto
