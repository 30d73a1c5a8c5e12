import Verif.Spec.Encryptable
import Verif.Props.Header

/-! Exactly when a header can be made, and its size. -/

namespace Rypt.HeaderCrypto

open Proto

theorem flatten_length_const {len : Nat} : ∀ (l : List Bytes), (∀ p ∈ l, p.length = len) → l.flatten.length = l.length * len
  | [], _ => by simp
  | a :: l, h => by
    have := flatten_length_const l fun p hp => h p (by simp [hp])
    simp [this, h a (by simp), Nat.add_mul, Nat.add_comm]

mutual

theorem encryptKeyData_iff (C : Crypto) (epk esk : Bytes) : ∀ (c : Credential), c.WF → ∀ (key : Bytes) (st : KeyState),
    ((∃ r, encryptKeyData C epk esk c key st = .ok r) ↔ c.Encryptable (fun pk => C.boxBeforenm pk esk ≠ none) key.length)
  | .password p, _, key, st => by rw [encryptKeyData, Credential.Encryptable]; simp [recipientSecretKey]
  | .symmetricKey p, _, key, st => by rw [encryptKeyData, Credential.Encryptable]; simp [recipientSecretKey]
  | .publicKey pk, _, key, st => by
    rw [encryptKeyData, Credential.Encryptable]
    unfold Crypto.boxEncryptEasy
    cases h : C.boxBeforenm pk esk <;> simp
  | .privateKey _, h, _, _ => by rw [Credential.WF] at h; exact h.elim
  | .complex ms n k, h, key, st => by
    rw [Credential.WF] at h
    obtain ⟨h1, h2, h3, h4, h5⟩ := h
    rw [encryptKeyData, Credential.Encryptable]
    unfold compositeWith
    have hso := (Props.split_key_outcome key n k st.tape).1
    constructor
    · rintro ⟨r, h⟩
      obtain ⟨r1, h, -⟩ := Res.bind_eq_ok.mp h
      obtain ⟨⟨parts, tape⟩, hs, h⟩ := Res.bind_eq_ok.mp h
      obtain ⟨r2, h, -⟩ := Res.bind_eq_ok.mp h
      obtain ⟨-, -, a, b⟩ := hso.mp ⟨_, hs⟩
      obtain ⟨hl, hlen, -⟩ := Props.split_key_loses_nothing hs
      exact ⟨a, b, (encryptSubs_iff C epk esk ms h5 parts _ key.length hlen (by rw [hl, h1])).mp ⟨_, h⟩⟩
    · rintro ⟨a, b, c⟩
      obtain ⟨⟨parts, tape⟩, hs⟩ := hso.mpr ⟨h3, h4, a, b⟩
      obtain ⟨hl, hlen, -⟩ := Props.split_key_loses_nothing hs
      obtain ⟨r, hr⟩ := (encryptSubs_iff C epk esk ms h5 parts { st with tape := tape } key.length hlen (by rw [hl, h1])).mpr c
      simp [hs, hr]

theorem encryptSubs_iff (C : Crypto) (epk esk : Bytes) : ∀ (ms : List (Nat × Credential)), MembersWF ms →
    ∀ (parts : List Bytes) (st : KeyState) (len : Nat), (∀ p ∈ parts, p.length = len) → Rypt.totalShares ms ≤ parts.length →
      ((∃ r, encryptSubs C epk esk ms parts st = .ok r) ↔ MembersEncryptable (fun pk => C.boxBeforenm pk esk ≠ none) ms len)
  | [], _, _, _, _, _, _ => by rw [encryptSubs, MembersEncryptable]; simp
  | (n, c) :: rest, h, parts, st, len, hlen, hl => by
    rw [MembersWF] at h
    obtain ⟨h1, h2, h3⟩ := h
    rw [Rypt.totalShares] at hl
    rw [encryptSubs, if_neg (by omega), MembersEncryptable]
    have hfl : (parts.take n).flatten.length = n * len := by
      rw [flatten_length_const _ fun p hp => hlen p (List.mem_of_mem_take hp), List.length_take, Nat.min_eq_left (by omega)]
    have key := encryptKeyData_iff C epk esk c h2 (parts.take n).flatten st
    rw [hfl] at key
    have hrec := fun st => encryptSubs_iff C epk esk rest h3 (parts.drop n) st len (fun p hp => hlen p (List.mem_of_mem_drop hp))
      (by rw [List.length_drop]; omega)
    constructor
    · rintro ⟨r, h⟩
      obtain ⟨⟨kd, st'⟩, hk, h⟩ := Res.bind_eq_ok.mp h
      obtain ⟨r2, hr, -⟩ := Res.bind_eq_ok.mp h
      exact ⟨key.mp ⟨_, hk⟩, (hrec _).mp ⟨_, hr⟩⟩
    · rintro ⟨a, b⟩
      obtain ⟨⟨kd, st'⟩, hk⟩ := key.mpr a
      obtain ⟨r, hr⟩ := (hrec st').mpr b
      simp [hk, hr]

end

/-! ### Sizes -/

theorem encodeVarintAux_length (k : Nat) : ∀ n, (encodeVarintAux k n).length ≤ k := by
  induction k with
  | zero => simp [encodeVarintAux]
  | succ k ih =>
    intro n
    rw [encodeVarintAux]
    split
    · simp
    · simpa using ih _

theorem encodeVarint_le (n : Nat) : (encodeVarint n).length ≤ 10 := encodeVarintAux_length 10 n

theorem encodeBytes_le (tag : Nat) (b : Bytes) : (encodeBytes tag b).length ≤ b.length + 20 := by
  unfold encodeBytes encodeKey
  have h1 := encodeVarint_le (tag * 8 + 2)
  have h2 := encodeVarint_le b.length
  simp only [List.length_append]
  omega

theorem encodeBytesOpt_le (tag : Nat) (b : Bytes) : (encodeBytesOpt tag b).length ≤ b.length + 20 := by
  unfold encodeBytesOpt
  split
  · simp
  · exact encodeBytes_le _ _

theorem encodeUint_le (tag n : Nat) : (encodeUint tag n).length ≤ 20 := by
  unfold encodeUint encodeKey
  have h1 := encodeVarint_le (tag * 8 + 0)
  have h2 := encodeVarint_le n
  split
  · simp
  · simp only [List.length_append]; omega

theorem encodeEnum_le (tag v : Nat) : (encodeEnum tag v).length ≤ 20 := by
  unfold encodeEnum encodeKey
  have h1 := encodeVarint_le (tag * 8 + 0)
  have h2 := encodeVarint_le (if v < 2 ^ 31 then v else v + (2 ^ 64 - 2 ^ 32))
  split
  · simp
  · simp only [List.length_append]; omega

theorem encodeProtectedHeader_le (h : ProtectedHeader) : (encodeProtectedHeader h).length ≤ h.senderPk.length + 58 := by
  unfold encodeProtectedHeader encodeFixed64 encodeKey
  have h1 := encodeEnum_le 1 h.senderAuthType
  have h2 := encodeBytesOpt_le 2 h.senderPk
  have h3 := encodeVarint_le (4 * 8 + 1)
  split
  · simp only [List.length_append, List.length_nil]; omega
  · simp only [List.length_append, leBytes, List.length_cons, List.length_nil]; omega

theorem aeadEncryptEasy_length {C : Crypto} (hC : C.Lawful) (m k n : Bytes) : (C.aeadEncryptEasy m k n).length = m.length + 16 := by
  unfold Crypto.aeadEncryptEasy
  simp [hC.aead_ct_len, hC.aead_mac_len]

mutual

theorem encryptKeyData_size {C : Crypto} (hC : C.Lawful) (epk esk : Bytes) : ∀ (c : Credential), c.WF → ∀ (key : Bytes) (st : KeyState)
    (kd : KeyData) (st' : KeyState), encryptKeyData C epk esk c key st = .ok (kd, st') →
      (encodeKeyData kd).length ≤ c.cost key.length
  | .password p, _, key, st, kd, st', h => by
    rw [encryptKeyData] at h
    simp only [recipientSecretKey, Res.bind_ok, Res.pure_def, Res.ok.injEq, Prod.mk.injEq] at h
    rw [← h.1, encodeKeyData, Credential.cost]
    · have := encodeBytes_le 2 (C.aeadEncryptEasy key (C.keyDerivation p ((C.hmac epk KDF_SALT_NONCE).take KDF_SALT_LEN))
        (recipientSecretNonce st.keyIdx))
      rw [aeadEncryptEasy_length hC] at this
      omega
    · simp
  | .symmetricKey p, _, key, st, kd, st', h => by
    rw [encryptKeyData] at h
    simp only [recipientSecretKey, Res.bind_ok, Res.pure_def, Res.ok.injEq, Prod.mk.injEq] at h
    rw [← h.1, encodeKeyData, Credential.cost]
    · have := encodeBytes_le 2 (C.aeadEncryptEasy key (C.hmac (epk ++ p) SYMMETRIC_SECRET_NONCE) (recipientSecretNonce st.keyIdx))
      rw [aeadEncryptEasy_length hC] at this
      omega
    · simp
  | .publicKey pk, _, key, st, kd, st', h => by
    rw [encryptKeyData] at h
    obtain ⟨ct, h1, h⟩ := Res.bind_eq_ok.mp h
    simp only [Res.pure_def, Res.ok.injEq, Prod.mk.injEq] at h
    rw [← h.1, encodeKeyData, Credential.cost]
    · have := encodeBytes_le 2 ct
      unfold Crypto.boxEncryptEasy at h1
      split at h1
      · cases h1
      · simp only [Res.ok.injEq] at h1
        rw [← h1] at this ⊢
        simp only [List.length_append, hC.box_ct_len, hC.box_mac_len] at this ⊢
        omega
    · simp
  | .privateKey _, h, _, _, _, _, _ => by rw [Credential.WF] at h; exact h.elim
  | .complex ms n k, h, key, st, kd, st', hr => by
    rw [Credential.WF] at h
    obtain ⟨h1, h2, h3, h4, h5⟩ := h
    rw [encryptKeyData] at hr
    unfold compositeWith at hr
    obtain ⟨⟨ck, st1⟩, hr, hr'⟩ := Res.bind_eq_ok.mp hr
    simp only [Res.pure_def, Res.ok.injEq, Prod.mk.injEq] at hr'
    obtain ⟨⟨parts, tape⟩, hs, hr⟩ := Res.bind_eq_ok.mp hr
    obtain ⟨⟨eps, st2⟩, hr, hr2⟩ := Res.bind_eq_ok.mp hr
    simp only [Res.pure_def, Res.ok.injEq, Prod.mk.injEq] at hr2
    obtain ⟨hl, hlen, -⟩ := Props.split_key_loses_nothing hs
    have := encryptSubs_size hC epk esk ms h5 parts _ key.length hlen (by rw [hl, h1]) _ _ hr
    rw [← hr'.1, ← hr2.1, encodeKeyData, encodeCompositeKey, Credential.cost]
    have e1 := encodeBytes_le 3 (encodeUint 1 (oneToZero k) ++ encodeKeyPartsList eps)
    have e2 := encodeUint_le 1 (oneToZero k)
    rw [List.length_append] at e1
    omega

theorem encryptSubs_size {C : Crypto} (hC : C.Lawful) (epk esk : Bytes) : ∀ (ms : List (Nat × Credential)), MembersWF ms →
    ∀ (parts : List Bytes) (st : KeyState) (len : Nat), (∀ p ∈ parts, p.length = len) → Rypt.totalShares ms ≤ parts.length →
      ∀ eps st', encryptSubs C epk esk ms parts st = .ok (eps, st') → (encodeKeyPartsList eps).length ≤ membersCost ms len
  | [], _, _, _, _, _, _, eps, st', h => by
    rw [encryptSubs] at h
    simp only [Res.ok.injEq, Prod.mk.injEq] at h
    rw [← h.1, encodeKeyPartsList]; simp
  | (n, c) :: rest, h, parts, st, len, hlen, hl, eps, st', hr => by
    rw [MembersWF] at h
    obtain ⟨h1, h2, h3⟩ := h
    rw [Rypt.totalShares] at hl
    rw [encryptSubs, if_neg (by omega)] at hr
    have hfl : (parts.take n).flatten.length = n * len := by
      rw [flatten_length_const _ fun p hp => hlen p (List.mem_of_mem_take hp), List.length_take, Nat.min_eq_left (by omega)]
    obtain ⟨⟨kd, st1⟩, hk, hr⟩ := Res.bind_eq_ok.mp hr
    obtain ⟨⟨eps', st2⟩, hr1, hr2⟩ := Res.bind_eq_ok.mp hr
    simp only [Res.pure_def, Res.ok.injEq, Prod.mk.injEq] at hr2
    have a := encryptKeyData_size hC epk esk c h2 _ _ _ _ hk
    have b := encryptSubs_size hC epk esk rest h3 (parts.drop n) _ len (fun p hp => hlen p (List.mem_of_mem_drop hp))
      (by rw [List.length_drop]; omega) _ _ hr1
    rw [hfl] at a
    rw [← hr2.1, encodeKeyPartsList, encodeEncryptedKeyParts, membersCost]
    have e1 := encodeBytes_le 2 (encodeUint 1 (oneToZero n) ++ encodeKeyData kd)
    have e2 := encodeUint_le 1 (oneToZero n)
    rw [List.length_append] at e1 ⊢
    omega

end

theorem encryptHeader_iff {L : CryptoLib} {opts : EncryptOptions} (hw : opts.credential.WF) {draw : Nat} (hdraw : draw < DRAW_RANGE)
    {tape : Tape} {C : Crypto} (hC : cryptosysFromProto L (cryptoFamilyFromOpts opts) = .ok C) :
    (∃ r, encryptHeader L opts draw tape = .ok r) ↔
      (Credential.complex opts.credential.subCreds opts.credential.numShares opts.credential.threshold).Encryptable
        (fun pk => C.boxBeforenm pk (C.keypair ((tape.fill 32).2.fill 32).1).2 ≠ none) 32 := by
  have key := encryptKeyData_iff C (C.keypair ((tape.fill 32).2.fill 32).1).1 (C.keypair ((tape.fill 32).2.fill 32).1).2 _ hw
    (tape.fill 32).1 ⟨0, ((tape.fill 32).2.fill 32).2⟩
  have hlen : (tape.fill 32).1.length = 32 := by simp [Tape.fill]
  rw [hlen] at key
  rw [← key, encryptKeyData]
  constructor
  · rintro ⟨⟨hdr, codec, cs⟩, h⟩
    obtain ⟨C', ck, st', h1, -, -, h4, -⟩ := encryptHeader_ok h
    rw [hC] at h1
    cases h1
    unfold encryptCompositeKey at h4
    simp [h4]
  · rintro ⟨r, h⟩
    obtain ⟨⟨ck, st'⟩, h, -⟩ := Res.bind_eq_ok.mp h
    have hcs : checkChunkSize (chunkSizeOf draw) = .ok () := Props.encrypt_chunk_size_never_refused draw hdraw
    unfold encryptHeader encryptCompositeKey
    simp only [hC, Res.bind_ok, hcs, AEAD_KEY_LEN, h, Res.pure_def]
    exact ⟨_, rfl⟩

theorem encryptHeader_size {L : CryptoLib} (hL : L.Lawful) {opts : EncryptOptions} (hw : opts.credential.WF) {draw : Nat} {tape : Tape}
    {hdr : Bytes} {codec : Codec} {cs : Nat} (h : encryptHeader L opts draw tape = .ok (hdr, codec, cs)) :
    hdr.length ≤ 280 + membersCost opts.credential.subCreds 32 := by
  obtain ⟨C, ck, st', h1, -, -, h4, h5, -⟩ := encryptHeader_ok h
  have hC : C.Lawful := by
    unfold cryptosysFromProto at h1
    repeat' split at h1
    all_goals first | exact hL _ _ h1 | cases h1
  have hlen : (tape.fill 32).1.length = 32 := by simp [Tape.fill]
  have hs := encryptKeyData_size hC (C.keypair ((tape.fill 32).2.fill 32).1).1 (C.keypair ((tape.fill 32).2.fill 32).1).2 _ hw
    (tape.fill 32).1 ⟨0, ((tape.fill 32).2.fill 32).2⟩ (.composite ck) st' (by
      rw [encryptKeyData]
      unfold encryptCompositeKey at h4
      rw [h4]; rfl)
  rw [hlen, Credential.cost, encodeKeyData] at hs
  have e0 : (encodeCompositeKey ck).length + 2 ≤ (encodeBytes 3 (encodeCompositeKey ck)).length := by
    have a := encodeVarint_length_pos (encodeCompositeKey ck).length
    have b : 0 < (encodeKey 3 2).length := encodeVarint_length_pos _
    unfold encodeBytes
    simp only [List.length_append]
    omega
  rw [h5]
  unfold encodeHeader
  simp only [List.length_append]
  have e1 := encodeBytesOpt_le 6 (C.keypair ((tape.fill 32).2.fill 32).1).1
  have e2 := encodeBytes_le 7 (encodeCompositeKey ck)
  have e3 := encodeBytesOpt_le 8 (C.aeadEncryptEasy (encodeProtectedHeader
            ⟨cs, ANONYMOUS, (C.keypair ((tape.fill 32).2.fill 32).1).1⟩)
          (tape.fill 32).1 ENCRYPTED_HEADER_NONCE)
  rw [aeadEncryptEasy_length hC] at e3
  have e4 := encodeProtectedHeader_le ⟨cs, ANONYMOUS, (C.keypair ((tape.fill 32).2.fill 32).1).1⟩
  rw [hC.pk_len] at e1
  simp only [hC.pk_len] at e4
  have e5 : ∀ alg, (encodeBytes 1 (encodeEnum 1 alg)).length ≤ 40 := fun alg => by
    have := encodeBytes_le 1 (encodeEnum 1 alg)
    have := encodeEnum_le 1 alg
    omega
  split
  · simp only [List.length_nil]; omega
  · rename_i alg _; have := e5 alg; omega

end Rypt.HeaderCrypto
