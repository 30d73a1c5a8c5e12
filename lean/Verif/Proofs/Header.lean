import Verif.Proofs.Tree
import Verif.Proofs.Crypto
import Verif.Proofs.Proto

/-! From leaves to the whole header. -/

namespace Rypt.HeaderCrypto

open Proto

theorem le32_eq (i : Nat) : leBytes 4 i = le32 i := by
  have h : ∀ m : Nat, UInt8.ofNat (m % 256) = UInt8.ofNat m := by
    intro m; apply UInt8.toNat_inj.mp; simp
  simp only [leBytes, le32, h, Nat.div_div_eq_div_mul]

theorem secretNonce_eq (i : UInt32) : recipientSecretNonce i = wrapNonce i.toNat := by
  unfold recipientSecretNonce wrapNonce
  rw [le32_eq]
  rfl

theorem boxNonce_eq (i : UInt32) : recipientBoxNonce i = wrapBoxNonce i.toNat := by
  unfold recipientBoxNonce wrapBoxNonce
  rw [le32_eq]
  rfl

theorem recipientKey_password (C : Crypto) (epk p : Bytes) :
    recipientSecretKey C epk (.password p) = .ok (passwordKey C epk p) := rfl

theorem recipientKey_symmetric (C : Crypto) (epk k : Bytes) :
    recipientSecretKey C epk (.symmetricKey k) = .ok (secretKey C epk k) := rfl

theorem aead_toOption (C : Crypto) (ct k n : Bytes) :
    toOption (C.aeadDecryptEasy ct k n) = .ok (openSealed (C.aeadDecrypt k n []) ct) := by
  unfold Crypto.aeadDecryptEasy openSealed AEAD_MAC_LEN
  by_cases h : ct.length < 16
  · rw [if_pos h, if_neg (by omega)]; rfl
  · rw [if_neg h, if_pos (by omega)]
    dsimp only
    split <;> rename_i h <;> rw [h] <;> rfl

theorem box_toOption (C : Crypto) (epk sk ct n : Bytes) :
    toOption (C.boxDecryptEasy ct epk sk n) =
      if ct.length < 16 then .ok none
      else match C.boxBeforenm epk sk with
        | none => .err .invalidKeyPair
        | some k => .ok (openSealed (C.boxOpen k n) ct) := by
  unfold Crypto.boxDecryptEasy openSealed BOX_MAC_LEN
  by_cases h : ct.length < 16
  · rw [if_pos h, if_pos h]; rfl
  · rw [if_neg h, if_neg h]
    dsimp only
    cases C.boxBeforenm epk sk with
    | none => rfl
    | some k =>
      simp only
      rw [if_pos (by omega)]
      split <;> rename_i h <;> rw [h] <;> rfl

theorem decryptor_usable {C : Crypto} {epk : Bytes} {c : Credential} (h : Usable c) :
    decryptorFromCredential C epk c = .ok (tryOpen C epk c) := by
  cases c with
  | password p =>
    simp only [decryptorFromCredential, recipientKey_password, Res.bind_ok, Res.pure_def, Res.ok.injEq]
    funext ct idx
    rw [aead_toOption, secretNonce_eq]; rfl
  | symmetricKey k =>
    simp only [decryptorFromCredential, recipientKey_symmetric, Res.bind_ok, Res.pure_def, Res.ok.injEq]
    funext ct idx
    rw [aead_toOption, secretNonce_eq]; rfl
  | privateKey k =>
    simp only [decryptorFromCredential, Res.ok.injEq]
    funext ct idx
    rw [box_toOption, boxNonce_eq]; rfl
  | publicKey k => exact h.elim
  | complex _ _ _ => exact h.elim

theorem usable_of_opens {C : Crypto} {c leaf : Credential} (ho : Opens C c leaf) : Usable c := by
  cases leaf with
  | password p => simp only [Opens] at ho; subst ho; trivial
  | symmetricKey p => simp only [Opens] at ho; subst ho; trivial
  | publicKey pk => obtain ⟨s, -, rfl⟩ := ho; trivial
  | privateKey _ => exact ho.elim
  | complex _ _ _ => exact ho.elim

theorem tryOpen_opens {C : Crypto} (hC : C.Lawful) {seed : Bytes} {c leaf : Credential} (ho : Opens C c leaf)
    {part blob : Bytes} {i : UInt32}
    (hw : wrapLeaf C (C.keypair seed).1 (C.keypair seed).2 leaf part i = .ok blob) :
    tryOpen C (C.keypair seed).1 c blob i = .ok (some part) := by
  have hu := decryptor_usable (C := C) (epk := (C.keypair seed).1) (usable_of_opens ho)
  cases leaf with
  | password p =>
    simp only [Opens] at ho; subst ho
    simp only [wrapLeaf, recipientSecretKey, Res.bind_ok, Res.pure_def, Res.ok.injEq] at hw
    subst hw
    simp only [decryptorFromCredential, recipientSecretKey, Res.bind_ok, Res.pure_def, Res.ok.injEq] at hu
    rw [← hu]
    simp [Crypto.aeadDecryptEasy_encrypt hC, toOption]
  | symmetricKey p =>
    simp only [Opens] at ho; subst ho
    simp only [wrapLeaf, recipientSecretKey, Res.bind_ok, Res.pure_def, Res.ok.injEq] at hw
    subst hw
    simp only [decryptorFromCredential, recipientSecretKey, Res.bind_ok, Res.pure_def, Res.ok.injEq] at hu
    rw [← hu]
    simp [Crypto.aeadDecryptEasy_encrypt hC, toOption]
  | publicKey pk =>
    obtain ⟨s, rfl, rfl⟩ := ho
    simp only [wrapLeaf] at hw
    simp only [decryptorFromCredential, Res.ok.injEq] at hu
    rw [← hu]
    simp [Crypto.boxDecryptEasy_encrypt hC hw (hC.box_shared seed s), toOption]
  | privateKey _ => exact ho.elim
  | complex _ _ _ => exact ho.elim

theorem tryDecryptors_map {C : Crypto} {epk : Bytes} {leaf : Credential} {part blob : Bytes} {i : UInt32}
    (S : List Credential)
    (h1 : ∀ c ∈ S, Opens C c leaf → tryOpen C epk c blob i = .ok (some part))
    (h2 : ∀ c ∈ S, ¬ Opens C c leaf → tryOpen C epk c blob i = .ok none) :
    tryDecryptors (S.map (tryOpen C epk)) blob i = .ok (if heldBy C S leaf then some part else none) := by
  induction S with
  | nil => simp [tryDecryptors, heldBy]
  | cons c S ih =>
    rw [List.map_cons, tryDecryptors]
    by_cases ho : Opens C c leaf
    · rw [h1 c List.mem_cons_self ho]
      simp [heldBy, ho]
    · rw [h2 c List.mem_cons_self ho]
      simp only
      rw [ih (fun c hc => h1 c (List.mem_cons_of_mem _ hc)) (fun c hc => h2 c (List.mem_cons_of_mem _ hc))]
      have : heldBy C (c :: S) leaf = heldBy C S leaf := by
        unfold heldBy
        congr 1
        simp [ho]
      rw [this]

theorem mapM_decryptors {C : Crypto} {epk : Bytes} {S : List Credential} (h : ∀ c ∈ S, Usable c) :
    S.mapM (decryptorFromCredential C epk) = .ok (S.map (tryOpen C epk)) :=
  Shamir.mapM_ok fun c hc => decryptor_usable (h c hc)

/-- Recovery of the payload key. -/
theorem recoverPayloadKey_eq {C : Crypto} (hC : C.Lawful) {seed key : Bytes} {cred : ComplexCredential}
    (hwf : cred.WF) (hkey : 0 < key.length) {tape : Tape} {ck : CompositeKey} {st' : KeyState}
    (henc : encryptCompositeKey C (C.keypair seed).1 (C.keypair seed).2 key cred ⟨0, tape⟩ = .ok (ck, st'))
    {S : List Credential} (hS : ∀ c ∈ S, Usable c)
    (hw : WrongCredentialsDetected C (C.keypair seed).1 (leavesOf cred.subCreds) ck.blobs S) :
    recoverPayloadKey C (C.keypair seed).1 (some ck) S =
      if cred.satisfied (heldBy C S) then .ok key else .err .insufficientCredentials := by
  unfold recoverPayloadKey
  rw [mapM_decryptors hS]
  simp only [Res.bind_ok]
  have hk : encryptKeyData C (C.keypair seed).1 (C.keypair seed).2
      (.complex cred.subCreds cred.numShares cred.threshold) key ⟨0, tape⟩ = .ok (.composite ck, st') := by
    rw [encryptKeyData]
    unfold encryptCompositeKey at henc
    rw [henc]; rfl
  have hal : Aligned (LeafGood C (C.keypair seed).1 (C.keypair seed).2 (S.map (tryOpen C (C.keypair seed).1))
      (heldBy C S)) (leavesOf cred.subCreds) ck.blobs 0 := by
    apply aligned_of_forall
    intro k leaf blob hl hb part hpart
    apply tryDecryptors_map
    · intro c _ ho
      exact tryOpen_opens hC ho hpart
    · intro c hc ho
      have := hw k leaf blob hl hb c hc ho
      simpa using this
  have hd := dec_keyData C _ _ _ (heldBy C S) (.complex cred.subCreds cred.numShares cred.threshold) key ⟨0, tape⟩ st'
    (.composite ck) hwf hkey hk (by simpa [Credential.leaves, KeyData.blobs] using hal)
  cases ck with
  | mk t parts =>
    rw [decryptKeyData] at hd
    unfold decryptCompositeKey
    simp only [CompositeKey.keyParts, CompositeKey.threshold] at *
    rw [hd]
    simp only [Res.bind_ok]
    have : (Credential.complex cred.subCreds cred.numShares cred.threshold).satisfied (heldBy C S) =
        cred.satisfied (heldBy C S) := by
      rw [Credential.satisfied, ComplexCredential.satisfied]
    rw [this]
    split <;> rename_i h <;> split at h <;> simp_all

/-! ### Integers of an encrypted tree fit -/

theorem oneToZero_le (n : Nat) : oneToZero n ≤ n := by unfold oneToZero; split <;> omega

mutual

theorem fits_keyData (C : Crypto) (epk esk : Bytes) : ∀ (c : Credential) (part : Bytes) (st st' : KeyState)
    (kd : KeyData), c.WF → encryptKeyData C epk esk c part st = .ok (kd, st') → kd.Fits
  | .complex subs n t, part, st, st', kd, hwf, h => by
    obtain ⟨parts, tape, eks, -, h2, rfl⟩ := encryptKeyData_complex_ok h
    rw [Credential.WF] at hwf
    rw [KeyData.Fits, CompositeKey.Fits]
    have := oneToZero_le t
    refine ⟨by omega, fits_subs C epk esk subs parts { st with tape := tape } st' eks hwf.2.2.2.2 ?_ h2⟩
    omega
  | .password p, part, st, st', kd, _, h => by
    rw [encryptKeyData_leaf (by simp)] at h
    obtain ⟨ct, h1, h⟩ := Res.bind_eq_ok.mp h
    simp only [Res.ok.injEq, Prod.mk.injEq] at h
    obtain ⟨rfl, rfl⟩ := h
    trivial
  | .symmetricKey p, part, st, st', kd, _, h => by
    rw [encryptKeyData_leaf (by simp)] at h
    obtain ⟨ct, h1, h⟩ := Res.bind_eq_ok.mp h
    simp only [Res.ok.injEq, Prod.mk.injEq] at h
    obtain ⟨rfl, rfl⟩ := h
    trivial
  | .publicKey p, part, st, st', kd, _, h => by
    rw [encryptKeyData_leaf (by simp)] at h
    obtain ⟨ct, h1, h⟩ := Res.bind_eq_ok.mp h
    simp only [Res.ok.injEq, Prod.mk.injEq] at h
    obtain ⟨rfl, rfl⟩ := h
    trivial
  | .privateKey p, part, st, st', kd, _, h => by simp [encryptKeyData] at h

theorem fits_subs (C : Crypto) (epk esk : Bytes) : ∀ (subs : List (Nat × Credential)) (parts : List Bytes)
    (st st' : KeyState) (eks : List EncryptedKeyParts), MembersWF subs → totalShares subs < 2 ^ 64 →
    encryptSubs C epk esk subs parts st = .ok (eks, st') → FitsList eks
  | [], parts, st, st', eks, _, _, h => by
    simp only [encryptSubs, Res.ok.injEq, Prod.mk.injEq] at h
    obtain ⟨rfl, rfl⟩ := h
    trivial
  | (n, c) :: rest, parts, st, st', eks, hwf, ht, h => by
    obtain ⟨-, kd, st1, eks', h1, h2, rfl⟩ := encryptSubs_cons_ok h
    rw [MembersWF] at hwf
    rw [totalShares] at ht
    rw [FitsList, EncryptedKeyParts.Fits]
    have := oneToZero_le n
    exact ⟨⟨by omega, fits_keyData C epk esk c _ st st1 kd hwf.2.1 h1⟩,
      fits_subs C epk esk rest _ st1 st' eks' hwf.2.2 (by omega) h2⟩

end

theorem fits_composite {C : Crypto} {epk esk key : Bytes} {cred : ComplexCredential} (hwf : cred.WF) {st st' : KeyState}
    {ck : CompositeKey} (h : encryptCompositeKey C epk esk key cred st = .ok (ck, st')) : ck.Fits := by
  have hk : encryptKeyData C epk esk (.complex cred.subCreds cred.numShares cred.threshold) key st =
      .ok (.composite ck, st') := by
    rw [encryptKeyData]
    unfold encryptCompositeKey at h
    rw [h]; rfl
  have := fits_keyData C epk esk _ key st st' _ hwf hk
  rwa [KeyData.Fits] at this

/-! ### The header -/

theorem chunkSizeOf_ok {draw : Nat} (h : draw < DRAW_RANGE) :
    chunkSizeOf draw = 1044480 + 8 * draw ∧ checkChunkSize (chunkSizeOf draw) = .ok () := by
  have e : chunkSizeOf draw = 1044480 + 8 * draw := by
    unfold chunkSizeOf DEFAULT_CHUNK_SIZE DEFAULT_CHUNK_SIZE_UNCERTAINTY HeaderIO.FILE_ALIGNMENT; omega
  refine ⟨e, ?_⟩
  have : draw < 1024 := h
  unfold checkChunkSize MAX_CHUNK_SIZE HeaderIO.FILE_ALIGNMENT
  rw [e, if_neg (by omega), if_neg (by omega)]

/-- Everything `encryptHeader` returns, spelled out. -/
theorem encryptHeader_ok {L : CryptoLib} {opts : EncryptOptions} {draw : Nat} {tape : Tape} {hdr : Bytes}
    {codec : Codec} {cs : Nat} (h : encryptHeader L opts draw tape = .ok (hdr, codec, cs)) :
    ∃ C ck st', cryptosysFromProto L (cryptoFamilyFromOpts opts) = .ok C ∧
      cs = chunkSizeOf draw ∧ checkChunkSize cs = .ok () ∧
      encryptCompositeKey C (C.keypair ((tape.fill 32).2.fill 32).1).1 (C.keypair ((tape.fill 32).2.fill 32).1).2
        (tape.fill 32).1 opts.credential ⟨0, ((tape.fill 32).2.fill 32).2⟩ = .ok (ck, st') ∧
      hdr = encodeHeader {
        cryptoFamily := cryptoFamilyFromOpts opts
        ephemeralPk := (C.keypair ((tape.fill 32).2.fill 32).1).1
        payloadKey := some ck
        protectedHeader := C.aeadEncryptEasy (encodeProtectedHeader
            ⟨cs, ANONYMOUS, (C.keypair ((tape.fill 32).2.fill 32).1).1⟩)
          (tape.fill 32).1 ENCRYPTED_HEADER_NONCE } ∧
      codec = { crypto := C, payloadKey := (tape.fill 32).1, headerHash := C.hash hdr, isEncrypting := true } := by
  unfold encryptHeader at h
  simp only at h
  obtain ⟨C, h1, h⟩ := Res.bind_eq_ok.mp h
  obtain ⟨_, h2, h⟩ := Res.bind_eq_ok.mp h
  obtain ⟨⟨ck, st'⟩, h3, h⟩ := Res.bind_eq_ok.mp h
  simp only [Res.pure_def, Res.ok.injEq, Prod.mk.injEq] at h
  obtain ⟨rfl, rfl, rfl⟩ := h
  exact ⟨C, ck, st', h1, rfl, h2, h3, rfl, rfl⟩

/-- Decrypting an honest header. -/
theorem decryptHeader_encryptHeader {L : CryptoLib} (hL : L.Lawful) {opts : EncryptOptions} {draw : Nat} {tape : Tape}
    (hwf : opts.credential.WF) (hdraw : draw < DRAW_RANGE) {hdr : Bytes}
    {codec : Codec} {cs : Nat} (h : encryptHeader L opts draw tape = .ok (hdr, codec, cs))
    (hlen : hdr.length < 2 ^ 64)
    {S : List Credential} (hS : ∀ c ∈ S, Usable c)
    (hw : HeaderDetectsWrongCredentials codec.crypto hdr opts.credential S) :
    decryptHeader L hdr S =
      if opts.credential.satisfied (heldBy codec.crypto S) then .ok ({ codec with isEncrypting := false }, cs)
      else .err .insufficientCredentials := by
  obtain ⟨C, ck, st', h1, hcs, h2, h3, rfl, rfl⟩ := encryptHeader_ok h
  have hCl : C.Lawful := by
    unfold cryptoFamilyFromOpts at h1
    cases hf : opts.fastAead with
    | false => simp only [hf] at h1; exact hL _ _ h1
    | true => simp only [hf] at h1; exact hL _ _ h1
  have hpk := hCl.pk_len ((tape.fill 32).2.fill 32).1
  have hdec := decodeHeader_encodeHeader _ ⟨?_, ?_⟩ hlen
  rotate_left
  · intro alg ha
    simp only [cryptoFamilyFromOpts, Option.some.injEq] at ha
    rw [← ha]; split <;> omega
  · intro ck' hck
    simp only [Option.some.injEq] at hck
    subst hck
    exact fits_composite hwf h3
  have hw' := hw _ ck hdec rfl
  simp only at hw'
  unfold decryptHeader
  rw [hdec]
  simp only
  rw [h1]
  simp only [Res.bind_ok]
  rw [if_neg (by rw [hpk]; simp [PUBLIC_KEY_LEN]),
    recoverPayloadKey_eq hCl hwf (by simp [fill_length]) h3 hS hw']
  split
  · simp only [Res.bind_ok]
    rw [if_neg (by simp [fill_length, AEAD_KEY_LEN]), Crypto.aeadDecryptEasy_encrypt hCl]
    simp only [Res.bind_ok]
    rw [decodeProtectedHeader_encode _ (by rw [hcs, (chunkSizeOf_ok hdraw).1]; have : draw < 1024 := hdraw; simp; omega)
      (by simp [ANONYMOUS]) (by rw [hpk]; norm_num)]
    simp only [h2, Res.bind_ok, not_true, if_false]
    rfl
  · rfl

end Rypt.HeaderCrypto
