import Verif.Props.Samples
import Verif.Spec.File

/-!
Properties C27, C28, C30, C61, C62, C64: pieces of the header code.
-/

namespace Rypt.Props

open HeaderCrypto Proto

/-! ### C62: the easy wrappers -/

/-- Encrypting with the easy wrappers appends 16 bytes; decrypting undoes it. For boxes, decryption may use the
other half of the two key pairs. -/
theorem easy_wrappers_roundtrip (C : Crypto) (hC : C.Lawful) :
    (∀ m k n, (C.aeadEncryptEasy m k n).length = m.length + 16 ∧
      C.aeadDecryptEasy (C.aeadEncryptEasy m k n) k n = .ok m) ∧
    (∀ m s s' n ct, C.boxEncryptEasy m (C.keypair s).1 (C.keypair s').2 n = .ok ct →
      ct.length = m.length + 16 ∧ C.boxDecryptEasy ct (C.keypair s').1 (C.keypair s).2 n = .ok m) :=
  ⟨fun m k n => ⟨Crypto.aeadEncryptEasy_length hC m k n, Crypto.aeadDecryptEasy_encrypt hC m k n⟩,
   fun _ s s' _ _ h => ⟨Crypto.boxEncryptEasy_length hC h,
     Crypto.boxDecryptEasy_encrypt hC h (hC.box_shared s' s)⟩⟩

/-- Anything shorter than 16 bytes is refused as an invalid ciphertext, for all primitives; the wrappers never panic,
and whatever they accept was accepted by the primitive on exactly this data, the last 16 bytes being the MAC. -/
theorem easy_wrappers_reject (C : Crypto) (ct k pk sk n : Bytes) :
    (ct.length < 16 → C.aeadDecryptEasy ct k n = .err .invalidCiphertext ∧
      C.boxDecryptEasy ct pk sk n = .err .invalidCiphertext) ∧
    C.aeadDecryptEasy ct k n ≠ .panic ∧ C.boxDecryptEasy ct pk sk n ≠ .panic ∧
    (∀ m, C.aeadDecryptEasy ct k n = .ok m → ∃ body mac, ct = body ++ mac ∧ mac.length = 16 ∧
      C.aeadDecrypt k n [] body mac = some m) ∧
    (∀ m, C.boxDecryptEasy ct pk sk n = .ok m → ∃ body mac shared, ct = body ++ mac ∧ mac.length = 16 ∧
      C.boxBeforenm pk sk = some shared ∧ C.boxOpen shared n body mac = some m) := by
  unfold Crypto.aeadDecryptEasy Crypto.boxDecryptEasy AEAD_MAC_LEN BOX_MAC_LEN
  by_cases h : ct.length < 16
  · simp [h]
  · simp only [h, if_false, false_implies, true_and]
    refine ⟨?_, ?_, ?_, ?_⟩
    · split <;> simp
    · split
      · simp
      · split <;> simp
    · intro m hm
      refine ⟨_, _, (List.take_append_drop (ct.length - 16) ct).symm, by simp; omega, ?_⟩
      split at hm
      · simp_all
      · cases hm
    · intro m hm
      split at hm
      · cases hm
      · rename_i shared hs
        refine ⟨_, _, shared, (List.take_append_drop (ct.length - 16) ct).symm, by simp; omega, hs, ?_⟩
        split at hm
        · simp_all
        · cases hm

example : Toy.crypto.Lawful := Toy.lawful
example : Toy.crypto.boxEncryptEasy [1, 2, 3] (Toy.crypto.keypair [5]).1 (Toy.crypto.keypair [7]).2 [0] ≠
    .err .invalidKeyPair := by simp [Crypto.boxEncryptEasy, Toy.crypto]

/-! ### C64, C61: splitting a key -/

/-- XOR of a list of byte strings of length `len`. -/
def xorTotal (len : Nat) (parts : List Bytes) : Bytes :=
  parts.foldl (fun acc p => List.zipWith (· ^^^ ·) acc p) (List.replicate len 0)

/-- Splitting a key: there are exactly `n` parts, each as long as the key; with threshold 1 every part is the key;
with threshold `n` (above 1) the XOR of all parts is the key; and in every case the code that puts parts back together
returns the key from any selection of at least `t` different parts in any order, and nothing from fewer. -/
theorem split_key_loses_nothing {key : Bytes} {n t : Nat} {tape tape' : Tape} {parts : List Bytes}
    (h : splitKey key n t tape = .ok (parts, tape')) :
    parts.length = n ∧ (∀ p ∈ parts, p.length = key.length) ∧
    (t = 1 → ∀ p ∈ parts, p = key) ∧
    (1 < t → t = n → xorTotal key.length parts = key) ∧
    ∀ sel : List (Nat × Bytes), (sel.map Prod.fst).Nodup → (∀ p ∈ sel, parts[p.1]? = some p.2) →
      reconstruct (oneToZero t) n sel = .ok (if t ≤ sel.length then some key else none) := by
  obtain ⟨parts', hs', hl, hlen, hor, hand, -⟩ := splitKey_eq tape (splitKey_ok_iff h)
  rw [h] at hs'
  injection hs' with hs'
  injection hs' with hs' _
  subst hs'
  refine ⟨hl, hlen, ?_, ?_, fun sel => reconstruct_split h sel⟩
  · intro ht p hp
    rw [hor ht] at hp
    exact List.eq_of_mem_replicate hp
  · intro ht htn
    have := hand (by omega) htn (List.replicate key.length 0) (by simp)
    rw [zero_xorBytes (by simp)] at this
    exact this

/-- Splitting succeeds exactly for thresholds between 1 and the number of parts, when the (wrapping) size check passes,
and at most 255 parts for true threshold schemes; it never panics. -/
theorem split_key_outcome (key : Bytes) (n t : Nat) (tape : Tape) :
    ((∃ r, splitKey key n t tape = .ok r) ↔
      1 ≤ t ∧ t ≤ n ∧ key.length * n % 2 ^ 64 < 2 ^ 24 ∧ (1 < t → t < n → n ≤ 255)) ∧
    splitKey key n t tape ≠ .panic := by
  have key' : SplitValid key.length n t ↔
      1 ≤ t ∧ t ≤ n ∧ key.length * n % 2 ^ 64 < 2 ^ 24 ∧ (1 < t → t < n → n ≤ 255) := by
    unfold SplitValid wrap64 HeaderIO.MAX_HEADER_LEN
    norm_num
  rw [← key']
  refine ⟨⟨fun ⟨r, h⟩ => splitKey_ok_iff h, fun h => ?_⟩, ?_⟩
  · obtain ⟨parts, h, -⟩ := splitKey_eq tape h
    exact ⟨_, h⟩
  · by_cases h : SplitValid key.length n t
    · obtain ⟨parts, h, -⟩ := splitKey_eq tape h
      rw [h]; simp
    · unfold splitKey
      unfold SplitValid at h
      split
      · simp
      split
      · simp
      split
      · simp
      split
      · simp
      split
      · rename_i h1 h2 h3 h4 h5
        exfalso; apply h; simp only [not_not] at h1 h2 h3
        exact ⟨by omega, by omega, h3, by omega⟩
      · rename_i h1 h2 h3 h4 h5
        simp only [not_not] at h1 h2 h3
        unfold Shamir.createSecretShares
        split <;> try simp
        split <;> try simp
        split <;> try simp
        rename_i h6
        unfold Shamir.MAX_SHARES at h6
        exfalso; apply h
        exact ⟨by omega, by omega, h3, by omega⟩

example : (splitKey [1, 2, 3] 5 3 Sample.tape).isOk = true := by decide +kernel

/-- C61, the size check as one would expect it fails: a request for 2^59 parts of a 32-byte key is accepted,
because the product of lengths wraps around. -/
theorem split_key_guard_wraps : ¬ ∀ (key : Bytes) (n t : Nat) (tape : Tape) (parts : List Bytes) (tape' : Tape),
    splitKey key n t tape = .ok (parts, tape') → key.length * parts.length < 2 ^ 24 := by
  intro h
  have e : splitKey (List.replicate 32 7) (2 ^ 59) 1 Sample.tape =
      .ok (List.replicate (2 ^ 59) (List.replicate 32 7), Sample.tape) := by
    unfold splitKey
    rw [if_neg (by simp), if_neg (by simp), if_neg (by simp [wrap64, HeaderIO.MAX_HEADER_LEN]), if_pos rfl]
  have := h _ _ _ _ _ _ e
  simp only [List.length_replicate] at this
  omega

/-- C61 for requests whose total size does not wrap: the parts take less than 16 MiB together. Missing for the full
claim: products of 2^64 and more (see `split_key_guard_wraps`). -/
theorem split_key_bounded_partial {key : Bytes} {n t : Nat} {tape tape' : Tape} {parts : List Bytes}
    (hw : key.length * n < 2 ^ 64) (h : splitKey key n t tape = .ok (parts, tape')) :
    (parts.map List.length).sum < 2 ^ 24 := by
  have hv := (splitKey_ok_iff h).2.2.1
  obtain ⟨hl, hlen, -⟩ := split_key_loses_nothing h
  unfold wrap64 HeaderIO.MAX_HEADER_LEN at hv
  rw [Nat.mod_eq_of_lt hw] at hv
  have : (parts.map List.length) = List.replicate n key.length := by
    apply List.ext_getElem (by simp [hl])
    intro i h1 h2
    simp only [List.getElem_map, List.getElem_replicate]
    exact hlen _ (List.getElem_mem _)
  rw [this, List.sum_replicate, smul_eq_mul, Nat.mul_comm]
  norm_num at hv ⊢
  exact hv

/-- C61: exactly when the claim fails: an accepted request has parts of more than 16 MiB together iff the total size does not fit in
64 bits. -/
theorem split_key_exceeds_iff {key : Bytes} {n t : Nat} {tape tape' : Tape} {parts : List Bytes}
    (h : splitKey key n t tape = .ok (parts, tape')) : 2 ^ 24 ≤ (parts.map List.length).sum ↔ 2 ^ 64 ≤ key.length * n := by
  obtain ⟨hl, hlen, -⟩ := split_key_loses_nothing h
  have hsum : (parts.map List.length).sum = key.length * n := by
    have : (parts.map List.length) = List.replicate n key.length := by
      apply List.ext_getElem (by simp [hl])
      intro i h1 h2
      simp only [List.getElem_map, List.getElem_replicate]
      exact hlen _ (List.getElem_mem _)
    rw [this, List.sum_replicate, smul_eq_mul, Nat.mul_comm]
  constructor
  · intro h1
    by_contra h2
    have := split_key_bounded_partial (by omega) h
    omega
  · intro h1
    rw [hsum]
    exact Nat.le_trans (by norm_num) h1

/-! ### C27: chunk sizes -/

/-- Encryption picks a multiple of 8 within 4 KiB of 1 MiB, which passes the check. -/
theorem encrypt_chunk_size_valid {L : CryptoLib} {opts : EncryptOptions} {draw : Nat} {tape : Tape} {hdr : Bytes}
    {codec : Codec} {cs : Nat} (hdraw : draw < 1024) (h : encryptHeader L opts draw tape = .ok (hdr, codec, cs)) :
    cs % 8 = 0 ∧ 1048576 - 4096 ≤ cs ∧ cs < 1048576 + 4096 ∧ checkChunkSize cs = .ok () := by
  obtain ⟨C, ck, st', -, rfl, h2, -⟩ := encryptHeader_ok h
  rw [(chunkSizeOf_ok hdraw).1] at *
  exact ⟨by omega, by omega, by omega, h2⟩

/-- The check never stands in the way of encryption: it fails for no possible draw. -/
theorem encrypt_chunk_size_never_refused (draw : Nat) (hdraw : draw < 1024) : checkChunkSize (chunkSizeOf draw) = .ok () :=
  (chunkSizeOf_ok hdraw).2

/-- Decryption accepts no chunk size above 1 GiB or not a multiple of 8, whatever the header says. -/
theorem decrypt_chunk_size_valid {L : CryptoLib} {hdr : Bytes} {S : List Credential} {codec : Codec} {cs : Nat}
    (h : decryptHeader L hdr S = .ok (codec, cs)) : cs % 8 = 0 ∧ cs ≤ 2 ^ 30 := by
  unfold decryptHeader at h
  split at h
  · cases h
  obtain ⟨C, -, h⟩ := Res.bind_eq_ok.mp h
  split at h
  · cases h
  obtain ⟨pk, -, h⟩ := Res.bind_eq_ok.mp h
  split at h
  · cases h
  obtain ⟨pb, -, h⟩ := Res.bind_eq_ok.mp h
  split at h
  · cases h
  obtain ⟨_, hc, h⟩ := Res.bind_eq_ok.mp h
  split at h
  · cases h
  split at h
  · cases h
  simp only [Res.pure_def, Res.ok.injEq, Prod.mk.injEq] at h
  obtain ⟨-, rfl⟩ := h
  unfold checkChunkSize MAX_CHUNK_SIZE HeaderIO.FILE_ALIGNMENT at hc
  split at hc
  · cases hc
  split at hc
  · cases hc
  rename_i h1 h2
  omega

/-- The check itself, on every number. -/
theorem check_chunk_size_iff (n : Nat) : checkChunkSize n = .ok () ↔ n ≤ 2 ^ 30 ∧ n % 8 = 0 := by
  unfold checkChunkSize MAX_CHUNK_SIZE HeaderIO.FILE_ALIGNMENT
  split
  · simp; omega
  split
  · simp; omega
  · simp; omega

example : encryptHeader Toy.lib Sample.opts 5 Sample.tape = .ok (Sample.hdr, Sample.codec, Sample.chunkSize) :=
  Sample.enc_ok

/-! ### C28: size of the protected header -/

theorem protected_header_length (draw : Nat) (hdraw : draw < 1024) (pk : Bytes) (hpk : pk.length = 32) :
    (encodeProtectedHeader ⟨chunkSizeOf draw, ANONYMOUS, pk⟩).length = 45 := by
  have hne : pk ≠ [] := by intro h; rw [h] at hpk; simp at hpk
  unfold encodeProtectedHeader encodeEnum encodeBytesOpt encodeFixed64 encodeBytes
  simp only
  rw [(chunkSizeOf_ok hdraw).1, if_neg (by decide), if_pos (by decide), if_neg hne, if_neg (by omega)]
  simp only [List.length_append, leBytes_length, hpk, ANONYMOUS]
  rfl

/-- The encrypted protected header in the file is 61 bytes long, whatever the chunk size, keys and credentials. -/
theorem protected_header_fixed_size {L : CryptoLib} (hL : L.Lawful) {opts : EncryptOptions} {draw : Nat} {tape : Tape}
    (hwf : opts.credential.WF) (hdraw : draw < 1024) {hdr : Bytes} {codec : Codec} {cs : Nat}
    (h : encryptHeader L opts draw tape = .ok (hdr, codec, cs)) (hlen : hdr.length < 2 ^ 64) :
    ∃ hd, decodeHeader hdr = some hd ∧ hd.protectedHeader.length = 61 := by
  obtain ⟨C, ck, st', h1, hcs, h2, h3, rfl, rfl⟩ := encryptHeader_ok h
  have hCl : C.Lawful := by
    unfold cryptoFamilyFromOpts at h1
    cases hf : opts.fastAead with
    | false => simp only [hf] at h1; exact hL _ _ h1
    | true => simp only [hf] at h1; exact hL _ _ h1
  refine ⟨_, decodeHeader_encodeHeader _ ⟨?_, ?_⟩ hlen, ?_⟩
  · intro alg ha
    simp only [cryptoFamilyFromOpts, Option.some.injEq] at ha
    rw [← ha]; split <;> omega
  · intro ck' hck
    simp only [Option.some.injEq] at hck
    subst hck
    exact fits_composite hwf h3
  · simp only
    rw [Crypto.aeadEncryptEasy_length hCl, hcs, protected_header_length draw hdraw _ (hCl.pk_len _)]

example : Toy.lib.Lawful ∧ Sample.opts.credential.WF ∧ Sample.hdr.length < 2 ^ 64 :=
  ⟨Toy.lib_lawful, Sample.cred_wf, by have := Sample.hdr_length; omega⟩

/-! ### C79: the algorithm -/

/-- C79. Encryption uses AES-256-GCM iff the fast algorithm was asked for, ChaCha20-Poly1305 otherwise, and the header names
the algorithm used (2 and 1, as in src/proto/header.proto). That decryption uses the algorithm the header names is part of
`accepted_header_consistent`. -/
theorem algorithm_is_chosen {L : CryptoLib} {opts : EncryptOptions} {draw : Nat} {tape : Tape}
    (hwf : opts.credential.WF) {hdr : Bytes} {codec : Codec} {cs : Nat}
    (h : encryptHeader L opts draw tape = .ok (hdr, codec, cs)) (hlen : hdr.length < 2 ^ 64) :
    ∃ hd, decodeHeader hdr = some hd ∧
      (opts.fastAead = true → L.instantiate .aes256Gcm = .ok codec.crypto ∧ hd.cryptoFamily = some 2) ∧
      (opts.fastAead = false → L.instantiate .chaCha20Poly1305Ietf = .ok codec.crypto ∧ hd.cryptoFamily = some 1) := by
  obtain ⟨C, ck, st', h1, hcs, h2, h3, rfl, rfl⟩ := encryptHeader_ok h
  refine ⟨_, decodeHeader_encodeHeader _ ⟨?_, ?_⟩ hlen, ?_, ?_⟩
  · intro alg ha
    simp only [cryptoFamilyFromOpts, Option.some.injEq] at ha
    rw [← ha]; split <;> omega
  · intro ck' hck
    simp only [Option.some.injEq] at hck
    subst hck
    exact fits_composite hwf h3
  · intro hf
    simp only [cryptoFamilyFromOpts, hf, if_true] at h1 ⊢
    exact ⟨h1, trivial⟩
  · intro hf
    simp only [cryptoFamilyFromOpts, hf] at h1 ⊢
    exact ⟨h1, rfl⟩

example : Sample.opts.credential.WF ∧ encryptHeader Toy.lib Sample.opts 5 Sample.tape = .ok (Sample.hdr, Sample.codec,
    Sample.chunkSize) ∧ Sample.hdr.length < 2 ^ 64 := ⟨Sample.cred_wf, Sample.enc_ok, by have := Sample.hdr_length; omega⟩

/-! ### C30: what an accepted header looks like -/

/-- Every condition an accepted header meets. Read contrapositively: a header is refused if it does not parse, names
no or an unknown crypto family or algorithm, has an ephemeral key that is not 32 bytes, no payload key or one that is
not 32 bytes, a protected header that does not authenticate or parse, a sender type other than Anonymous (1), or
a sender key different from the ephemeral key. -/
theorem accepted_header_consistent {L : CryptoLib} {hdr : Bytes} {S : List Credential} {codec : Codec} {cs : Nat}
    (h : decryptHeader L hdr S = .ok (codec, cs)) :
    ∃ hd ck pb ph, decodeHeader hdr = some hd ∧
      (hd.cryptoFamily = some 1 ∧ L.instantiate .chaCha20Poly1305Ietf = .ok codec.crypto ∨
       hd.cryptoFamily = some 2 ∧ L.instantiate .aes256Gcm = .ok codec.crypto) ∧
      hd.ephemeralPk.length = 32 ∧
      hd.payloadKey = some ck ∧
      recoverPayloadKey codec.crypto hd.ephemeralPk (some ck) S = .ok codec.payloadKey ∧
      codec.payloadKey.length = 32 ∧
      codec.crypto.aeadDecryptEasy hd.protectedHeader codec.payloadKey Spec.headerNonce = .ok pb ∧
      decodeProtectedHeader pb = some ph ∧
      ph.senderAuthType = 1 ∧ ph.senderPk = hd.ephemeralPk ∧ ph.plaintextChunkSize = cs ∧
      codec.headerHash = codec.crypto.hash hdr ∧ codec.isEncrypting = false := by
  unfold decryptHeader at h
  split at h
  · cases h
  rename_i hd hdec
  obtain ⟨C, hfam, h⟩ := Res.bind_eq_ok.mp h
  split at h
  · cases h
  rename_i hpk
  obtain ⟨pk, hrec, h⟩ := Res.bind_eq_ok.mp h
  split at h
  · cases h
  rename_i hlen
  obtain ⟨pb, hpb, h⟩ := Res.bind_eq_ok.mp h
  split at h
  · cases h
  rename_i ph hph
  obtain ⟨_, hc, h⟩ := Res.bind_eq_ok.mp h
  split at h
  · cases h
  rename_i ha
  split at h
  · cases h
  rename_i hs
  simp only [Res.pure_def, Res.ok.injEq, Prod.mk.injEq] at h
  obtain ⟨rfl, rfl⟩ := h
  have hck : ∃ ck, hd.payloadKey = some ck := by
    cases hk : hd.payloadKey with
    | some ck => exact ⟨ck, rfl⟩
    | none =>
      rw [hk] at hrec
      unfold recoverPayloadKey at hrec
      obtain ⟨_, _, hrec⟩ := Res.bind_eq_ok.mp hrec
      cases hrec
  obtain ⟨ck, hck⟩ := hck
  refine ⟨hd, ck, pb, ph, hdec, ?_, not_not.mp hpk, hck, by rw [← hck]; exact hrec, not_not.mp hlen, hpb, hph,
    not_not.mp ha, not_not.mp hs, rfl, rfl, rfl⟩
  unfold cryptosysFromProto at hfam
  split at hfam
  · left; exact ⟨by assumption, hfam⟩
  · right; exact ⟨by assumption, hfam⟩
  · cases hfam
  · cases hfam

example : (decryptHeader Toy.lib Sample.hdr [.password [97, 98], .symmetricKey [9]]).isOk = true := by decide +kernel

/-- Each kind of inconsistency, with the error it produces: the algorithm is unknown, or the ephemeral key has the
wrong size. (These two come before any secret is used.) -/
theorem inconsistent_header_errors {L : CryptoLib} {hdr : Bytes} {S : List Credential} {hd : RyptFileHeader}
    (hdec : decodeHeader hdr = some hd) :
    (hd.cryptoFamily = none → decryptHeader L hdr S = .err .unknownCryptoFamily) ∧
    (∀ alg, hd.cryptoFamily = some alg → alg ≠ 1 → alg ≠ 2 → decryptHeader L hdr S = .err .unknownAlgorithm) ∧
    (∀ C, cryptosysFromProto L hd.cryptoFamily = .ok C → hd.ephemeralPk.length ≠ 32 →
      decryptHeader L hdr S = .err .ephemeralPkLen) := by
  unfold decryptHeader
  rw [hdec]
  simp only
  refine ⟨?_, ?_, ?_⟩
  · intro h; rw [h]; rfl
  · intro alg h h1 h2
    rw [h]
    have : cryptosysFromProto L (some alg) = .err .unknownAlgorithm := by
      unfold cryptosysFromProto
      split <;> simp_all
    rw [this]; rfl
  · intro C h hne
    rw [h, Res.bind_ok, if_pos (by exact hne)]

end Rypt.Props
