import Verif.Proofs.HeaderFormat
import Verif.Proofs.WireMessages
import Verif.Props.File

/-! C126: the contents of headers. -/

namespace Rypt.Props

open Spec Proto HeaderCrypto CryptFile

/-- C126: every header that is written has the contents of the specification, for the credentials, the payload key and the size of chunks
that the payload is encrypted with. -/
theorem header_contents {L : CryptoLib} (hL : L.Lawful) {opts : EncryptOptions} {draw : Nat} {tape : Tape} (hwf : opts.credential.WF)
    (hdraw : draw < 1024) {hdr : Bytes} {codec : Codec} {cs : Nat} (henc : encryptHeader L opts draw tape = .ok (hdr, codec, cs))
    (hlen : hdr.length < 2 ^ 64) :
    L.instantiate (if opts.fastAead then .aes256Gcm else .chaCha20Poly1305Ietf) = .ok codec.crypto ∧
    codec.headerHash = codec.crypto.hash hdr ∧
    ∃ hd, ReadsHeader hdr hd ∧ HeaderFor codec.crypto opts.fastAead opts.credential codec.payloadKey cs hd := by
  have hCl := lawful_of_encrypt hL henc
  obtain ⟨C, ck, st', h1, hcs, h2, h3, rfl, rfl⟩ := encryptHeader_ok henc
  have hpk := hCl.pk_len ((tape.fill 32).2.fill 32).1
  simp only at hpk
  have hdec := decodeHeader_encodeHeader _ ⟨?_, ?_⟩ hlen
  rotate_left
  · intro alg ha
    simp only [cryptoFamilyFromOpts, Option.some.injEq] at ha
    rw [← ha]; split <;> omega
  · intro ck' hck
    simp only [Option.some.injEq] at hck
    subst hck
    exact fits_composite hwf h3
  refine ⟨?_, rfl, _, (header_iff _ _).mp hdec, rfl, by simp [fill_length], ⟨_, ck, st'.keyIdx, rfl, rfl, ?_⟩, ⟨_, rfl, ?_⟩⟩
  · unfold cryptoFamilyFromOpts at h1
    cases hf : opts.fastAead with
    | false => rw [hf] at h1; exact h1
    | true => rw [hf] at h1; exact h1
  · refine sealedFor_of_encrypt _ _ ⟨0, ((tape.fill 32).2.fill 32).2⟩ st' _ ?_
    rw [encryptKeyData]
    unfold encryptCompositeKey at h3
    rw [h3]
    rfl
  · rw [← protected_iff, decodeProtectedHeader_encode _ (by rw [hcs, (chunkSizeOf_ok hdraw).1]; simp; omega) (by simp [ANONYMOUS]) (by rw [hpk]; norm_num)]
    rfl

/-- C126: every header with such contents is opened, whoever made it, whatever the random choices, whatever the size of its chunks (a
multiple of 8 up to 1 GiB): with credentials that satisfy the tree, to its payload key and its size of chunks, and with no others. -/
theorem header_of_format_opens {L : CryptoLib} {C : Crypto} (hC : C.Lawful) {fast : Bool}
    (hi : L.instantiate (if fast then .aes256Gcm else .chaCha20Poly1305Ietf) = .ok C) {cred : ComplexCredential} (hwf : cred.WF)
    {key : Bytes} {size : Nat} (hsize : size ≤ 2 ^ 30 ∧ size % 8 = 0) {hdr : Bytes} {hd : RyptFileHeader}
    (hdec : ReadsHeader hdr hd) (h : HeaderFor C fast cred key size hd) {S : List Credential} (hS : ∀ c ∈ S, Usable c)
    (hw : HeaderDetectsWrongCredentials C hdr cred S) :
    decryptHeader L hdr S =
      if cred.satisfied (heldBy C S) then .ok (⟨C, key, C.hash hdr, false⟩, size) else .err .insufficientCredentials := by
  obtain ⟨hf, hkl, ⟨seed, ck, j, he, hck, hs⟩, pb, hpb, hph⟩ := h
  rw [← header_iff] at hdec
  rw [← protected_iff] at hph
  obtain ⟨tape, henc⟩ := encrypt_of_sealedFor hs (fun _ => 0)
  have hcomp : encryptCompositeKey C (C.keypair seed).1 (C.keypair seed).2 key cred ⟨0, tape⟩ = .ok (ck, ⟨j, fun _ => 0⟩) := by
    rw [encryptKeyData] at henc
    obtain ⟨⟨ck', st⟩, h1, h2⟩ := Res.bind_eq_ok.mp henc
    cases h2
    exact h1
  have hw' := hw hd ck hdec hck
  rw [he] at hw'
  have hrec := recoverPayloadKey_eq hC hwf (by omega) hcomp hS hw'
  have hfam : cryptosysFromProto L hd.cryptoFamily = .ok C := by
    rw [hf]
    cases fast with
    | false => exact hi
    | true => exact hi
  unfold decryptHeader
  rw [hdec]
  simp only
  rw [hfam]
  simp only [Res.bind_ok]
  rw [if_neg (by rw [he, hC.pk_len]; simp [PUBLIC_KEY_LEN]), hck, he, hrec]
  split
  · simp only [Res.bind_ok]
    rw [if_neg (by rw [hkl]; simp [AEAD_KEY_LEN]), hpb]
    have : (sealBox C key headerNonce [] pb).bytes = C.aeadEncryptEasy pb key ENCRYPTED_HEADER_NONCE := rfl
    rw [this, Crypto.aeadDecryptEasy_encrypt hC]
    simp only [Res.bind_ok]
    rw [hph]
    have hcheck : checkChunkSize size = .ok () := by
      unfold checkChunkSize MAX_CHUNK_SIZE HeaderIO.FILE_ALIGNMENT
      rw [if_neg (not_not.mpr (show size ≤ 1024 * 1024 * 1024 by omega)), if_neg (not_not.mpr (show size % 8 = 0 from hsize.2))]
    simp only [hcheck, Res.bind_ok]
    rw [if_neg (not_not.mpr (show 1 = ANONYMOUS from rfl)), if_neg (not_not.mpr he)]
    rfl
  · rfl

/-- C126: so every file of the format is decrypted: once the decryption has returned and no I/O operation failed, it has written the
plaintext. -/
theorem file_of_format_decrypts {L : CryptoLib} (hL : L.Lawful) {C : Crypto} (hC : C.Lawful) {fast : Bool}
    (hi : L.instantiate (if fast then .aes256Gcm else .chaCha20Poly1305Ietf) = .ok C) {cred : ComplexCredential} (hwf : cred.WF)
    {key : Bytes} {size : Nat} (hpos : 0 < size) (hsize : size ≤ 2 ^ 30 ∧ size % 8 = 0) {hdr : Bytes} {hd : RyptFileHeader}
    (hne : 0 < hdr.length) (hmax : hdr.length ≤ maxHeader)
    (hdec : ReadsHeader hdr hd) (h : HeaderFor C fast cred key size hd) {S : List Credential} (hS : ∀ c ∈ S, Usable c)
    (hw : HeaderDetectsWrongCredentials C hdr cred S) (hsat : cred.satisfied (heldBy C S) = true) {plain : Bytes} {o : Obs}
    (hconv : Conversion L (file C key hdr size plain) (.decrypt S) o) :
    o.written <+: plain ∧ ∀ r, o.result = some r → (o.faulted = true ∨ r = .ok () ∧ o.written = plain) ∧
      (r = .ok () → o.written = plain) := by
  have hopen := header_of_format_opens hC hi hwf hsize hdec h hS hw
  rw [if_pos hsat] at hopen
  exact decrypt_opened_layout hL hC hpos hne hmax hopen rfl hconv

/-- C126: what a successful encryption writes is a file of the format: for the algorithm and the credentials asked for, of the whole
plaintext, in chunks of about 1 MiB. -/
theorem encrypted_file_format {L : CryptoLib} (hL : L.Lawful) {opts : EncryptOptions} (hwf : opts.credential.WF) {draw : Nat}
    (hdraw : draw < 1024) {tape : Tape} {plain F : Bytes} {flt : Bool}
    (h : Conversion L plain (.encrypt opts draw tape) ⟨F, some (.ok ()), flt⟩) :
    ∃ C key hdr size hd, L.instantiate (if opts.fastAead then .aes256Gcm else .chaCha20Poly1305Ietf) = .ok C ∧
      F = file C key hdr size plain ∧ 0 < hdr.length ∧ hdr.length ≤ maxHeader ∧ ReadsHeader hdr hd ∧
      HeaderFor C opts.fastAead opts.credential key size hd ∧ 1044480 ≤ size ∧ size < 1052672 ∧ size % 8 = 0 := by
  have henc : ∃ hdr codec cs, encryptHeader L opts draw tape = .ok (hdr, codec, cs) := by
    generalize ho : (⟨F, some (.ok ()), flt⟩ : Obs) = o at h
    cases h with
    | started => cases ho
    | encryptHeaderErr => cases ho
    | encryptHeaderPanic => cases ho
    | writeHeaderErr => cases ho
    | writingHeader => cases ho
    | writeHeaderFault => cases ho
    | encrypting _ _ _ hdr codec cs pieces ls s he => exact ⟨hdr, codec, cs, he⟩
  obtain ⟨hdr, codec, cs, henc⟩ := henc
  obtain ⟨hF, hmax⟩ := encrypted_file_layout hL hdraw henc h
  obtain ⟨hi, -, hd, hr, hf⟩ := header_contents hL hwf hdraw henc (by unfold maxHeader at hmax; omega)
  obtain ⟨C, ck, st', -, hcs, -⟩ := encryptHeader_ok henc
  have := (chunkSizeOf_ok hdraw).1
  refine ⟨codec.crypto, codec.payloadKey, hdr, cs, hd, hi, hF, ?_, hmax, hr, hf, by omega, by omega, by omega⟩
  refine List.length_pos_iff.mpr ?_
  rintro rfl
  rw [← header_iff] at hr
  have e : decodeHeader [] = some ⟨none, [], none, []⟩ := rfl
  rw [e] at hr
  cases hr
  cases hf.family

/-! ### Cases -/

namespace Sample

example : ∃ hd, ReadsHeader hdr hd ∧ HeaderFor codec.crypto false cred codec.payloadKey chunkSize hd :=
  (header_contents Toy.lib_lawful cred_wf (by omega) enc_ok (by have := hdr_length; omega)).2.2

example (plain : Bytes) : ∃ F C key hdr size hd, Toy.lib.instantiate .chaCha20Poly1305Ietf = .ok C ∧ F = file C key hdr size plain ∧
    ReadsHeader hdr hd ∧ HeaderFor C false cred key size hd := by
  obtain ⟨C, key, hdr, size, hd, h1, h2, -, -, h3, h4, -⟩ := encrypted_file_format Toy.lib_lawful cred_wf (by omega) (encrypted plain)
  exact ⟨_, C, key, hdr, size, hd, h1, h2, h3, h4⟩

/-- The sample header with chunks of 64 bytes, which the program itself does not use. -/
def smallChunks (hd : RyptFileHeader) : RyptFileHeader :=
  { hd with protectedHeader := (sealBox Toy.crypto codec.payloadKey headerNonce [] (encodeProtectedHeader ⟨64, 1, hd.ephemeralPk⟩)).bytes }

theorem hdr_decodes : (decodeHeader hdr).isSome = true := by decide +kernel

def smallHdr : Bytes := encodeHeader (smallChunks ((decodeHeader hdr).get hdr_decodes))

theorem small_decodes : decodeHeader smallHdr = some (smallChunks ((decodeHeader hdr).get hdr_decodes)) := by
  have hl : smallHdr.length < 2 ^ 16 := by decide +kernel
  refine decodeHeader_encodeHeader _ ?_ (by rw [← smallHdr]; omega)
  obtain ⟨C, ck, st', -, -, -, h3, h4, -⟩ := encryptHeader_ok enc_ok
  have hf : (⟨cryptoFamilyFromOpts opts, (C.keypair ((tape.fill 32).2.fill 32).1).1, some ck, C.aeadEncryptEasy (encodeProtectedHeader
      ⟨chunkSize, ANONYMOUS, (C.keypair ((tape.fill 32).2.fill 32).1).1⟩) (tape.fill 32).1 ENCRYPTED_HEADER_NONCE⟩ : RyptFileHeader).Fits := by
    refine ⟨fun alg ha => ?_, fun ck' hck => ?_⟩
    · simp only [cryptoFamilyFromOpts, Option.some.injEq] at ha
      rw [← ha]; split <;> omega
    · simp only [Option.some.injEq] at hck
      subst hck
      exact fits_composite cred_wf h3
  have hdec := decodeHeader_encodeHeader _ hf (by rw [← h4]; have := hdr_length; omega)
  rw [← h4] at hdec
  simp only [hdec, Option.get_some]
  exact ⟨hf.1, hf.2⟩

theorem small_format : HeaderFor Toy.crypto false cred codec.payloadKey 64 (smallChunks ((decodeHeader hdr).get hdr_decodes)) := by
  obtain ⟨-, -, hd, hdec, h⟩ := header_contents Toy.lib_lawful cred_wf (by omega) enc_ok (by have := hdr_length; omega)
  rw [← header_iff] at hdec
  rw [sample_crypto] at h
  have : (decodeHeader hdr).get hdr_decodes = hd := by simp [hdec]
  rw [this]
  refine ⟨h.family, h.keyLen, h.keys, _, rfl, ?_⟩
  obtain ⟨seed, ck, j, he, -⟩ := h.keys
  exact (protected_iff _ _).mp <| decodeProtectedHeader_encode _ (by simp) (by simp) (by simp only [he]; rw [Toy.lawful.pk_len]; norm_num)

example : decryptHeader Toy.lib smallHdr good = .ok (⟨Toy.crypto, codec.payloadKey, Toy.crypto.hash smallHdr, false⟩, 64) := by
  have := header_of_format_opens (L := Toy.lib) Toy.lawful (fast := false) rfl cred_wf ⟨by norm_num, by norm_num⟩ ((header_iff _ _).mp small_decodes)
    small_format good_usable (toyDetects_detects (by decide +kernel))
  rw [this, if_pos (by rw [← sample_crypto]; exact good_satisfies)]

end Sample

end Rypt.Props
