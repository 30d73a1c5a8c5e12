import Verif.Model.CryptFile
import Verif.Proofs.File
import Verif.Props.Framing
import Verif.Props.Header
import Verif.Props.Access
import Verif.Props.Pipeline

/-!
Properties C01, C03, C09-C12, C26, C67: whole files. `Conversion` is the observable behaviour of encrypting or decrypting one
stream: what has been written and returned at any moment, under every schedule of the threads and any I/O failures.
-/

namespace Rypt.Props

open HeaderCrypto Pipeline CryptFile Spec

section

variable {L : CryptoLib} {opts : EncryptOptions} {draw : Nat} {tape : Tape} {hdr : Bytes} {codec : Codec} {cs : Nat}
  {plain F : Bytes} {flt : Bool} {S : List Credential}

theorem lawful_of_encrypt (hL : L.Lawful) (henc : encryptHeader L opts draw tape = .ok (hdr, codec, cs)) :
    codec.crypto.Lawful := by
  obtain ⟨C, ck, st', h1, -, -, -, -, h6⟩ := encryptHeader_ok henc
  rw [h6]
  unfold cryptosysFromProto at h1
  repeat' split at h1
  all_goals first | exact hL _ _ h1 | cases h1

private theorem codec_of_encrypt (henc : encryptHeader L opts draw tape = .ok (hdr, codec, cs)) :
    codec = ⟨codec.crypto, codec.payloadKey, codec.crypto.hash hdr, true⟩ := by
  obtain ⟨C, ck, st', -, -, -, -, -, h6⟩ := encryptHeader_ok henc
  rw [h6]

/-- Headers are not empty. -/
theorem header_nonempty (hL : L.Lawful) (henc : encryptHeader L opts draw tape = .ok (hdr, codec, cs)) :
    0 < hdr.length := by
  have hC := lawful_of_encrypt hL henc
  obtain ⟨C, ck, st', -, -, -, -, h5, h6⟩ := encryptHeader_ok henc
  rw [h6] at hC
  rw [h5, Proto.encodeHeader]
  have := hC.pk_len ((tape.fill 32).2.fill 32).1
  have hne : (C.keypair ((tape.fill 32).2.fill 32).1).1 ≠ [] := by intro h; simp [h] at this
  have hb : 32 ≤ (Proto.encodeBytesOpt 6 (C.keypair ((tape.fill 32).2.fill 32).1).1).length := by
    simp only [Proto.encodeBytesOpt]
    rw [if_neg hne]
    simp only [Proto.encodeBytes, List.length_append] at this ⊢
    omega
  simp only [List.length_append]
  omega

theorem cs_pos (hdraw : draw < 1024) (henc : encryptHeader L opts draw tape = .ok (hdr, codec, cs)) :
    0 < cs := by
  have := (encrypt_chunk_size_valid hdraw henc).2.1
  omega

theorem codec_of_decrypt {hdr' : Bytes} {codec' : Codec} {cs' : Nat} (hL : L.Lawful)
    (h : decryptHeader L hdr' S = .ok (codec', cs')) :
    codec'.crypto.Lawful ∧ codec' = ⟨codec'.crypto, codec'.payloadKey, codec'.crypto.hash hdr', false⟩ := by
  unfold decryptHeader at h
  split at h
  · cases h
  obtain ⟨C, hC, h⟩ := Res.bind_eq_ok.mp h
  split at h
  · cases h
  obtain ⟨K, -, h⟩ := Res.bind_eq_ok.mp h
  split at h
  · cases h
  obtain ⟨pb, -, h⟩ := Res.bind_eq_ok.mp h
  split at h
  · cases h
  obtain ⟨_, -, h⟩ := Res.bind_eq_ok.mp h
  split at h
  · cases h
  split at h
  · cases h
  simp only [Res.pure_def, Res.ok.injEq, Prod.mk.injEq] at h
  obtain ⟨rfl, -⟩ := h
  refine ⟨?_, rfl⟩
  unfold cryptosysFromProto at hC
  repeat' split at hC
  all_goals first | exact hL _ _ hC | cases hC

theorem result_returned {P : Params} {data : Bytes} {ls : List Label} {s : State} {r : Res Unit}
    (hP : P.conv.Lawful) (hN : 0 < P.inputBufferSize) (h : Run P (State.start data) ls s)
    (hr : resultOf s = some r) : s.returned r := by
  have hp := (six_buffers hP hN h).2.2
  unfold resultOf at hr
  unfold State.returned
  split at hr
  · rename_i r' hm
    rw [hm, Option.some.inj hr]
  · contradiction
  · cases hr

private theorem write_ok {pieces : List Bytes} (h : HeaderIO.writeHeader hdr = .ok pieces) :
    pieces.flatten = frame hdr ∧ hdr.length ≤ maxHeader := by
  by_cases hl : hdr.length ≤ maxHeader
  · obtain ⟨p, hp, he, -⟩ := (write_header_frames hdr).1 hl
    rw [h] at hp
    cases hp
    exact ⟨he, hl⟩
  · rw [(write_header_frames hdr).2 (by omega)] at h
    cases h

theorem read_frame (body : Bytes) (hpos : 0 < hdr.length) (hmax : hdr.length ≤ maxHeader) :
    ∃ n r, HeaderIO.readHeader { data := frame hdr ++ body } = (.ok (hdr, n), r) ∧ r.data = body := by
  obtain ⟨p, hp, he, -⟩ := (write_header_frames hdr).1 hmax
  obtain ⟨r, hr, hd, -⟩ := read_header_write_header hdr body false p hpos hp
  rw [he] at hr
  exact ⟨_, r, hr, hd⟩

theorem frame_of_read {F' hdr' : Bytes} {n : Nat} {r : Reader}
    (h : HeaderIO.readHeader { data := F' } = (.ok (hdr', n), r)) : F' = frame hdr' ++ r.data := by
  obtain ⟨⟨rest, hr⟩, hpos, hmax, -⟩ := (read_header_accepts_iff { data := F' } hdr' n).mp (by rw [h])
  simp only at hr
  obtain ⟨n', r', h', hd⟩ := read_frame rest hpos hmax
  rw [← hr, h] at h'
  cases h'
  rw [hd]
  exact hr

/-! ### C67: the format of an encrypted file -/

/-- C67. Whatever the schedule of the threads, a successful encryption has written exactly the file of the specification:
the framed header, then every chunk of the plaintext sealed under the payload key with its number as nonce and bound to
the header hash and to being the last. -/
theorem encrypted_file_layout (hL : L.Lawful) (hdraw : draw < 1024)
    (henc : encryptHeader L opts draw tape = .ok (hdr, codec, cs))
    (h : Conversion L plain (.encrypt opts draw tape) ⟨F, some (.ok ()), flt⟩) :
    F = file codec.crypto codec.payloadKey hdr cs plain ∧ hdr.length ≤ maxHeader := by
  generalize ho : (⟨F, some (.ok ()), flt⟩ : Obs) = o at h
  cases h with
  | encrypting _ _ _ hdr' codec' cs' pieces ls s he hw hrun =>
    rw [henc] at he
    cases he
    simp only [Obs.mk.injEq] at ho
    obtain ⟨h1, h2, h3⟩ := ho
    have hP := ofCodec_lawful (lawful_of_encrypt hL henc)
    have hN : 0 < (pipe codec cs).inputBufferSize := by
      have := cs_pos hdraw henc
      unfold Params.inputBufferSize pipe
      simp only
      omega
    have hret := result_returned hP hN hrun h2.symm
    have hf : Label.ioFault ∉ ls := ((faults_are_reported hP hN hrun hret).1.mp rfl).1
    have := refines_sequential hP hN hrun hret hf
    have hcd := codec_of_encrypt henc
    have hin : (pipe codec cs).inputBufferSize = cs := by
      rw [hcd]; rfl
    have hcv : (pipe codec cs).conv.convert =
        StreamCrypto.convertChunk ⟨codec.crypto, codec.payloadKey, codec.crypto.hash hdr, true⟩ := by
      rw [← hcd]; rfl
    rw [hin, hcv, convertStream_encrypt] at this
    refine ⟨?_, (write_ok hw).2⟩
    rw [h1, (Prod.mk.inj this).1, (write_ok hw).1]
    rfl
  | _ => simp at ho

/-- C67. A started encryption whose header fits can always finish without failures. -/
theorem encryption_can_finish (hL : L.Lawful) (hdraw : draw < 1024)
    (henc : encryptHeader L opts draw tape = .ok (hdr, codec, cs)) (hmax : hdr.length ≤ maxHeader) :
    Conversion L plain (.encrypt opts draw tape)
      ⟨file codec.crypto codec.payloadKey hdr cs plain, some (.ok ()), false⟩ := by
  obtain ⟨pieces, hp, he, -⟩ := (write_header_frames hdr).1 hmax
  have hP := ofCodec_lawful (lawful_of_encrypt hL henc)
  have hN : 0 < (pipe codec cs).inputBufferSize := by
    have := cs_pos hdraw henc
    unfold Params.inputBufferSize pipe
    simp only
    omega
  obtain ⟨ls, s, r, hrun, hf, hret⟩ := pipeline_can_finish hP hN (Run.refl (P := pipe codec cs) (s := State.start plain))
  have := refines_sequential hP hN hrun hret hf
  have hcd := codec_of_encrypt henc
  have hin : (pipe codec cs).inputBufferSize = cs := by
    rw [hcd]; rfl
  have hcv : (pipe codec cs).conv.convert =
      StreamCrypto.convertChunk ⟨codec.crypto, codec.payloadKey, codec.crypto.hash hdr, true⟩ := by
    rw [← hcd]; rfl
  rw [hin, hcv, convertStream_encrypt] at this
  obtain ⟨h1, h2⟩ := Prod.mk.inj this
  have hc := Conversion.encrypting opts draw tape hdr codec cs pieces ls s henc hp hrun
  have hres : resultOf s = some (.ok ()) := by
    unfold resultOf
    rw [hret, h2]
  rw [hres, h1, he, decide_eq_false hf] at hc
  exact hc

/-! ### C12 -/

/-- C12. Everything a file contains that is sealed under the payload key: the protected part of the header and the chunks.
The nonces are pairwise different. -/
theorem nonces_distinct (hL : L.Lawful) (hwf : opts.credential.WF) (hdraw : draw < 1024)
    (henc : encryptHeader L opts draw tape = .ok (hdr, codec, cs))
    (h : Conversion L plain (.encrypt opts draw tape) ⟨F, some (.ok ()), flt⟩) (hlen : plain.length < 2 ^ 64 - 1) :
    ∃ (hd : Proto.RyptFileHeader) (ph : SealedBox) (boxes : List SealedBox),
      Proto.decodeHeader hdr = some hd ∧ hd.protectedHeader = ph.bytes ∧
      F = frame hdr ++ (boxes.map SealedBox.bytes).flatten ∧
      (∀ b ∈ ph :: boxes, ∃ m, (b.ct, b.mac) = codec.crypto.aeadEncrypt codec.payloadKey b.nonce b.ad m) ∧
      ((ph :: boxes).map SealedBox.nonce).Nodup := by
  obtain ⟨hF, hmax⟩ := encrypted_file_layout hL hdraw henc h
  obtain ⟨C, ck, st', h1, h2, h3, h4, h5, h6⟩ := encryptHeader_ok henc
  have hdec : Proto.decodeHeader hdr = some
      { cryptoFamily := cryptoFamilyFromOpts opts
        ephemeralPk := (C.keypair ((tape.fill 32).2.fill 32).1).1
        payloadKey := some ck
        protectedHeader := C.aeadEncryptEasy (Proto.encodeProtectedHeader
            ⟨cs, ANONYMOUS, (C.keypair ((tape.fill 32).2.fill 32).1).1⟩)
          (tape.fill 32).1 ENCRYPTED_HEADER_NONCE } := by
    rw [h5]
    refine Proto.decodeHeader_encodeHeader _ ⟨?_, ?_⟩ (by rw [← h5]; unfold maxHeader at hmax; omega)
    · intro alg ha
      simp only [cryptoFamilyFromOpts, Option.some.injEq] at ha
      rw [← ha]; split <;> omega
    · intro ck' hck
      simp only [Option.some.injEq] at hck
      subst hck
      exact fits_composite hwf h4
  refine ⟨_, sealBox codec.crypto codec.payloadKey headerNonce [] (Proto.encodeProtectedHeader
            ⟨cs, ANONYMOUS, (C.keypair ((tape.fill 32).2.fill 32).1).1⟩),
    (chunks cs plain).map (sealChunk codec.crypto codec.payloadKey (codec.crypto.hash hdr)), hdec, ?_, ?_, ?_, ?_⟩
  · rw [h6]; rfl
  · rw [hF, List.map_map]; rfl
  · intro b hb
    rcases List.mem_cons.mp hb with rfl | hb
    · exact ⟨_, rfl⟩
    · obtain ⟨c, -, rfl⟩ := List.mem_map.mp hb
      exact ⟨_, rfl⟩
  · have hcs := cs_pos hdraw henc
    rw [List.map_cons, List.map_map, List.nodup_cons]
    constructor
    · intro hm
      obtain ⟨c, -, hc⟩ := List.mem_map.mp hm
      have := congrArg (fun l => l[2]?) hc
      simp [sealChunk, sealBox, payloadNonce, headerNonce] at this
    · rw [List.nodup_iff_getElem?_ne_getElem?]
      intro i j hij hj he
      rw [List.length_map] at hj
      have hl := chunks_length_le hcs plain
      have e : ∀ k, k < (chunks cs plain).length → ((chunks cs plain).map
          (SealedBox.nonce ∘ sealChunk codec.crypto codec.payloadKey (codec.crypto.hash hdr)))[k]? =
            some (payloadNonce k) := by
        intro k hk
        rw [List.getElem?_map, List.getElem?_eq_getElem hk]
        have := chunksFrom_idx hcs 0 plain k _ (List.getElem?_eq_getElem hk)
        rw [Nat.zero_add] at this
        show some (payloadNonce (chunks cs plain)[k].idx) = _
        rw [show (chunks cs plain)[k].idx = k from this]
      rw [e i (by omega), e j hj] at he
      have := payloadNonce_inj (by omega) (by omega) (Option.some.inj he)
      omega

/-! ### C26 -/

/-- C26. The size of an encrypted file. -/
theorem encrypted_size (hL : L.Lawful) (hdraw : draw < 1024)
    (henc : encryptHeader L opts draw tape = .ok (hdr, codec, cs))
    (h : Conversion L plain (.encrypt opts draw tape) ⟨F, some (.ok ()), flt⟩) :
    F.length = (8 + hdr.length + pad hdr.length) + plain.length +
      16 * max 1 ((plain.length + cs - 1) / cs) := by
  rw [(encrypted_file_layout hL hdraw henc h).1, file, List.length_append, frame_length,
    payload_length (lawful_of_encrypt hL henc) (cs_pos hdraw henc)]
  omega

/-! ### C98 -/

/-- C98: a conversion crashes only while its header is made or evaluated. -/
theorem conversion_panic_cause (hL : L.Lawful) {input w : Bytes} {dir : Direction}
    (h : Conversion L input dir ⟨w, some .panic, flt⟩) :
    (∀ opts draw tape, dir = .encrypt opts draw tape → draw < 1024 → encryptHeader L opts draw tape = .panic) ∧
    ∀ S, dir = .decrypt S → ∃ hdr body, input = frame hdr ++ body ∧ decryptHeader L hdr S = .panic := by
  generalize ho : (⟨w, some .panic, flt⟩ : Obs) = o at h
  cases h with
  | encryptHeaderPanic opts draw tape he =>
    exact ⟨fun _ _ _ h _ => by cases h; exact he, fun _ h => by cases h⟩
  | encrypting opts draw tape hdr codec cs pieces ls s he hw hrun =>
    refine ⟨fun _ _ _ h hdraw => ?_, fun _ h => by cases h⟩
    cases h
    simp only [Obs.mk.injEq] at ho
    have hP := ofCodec_lawful (lawful_of_encrypt hL he)
    have hN : 0 < (pipe codec cs).inputBufferSize := by
      have := cs_pos hdraw he
      unfold Params.inputBufferSize pipe
      simp only
      omega
    obtain ⟨e, hne⟩ := (faults_are_reported hP hN hrun (result_returned hP hN hrun ho.2.1.symm)).2 (by simp)
    cases hne
  | readHeaderPanic S hr => exact absurd hr (read_header_rejects _).2.2.2.2.2.2.2
  | decryptHeaderPanic S hdr n r hr hd =>
    refine ⟨(fun _ _ _ h => by cases h), fun S' h => ?_⟩
    cases h
    exact ⟨hdr, r.data, frame_of_read hr, hd⟩
  | decrypting S hdr n r codec cs ls s hr hd hrun =>
    refine ⟨(fun _ _ _ h => by cases h), fun S' h => ?_⟩
    simp only [Obs.mk.injEq] at ho
    obtain ⟨hC, hcd⟩ := codec_of_decrypt hL hd
    have hP := ofCodec_lawful hC
    have hin : (pipe codec cs).inputBufferSize = cs + 16 := by
      rw [hcd]; rfl
    have hN : 0 < (pipe codec cs).inputBufferSize := by omega
    obtain ⟨e, hne⟩ := (faults_are_reported hP hN hrun (result_returned hP hN hrun ho.2.1.symm)).2 (by simp)
    cases hne
  | _ => simp at ho

/-! ### C01 -/

private theorem decrypt_opened (hL : L.Lawful) {codec' : Codec} {cs' : Nat} {body hdr' : Bytes} {ls : List Label} {s : State}
    (hd : decryptHeader L hdr' S = .ok (codec', cs')) (hrun : Run (pipe codec' cs') (State.start body) ls s) :
    (s.written <+: (convertStream (StreamCrypto.convertChunk
        ⟨codec'.crypto, codec'.payloadKey, codec'.crypto.hash hdr', false⟩) (cs' + 16) body).1) ∧
    ∀ r, resultOf s = some r →
      (Label.ioFault ∉ ls → (s.written, r) = convertStream (StreamCrypto.convertChunk
        ⟨codec'.crypto, codec'.payloadKey, codec'.crypto.hash hdr', false⟩) (cs' + 16) body) ∧
      (r = .ok () → Label.ioFault ∉ ls) := by
  obtain ⟨hC, hcd⟩ := codec_of_decrypt hL hd
  have hP := ofCodec_lawful hC
  have hin : (pipe codec' cs').inputBufferSize = cs' + 16 := by
    rw [hcd]; rfl
  have hcv : (pipe codec' cs').conv.convert =
      StreamCrypto.convertChunk ⟨codec'.crypto, codec'.payloadKey, codec'.crypto.hash hdr', false⟩ := by
    rw [← hcd]; rfl
  have hN : 0 < (pipe codec' cs').inputBufferSize := by omega
  have hw := written_in_order hP hN hrun
  rw [hin, hcv] at hw
  refine ⟨hw, fun r hr => ?_⟩
  have hret := result_returned hP hN hrun hr
  refine ⟨fun hf => ?_, fun he => ?_⟩
  · have := refines_sequential hP hN hrun hret hf
    rwa [hin, hcv] at this
  · subst he
    exact ((faults_are_reported hP hN hrun hret).1.mp rfl).1

/-- C01, for a file of the right layout whose header opens. -/
theorem decrypt_opened_layout (hL : L.Lawful) {C : Crypto} {key : Bytes} (hC : C.Lawful) (hcs : 0 < cs) (hpos : 0 < hdr.length)
    (hmax : hdr.length ≤ maxHeader) (hopen : decryptHeader L hdr S = .ok (⟨C, key, C.hash hdr, false⟩, cs))
    (hF : F = file C key hdr cs plain) {o : Obs} (hdec : Conversion L F (.decrypt S) o) :
    o.written <+: plain ∧ ∀ r, o.result = some r → (o.faulted = true ∨ r = .ok () ∧ o.written = plain) ∧
      (r = .ok () → o.written = plain) := by
  obtain ⟨n, r, hread, hrest⟩ := read_frame (payload C key (C.hash hdr) cs plain) hpos hmax
  rw [show frame hdr ++ _ = F from hF.symm] at hread
  cases hdec with
  | started => exact ⟨List.nil_prefix, fun r hr => by cases hr⟩
  | readHeaderFault => exact ⟨List.nil_prefix, fun r hr => ⟨.inl rfl, fun he => by cases hr; cases he⟩⟩
  | readHeaderErr _ e he => rw [hread] at he; cases he
  | readHeaderPanic _ he => rw [hread] at he; cases he
  | decryptHeaderErr _ hdr' n' r' e h1 h2 =>
    rw [hread] at h1
    cases h1
    rw [hopen] at h2
    cases h2
  | decryptHeaderPanic _ hdr' n' r' h1 h2 =>
    rw [hread] at h1
    cases h1
    rw [hopen] at h2
    cases h2
  | decrypting _ hdr' n' r' codec' cs' ls s h1 h2 hrun =>
    rw [hread] at h1
    cases h1
    rw [hrest] at hrun
    obtain ⟨g1, g2⟩ := decrypt_opened hL h2 hrun
    rw [hopen] at h2
    cases h2
    simp only at g1 g2 ⊢
    rw [convertStream_decrypt hC hcs] at g1 g2
    refine ⟨g1, fun r hr => ?_⟩
    obtain ⟨k1, k2⟩ := g2 r hr
    by_cases hf : Label.ioFault ∈ ls
    · exact ⟨.inl (by simp [hf]), fun he => absurd hf (k2 he)⟩
    · obtain ⟨e1, e2⟩ := Prod.mk.inj (k1 hf)
      exact ⟨.inr ⟨e2, e1⟩, fun _ => e1⟩

/-- C01, for a file of the right layout. -/
theorem decrypt_layout (hL : L.Lawful) (hwf : opts.credential.WF) (hdraw : draw < 1024)
    (henc : encryptHeader L opts draw tape = .ok (hdr, codec, cs))
    (hF : F = file codec.crypto codec.payloadKey hdr cs plain) (hmax : hdr.length ≤ maxHeader)
    (hS : ∀ c ∈ S, Usable c) (hw : HeaderDetectsWrongCredentials codec.crypto hdr opts.credential S)
    (hsat : opts.credential.satisfied (heldBy codec.crypto S) = true) {o : Obs}
    (hdec : Conversion L F (.decrypt S) o) :
    o.written <+: plain ∧ ∀ r, o.result = some r → (o.faulted = true ∨ r = .ok () ∧ o.written = plain) ∧
      (r = .ok () → o.written = plain) := by
  have hopen := header_opens_iff_satisfied hL hwf hdraw henc (by unfold maxHeader at hmax; omega) hS hw
  rw [if_pos hsat, show ({ codec with isEncrypting := false } : Codec) =
    ⟨codec.crypto, codec.payloadKey, codec.crypto.hash hdr, false⟩ by rw [codec_of_encrypt henc]] at hopen
  exact decrypt_opened_layout hL (lawful_of_encrypt hL henc) (cs_pos hdraw henc) (header_nonempty hL henc) hmax hopen hF hdec

/-- C01. An encrypted file, decrypted with credentials that satisfy its tree: whatever the schedule of the threads, once the
decryption has returned and no I/O operation failed, it has returned success and has written the plaintext. At any earlier
moment, and if I/O failed, what it has written is a beginning of the plaintext. -/
theorem decrypt_encrypt (hL : L.Lawful) (hwf : opts.credential.WF) (hdraw : draw < 1024)
    (henc : encryptHeader L opts draw tape = .ok (hdr, codec, cs))
    (h : Conversion L plain (.encrypt opts draw tape) ⟨F, some (.ok ()), flt⟩)
    (hS : ∀ c ∈ S, Usable c) (hw : HeaderDetectsWrongCredentials codec.crypto hdr opts.credential S)
    (hsat : opts.credential.satisfied (heldBy codec.crypto S) = true) {o : Obs}
    (hdec : Conversion L F (.decrypt S) o) :
    o.written <+: plain ∧ ∀ r, o.result = some r → (o.faulted = true ∨ r = .ok () ∧ o.written = plain) ∧
      (r = .ok () → o.written = plain) := by
  obtain ⟨hF, hmax⟩ := encrypted_file_layout hL hdraw henc h
  exact decrypt_layout hL hwf hdraw henc hF hmax hS hw hsat hdec

/-- C01. A decryption whose header is accepted can always finish without failures, and does then what decrypting the
pieces one after the other does. -/
theorem decryption_can_finish (hL : L.Lawful) {hdr' body : Bytes} {codec' : Codec} {cs' : Nat}
    (hpos : 0 < hdr'.length) (hmax : hdr'.length ≤ maxHeader) (hopen : decryptHeader L hdr' S = .ok (codec', cs')) :
    Conversion L (frame hdr' ++ body) (.decrypt S)
      ⟨(convertStream (StreamCrypto.convertChunk codec') (cs' + 16) body).1,
        some (convertStream (StreamCrypto.convertChunk codec') (cs' + 16) body).2, false⟩ := by
  obtain ⟨n, r, hread, hrest⟩ := read_frame body hpos hmax
  obtain ⟨hC', hcd⟩ := codec_of_decrypt hL hopen
  have hin : (pipe codec' cs').inputBufferSize = cs' + 16 := by
    rw [hcd]; rfl
  obtain ⟨ls, s, res, hrun, hf, hret⟩ := pipeline_can_finish (ofCodec_lawful hC')
    (P := pipe codec' cs') (by omega) (Run.refl (s := State.start r.data))
  have hobs := Conversion.decrypting S hdr' n r _ cs' ls s hread hopen hrun
  have hres : resultOf s = some res := by
    unfold resultOf
    rw [hret]
  rw [hrest] at hrun
  have hk := (decrypt_opened hL hopen hrun).2 res hres
  rw [← hcd] at hk
  have hk := hk.1 hf
  rw [hres, decide_eq_false hf] at hobs
  rw [← hk]
  exact hobs

/-- C01. The decryption can succeed. -/
theorem decrypt_encrypt_possible (hL : L.Lawful) (hwf : opts.credential.WF) (hdraw : draw < 1024)
    (henc : encryptHeader L opts draw tape = .ok (hdr, codec, cs))
    (h : Conversion L plain (.encrypt opts draw tape) ⟨F, some (.ok ()), flt⟩)
    (hS : ∀ c ∈ S, Usable c) (hw : HeaderDetectsWrongCredentials codec.crypto hdr opts.credential S)
    (hsat : opts.credential.satisfied (heldBy codec.crypto S) = true) :
    Conversion L F (.decrypt S) ⟨plain, some (.ok ()), false⟩ := by
  obtain ⟨hF, hmax⟩ := encrypted_file_layout hL hdraw henc h
  have hopen := header_opens_iff_satisfied hL hwf hdraw henc (by unfold maxHeader at hmax; omega) hS hw
  rw [if_pos hsat] at hopen
  have := decryption_can_finish (body := payload codec.crypto codec.payloadKey (codec.crypto.hash hdr) cs plain)
    hL (header_nonempty hL henc) hmax hopen
  have hcd := codec_of_encrypt henc
  rw [show ({ codec with isEncrypting := false } : Codec) =
    ⟨codec.crypto, codec.payloadKey, codec.crypto.hash hdr, false⟩ by rw [hcd],
    convertStream_decrypt (lawful_of_encrypt hL henc) (cs_pos hdraw henc)] at this
  rw [hF]
  exact this

/-! ### C03 -/

/-- C03. An encrypted file, decrypted with credentials that do not satisfy its tree: nothing is ever written, and the
decryption returns "insufficient credentials" (or an I/O error). -/
theorem unsatisfied_writes_nothing (hL : L.Lawful) (hwf : opts.credential.WF) (hdraw : draw < 1024)
    (henc : encryptHeader L opts draw tape = .ok (hdr, codec, cs))
    (h : Conversion L plain (.encrypt opts draw tape) ⟨F, some (.ok ()), flt⟩)
    (hS : ∀ c ∈ S, Usable c) (hw : HeaderDetectsWrongCredentials codec.crypto hdr opts.credential S)
    (hsat : opts.credential.satisfied (heldBy codec.crypto S) = false) {o : Obs}
    (hdec : Conversion L F (.decrypt S) o) :
    o.written = [] ∧ (o.result = none ∨ o.result = some (.err .insufficientCredentials) ∨
      o.faulted = true ∧ o.result = some (.err .io)) := by
  obtain ⟨hF, hmax⟩ := encrypted_file_layout hL hdraw henc h
  have hopen := header_opens_iff_satisfied hL hwf hdraw henc (by unfold maxHeader at hmax; omega) hS hw
  rw [hsat, if_neg (by simp)] at hopen
  obtain ⟨n, r, hread, hrest⟩ := read_frame (payload codec.crypto codec.payloadKey (codec.crypto.hash hdr) cs plain)
    (header_nonempty hL henc) hmax
  rw [show frame hdr ++ _ = F from hF.symm] at hread
  cases hdec with
  | started => exact ⟨rfl, .inl rfl⟩
  | readHeaderFault => exact ⟨rfl, .inr (.inr ⟨rfl, rfl⟩)⟩
  | readHeaderErr _ e he => rw [hread] at he; cases he
  | readHeaderPanic _ he => rw [hread] at he; cases he
  | decryptHeaderErr _ hdr' n' r' e h1 h2 =>
    rw [hread] at h1
    cases h1
    rw [hopen] at h2
    cases h2
    exact ⟨rfl, .inr (.inl rfl)⟩
  | decryptHeaderPanic _ hdr' n' r' h1 h2 =>
    rw [hread] at h1
    cases h1
    rw [hopen] at h2
    cases h2
  | decrypting _ hdr' n' r' codec' cs' ls s h1 h2 hrun =>
    rw [hread] at h1
    cases h1
    rw [hopen] at h2
    cases h2

/-! ### C09, C10, C11: changed files -/

private theorem take_flatten_prefix (l : List Bytes) (k : Nat) : (l.take k).flatten <+: l.flatten := by
  conv => rhs; rw [← List.take_append_drop k l, List.flatten_append]
  exact List.prefix_append _ _

/-- The analysis of a successful decryption whose header opens to the payload key. -/
private theorem accepted_cases (hL : L.Lawful) (hdraw : draw < 1024)
    (henc : encryptHeader L opts draw tape = .ok (hdr, codec, cs))
    (hlen : plain.length < 2 ^ 64 - 1) (ph : Bytes) {hdr' body : Bytes} {codec' : Codec} {cs' : Nat} {ls : List Label}
    {s : State} (hlen' : body.length < 2 ^ 64 - 1) (h2 : decryptHeader L hdr' S = .ok (codec', cs'))
    (hk : codec'.payloadKey = codec.payloadKey)
    (hfg : ¬ ContainsForgery codec'.crypto codec.payloadKey (codec'.crypto.hash hdr') cs' body
         (SealedBy codec.crypto codec.payloadKey (codec.crypto.hash hdr) cs plain ph))
    (hrun : Run (pipe codec' cs') (State.start body) ls s) :
    s.written <+: plain ∧
    (∀ r, resultOf s = some r → Label.ioFault ∉ ls → ∃ k, s.written = bytesOf ((chunks cs plain).take k)) ∧
    (resultOf s = some (.ok ()) → s.written = plain ∧ codec.crypto.hash hdr' = codec.crypto.hash hdr ∧
      body = payload codec.crypto codec.payloadKey (codec.crypto.hash hdr) cs plain) := by
  have hC := lawful_of_encrypt hL henc
  have hcs := cs_pos hdraw henc
  obtain ⟨g0, g⟩ := decrypt_opened hL h2 hrun
  rw [hk] at g0 g
  have hplain : bytesOf (chunks cs plain) = plain := bytesOf_chunksFrom hcs 0 plain
  by_cases hcc : codec'.crypto = codec.crypto
  · rw [hcc] at hfg g0 g
    have hpre := decrypted_prefix hC hcs (by omega : 0 < cs' + 16) hlen hlen' hfg
    refine ⟨?_, fun r hr hf => ?_, fun hr => ?_⟩
    · refine g0.trans ?_
      simp only [convertStream]
      rw [hpre]
      conv => rhs; rw [← hplain]
      unfold bytesOf
      rw [List.map_take]
      exact take_flatten_prefix _ _
    · have := (Prod.mk.inj ((g r hr).1 hf)).1
      rw [this, hpre]
      exact ⟨_, rfl⟩
    · obtain ⟨g1, g2⟩ := g _ hr
      obtain ⟨e1, e2⟩ := Prod.mk.inj (g1 (g2 rfl))
      obtain ⟨hh, hb, hout⟩ := decrypted_all hC hcs (by omega) hlen hlen' hfg e2.symm
      refine ⟨?_, hh, hb⟩
      rw [e1, hout]
      exact hplain
  · have hpre := other_crypto hcc hfg
    have hw : s.written = [] := by
      have := g0
      simp only [convertStream] at this
      rw [hpre] at this
      exact List.prefix_nil.mp this
    refine ⟨by rw [hw]; exact List.nil_prefix, fun r hr hf => ⟨0, by rw [hw]; rfl⟩, fun hr => ?_⟩
    exfalso
    obtain ⟨g1, g2⟩ := g _ hr
    have hok := convertOutcome_ok.mp (Prod.mk.inj (g1 (g2 rfl))).2.symm
    rw [hpre] at hok
    exact chunksFrom_ne_nil _ _ _ (List.length_eq_zero_iff.mp hok.symm)

/-- C09. If decrypting some byte string `F'` succeeds, then either it is the encrypted file and the output is the
plaintext; or its header opens to another payload key (it is a file made by someone else: senders are anonymous); or its
payload contains a box accepted under the payload key that the encryption did not seal; or its header is another string
with the same hash. -/
theorem changed_file_rejected (hL : L.Lawful) (hdraw : draw < 1024)
    (henc : encryptHeader L opts draw tape = .ok (hdr, codec, cs))
    (h : Conversion L plain (.encrypt opts draw tape) ⟨F, some (.ok ()), flt⟩)
    (hlen : plain.length < 2 ^ 64 - 1) (ph : Bytes) {F' P' : Bytes} {flt' : Bool} (hlen' : F'.length < 2 ^ 64 - 1)
    (hdec : Conversion L F' (.decrypt S) ⟨P', some (.ok ()), flt'⟩) :
    (F' = F ∧ P' = plain) ∨
    ∃ hdr' body codec' cs', F' = frame hdr' ++ body ∧ decryptHeader L hdr' S = .ok (codec', cs') ∧
      (codec'.payloadKey ≠ codec.payloadKey ∨
       ContainsForgery codec'.crypto codec.payloadKey (codec'.crypto.hash hdr') cs' body
         (SealedBy codec.crypto codec.payloadKey (codec.crypto.hash hdr) cs plain ph) ∨
       hdr' ≠ hdr ∧ codec.crypto.hash hdr' = codec.crypto.hash hdr) := by
  obtain ⟨hF, -⟩ := encrypted_file_layout hL hdraw henc h
  generalize ho : (⟨P', some (.ok ()), flt'⟩ : Obs) = o at hdec
  cases hdec with
  | decrypting _ hdr' n r codec' cs' ls s h1 h2 hrun =>
    simp only [Obs.mk.injEq] at ho
    obtain ⟨h3, h4, -⟩ := ho
    have hF' := frame_of_read h1
    by_cases hk : codec'.payloadKey = codec.payloadKey
    swap
    · exact .inr ⟨hdr', _, codec', cs', hF', h2, .inl hk⟩
    by_cases hfg : ContainsForgery codec'.crypto codec.payloadKey (codec'.crypto.hash hdr') cs' r.data
         (SealedBy codec.crypto codec.payloadKey (codec.crypto.hash hdr) cs plain ph)
    · exact .inr ⟨hdr', _, codec', cs', hF', h2, .inr (.inl hfg)⟩
    have hl' : r.data.length < 2 ^ 64 - 1 := by rw [hF', List.length_append] at hlen'; omega
    obtain ⟨hout, hh, hb⟩ := (accepted_cases hL hdraw henc hlen ph hl' h2 hk hfg hrun).2.2 h4.symm
    by_cases hhdr : hdr' = hdr
    · refine .inl ⟨?_, h3.trans hout⟩
      rw [hF', hF, hb, hhdr]
      rfl
    · exact .inr ⟨hdr', _, codec', cs', hF', h2, .inr (.inr ⟨hhdr, hh⟩)⟩
  | _ => simp at ho

/-- C10. At every moment of the decryption of any byte string whose header opens to the payload key, what has been written
is a beginning of the plaintext, and once the decryption has returned (with whatever result, but without I/O failures)
it is a whole number of chunks; unless the string contains a forged box. -/
theorem written_is_authentic (hL : L.Lawful) (hdraw : draw < 1024)
    (henc : encryptHeader L opts draw tape = .ok (hdr, codec, cs))
    (hlen : plain.length < 2 ^ 64 - 1) (ph : Bytes) {hdr' body : Bytes} {codec' : Codec} {cs' : Nat}
    (hpos : 0 < hdr'.length) (hmax : hdr'.length ≤ maxHeader)
    (hlen' : body.length < 2 ^ 64 - 1) (hopen : decryptHeader L hdr' S = .ok (codec', cs'))
    (hk : codec'.payloadKey = codec.payloadKey)
    {o : Obs} (hdec : Conversion L (frame hdr' ++ body) (.decrypt S) o) :
    (o.written <+: plain ∧
      (o.result ≠ none → o.faulted = false → ∃ k, o.written = bytesOf ((chunks cs plain).take k))) ∨
    ContainsForgery codec'.crypto codec.payloadKey (codec'.crypto.hash hdr') cs' body
         (SealedBy codec.crypto codec.payloadKey (codec.crypto.hash hdr) cs plain ph) := by
  by_cases hfg : ContainsForgery codec'.crypto codec.payloadKey (codec'.crypto.hash hdr') cs' body
         (SealedBy codec.crypto codec.payloadKey (codec.crypto.hash hdr) cs plain ph)
  · exact .inr hfg
  left
  obtain ⟨n, r, hread, hrest⟩ := read_frame body hpos hmax
  cases hdec with
  | decrypting _ hdr2 n2 r2 codec2 cs2 ls s h1 h2 hrun =>
    rw [hread] at h1
    cases h1
    rw [hopen] at h2
    cases h2
    rw [hrest] at hrun
    obtain ⟨g1, g2, -⟩ := accepted_cases hL hdraw henc hlen ph hlen' hopen hk hfg hrun
    refine ⟨g1, fun hr hf => ?_⟩
    obtain ⟨res, hres⟩ := Option.ne_none_iff_exists'.mp hr
    exact g2 res hres (by simpa using hf)
  | _ => exact ⟨List.nil_prefix, fun _ _ => ⟨0, rfl⟩⟩

/-- C10, for any byte string whatsoever: what decryption has written at any moment is a beginning of the concatenation of
messages obtained by opening the pieces of the payload in order, each under the nonce of its own position, bound to the
header and to being the last piece. -/
theorem written_was_opened (hL : L.Lawful) {F' : Bytes} {o : Obs} (hdec : Conversion L F' (.decrypt S) o) :
    o.written = [] ∨ ∃ hdr' body codec' cs' opened, F' = frame hdr' ++ body ∧
      decryptHeader L hdr' S = .ok (codec', cs') ∧ o.written <+: List.flatten opened ∧
      ∀ (i : Nat) m, opened[i]? = some m → ∃ ct mac, mac.length = 16 ∧
        ct ++ mac = (body.drop ((cs' + 16) * i)).take (cs' + 16) ∧
        codec'.crypto.aeadDecrypt codec'.payloadKey (payloadNonce i)
          (boundTo (codec'.crypto.hash hdr') (decide (body.length ≤ (cs' + 16) * (i + 1)))) ct mac = some m := by
  cases hdec with
  | decrypting _ hdr' n r codec' cs' ls s h1 h2 hrun =>
    right
    obtain ⟨g0, -⟩ := decrypt_opened hL h2 hrun
    refine ⟨hdr', r.data, codec', cs', _, frame_of_read h1, h2, g0, ?_⟩
    intro i m hm
    rw [List.getElem?_map, Option.map_eq_some_iff] at hm
    obtain ⟨c'', hc'', rfl⟩ := hm
    obtain ⟨c, hc, ho⟩ := convertedPrefix_get _ _ i _ hc''
    rw [convert_opens] at ho
    split at ho
    · cases ho
    rename_i h16
    split at ho
    swap
    · cases ho
    rename_i m hm
    cases ho
    obtain ⟨b1, b3⟩ := chunksFrom_getElem (by omega : 0 < cs' + 16) 0 r.data i c hc
    have b2 : c.idx = i := by
      have := chunksFrom_idx (by omega : 0 < cs' + 16) 0 r.data i c hc
      omega
    refine ⟨(boxOf (codec'.crypto.hash hdr') c).ct, (boxOf (codec'.crypto.hash hdr') c).mac, ?_, ?_, ?_⟩
    · simp [boxOf]; omega
    · simp only [boxOf, List.take_append_drop]
      exact b1
    · rw [← b3, ← b2]
      exact hm
  | _ => exact .inl rfl

/-- C09. With an unchanged header and credentials that satisfy the tree, any changed payload that is accepted contains a
forged box. -/
theorem changed_payload_rejected (hL : L.Lawful) (hwf : opts.credential.WF) (hdraw : draw < 1024)
    (henc : encryptHeader L opts draw tape = .ok (hdr, codec, cs))
    (h : Conversion L plain (.encrypt opts draw tape) ⟨F, some (.ok ()), flt⟩)
    (hS : ∀ c ∈ S, Usable c) (hw : HeaderDetectsWrongCredentials codec.crypto hdr opts.credential S)
    (hlen : plain.length < 2 ^ 64 - 1) (ph : Bytes) {body P' : Bytes} {flt' : Bool}
    (hlen' : body.length < 2 ^ 64 - 1)
    (hdec : Conversion L (frame hdr ++ body) (.decrypt S) ⟨P', some (.ok ()), flt'⟩) :
    (frame hdr ++ body = F ∧ P' = plain) ∨
      ContainsForgery codec.crypto codec.payloadKey (codec.crypto.hash hdr) cs body
         (SealedBy codec.crypto codec.payloadKey (codec.crypto.hash hdr) cs plain ph) := by
  by_cases hfg : ContainsForgery codec.crypto codec.payloadKey (codec.crypto.hash hdr) cs body
         (SealedBy codec.crypto codec.payloadKey (codec.crypto.hash hdr) cs plain ph)
  · exact .inr hfg
  left
  obtain ⟨hF, hmax⟩ := encrypted_file_layout hL hdraw henc h
  have hopen := header_opens_iff_satisfied hL hwf hdraw henc (by unfold maxHeader at hmax; omega) hS hw
  obtain ⟨n, r, hread, hrest⟩ := read_frame body (header_nonempty hL henc) hmax
  generalize ho : (⟨P', some (.ok ()), flt'⟩ : Obs) = o at hdec
  cases hdec with
  | decrypting _ hdr2 n2 r2 codec2 cs2 ls s h1 h2 hrun =>
    simp only [Obs.mk.injEq] at ho
    obtain ⟨h3, h4, -⟩ := ho
    rw [hread] at h1
    cases h1
    have h2' := h2
    rw [hopen] at h2'
    split at h2'
    swap
    · cases h2'
    cases h2'
    rw [hrest] at hrun
    obtain ⟨hout, -, hb⟩ := (accepted_cases hL hdraw henc hlen ph hlen' h2 rfl hfg hrun).2.2 h4.symm
    refine ⟨?_, h3.trans hout⟩
    rw [hF, hb]
    rfl
  | _ => simp at ho

/-- C11. A file cut at any position, if accepted (with credentials whose wrong uses are detected), contains a forged box;
it is never accepted if the cut is inside the header. -/
theorem truncated_file_rejected (hL : L.Lawful) (hwf : opts.credential.WF) (hdraw : draw < 1024)
    (henc : encryptHeader L opts draw tape = .ok (hdr, codec, cs))
    (h : Conversion L plain (.encrypt opts draw tape) ⟨F, some (.ok ()), flt⟩)
    (hS : ∀ c ∈ S, Usable c) (hw : HeaderDetectsWrongCredentials codec.crypto hdr opts.credential S)
    (hlen : plain.length < 2 ^ 59) (ph : Bytes) {n : Nat} (hn : n < F.length) {P' : Bytes} {flt' : Bool}
    (hdec : Conversion L (F.take n) (.decrypt S) ⟨P', some (.ok ()), flt'⟩) :
    (frame hdr).length ≤ n ∧
    ContainsForgery codec.crypto codec.payloadKey (codec.crypto.hash hdr) cs
      ((payload codec.crypto codec.payloadKey (codec.crypto.hash hdr) cs plain).take (n - (frame hdr).length))
      (SealedBy codec.crypto codec.payloadKey (codec.crypto.hash hdr) cs plain ph) := by
  obtain ⟨hF, hmax⟩ := encrypted_file_layout hL hdraw henc h
  have hF2 : F = frame hdr ++ payload codec.crypto codec.payloadKey (codec.crypto.hash hdr) cs plain := hF
  by_cases hn' : (frame hdr).length ≤ n
  · refine ⟨hn', ?_⟩
    have ht : F.take n = frame hdr ++
        (payload codec.crypto codec.payloadKey (codec.crypto.hash hdr) cs plain).take (n - (frame hdr).length) := by
      rw [hF2, List.take_append, List.take_of_length_le hn']
    rw [ht] at hdec
    rcases changed_payload_rejected hL hwf hdraw henc h hS hw (by omega) ph (by
      have := payload_length (key := codec.payloadKey) (hash := codec.crypto.hash hdr) (lawful_of_encrypt hL henc)
        (cs_pos hdraw henc) plain
      have h2 := Nat.div_le_self (plain.length + cs - 1) cs
      have h3 := (encrypt_chunk_size_valid hdraw henc).2.2.1
      rw [List.length_take]
      omega) hdec with ⟨h1, -⟩ | h2
    · exfalso
      rw [← ht] at h1
      have := congrArg List.length h1
      rw [List.length_take] at this
      omega
    · exact h2
  · exfalso
    generalize ho : (⟨P', some (.ok ()), flt'⟩ : Obs) = o at hdec
    cases hdec with
    | decrypting _ hdr2 n2 r2 codec2 cs2 ls s h1 h2 hrun =>
      obtain ⟨⟨rest, hr⟩, hpos2, hmax2, -⟩ := (read_header_accepts_iff { data := F.take n } hdr2 n2).mp (by rw [h1])
      simp only at hr
      obtain ⟨n3, r3, hread3, -⟩ := read_frame (rest ++ F.drop n) hpos2 hmax2
      rw [← List.append_assoc, ← hr, List.take_append_drop] at hread3
      obtain ⟨n4, r4, hread4, -⟩ := read_frame
        (payload codec.crypto codec.payloadKey (codec.crypto.hash hdr) cs plain) (header_nonempty hL henc) hmax
      rw [← hF2, hread3] at hread4
      cases hread4
      have := congrArg List.length hr
      rw [List.length_take, List.length_append] at this
      omega
    | _ => simp at ho

/-! ### C22 for whole files -/

/-- C22. What an encryption has written at any moment, under any schedule and any failures, is a beginning of the encrypted file. -/
theorem encryption_written (hL : L.Lawful) {input : Bytes} (hdraw : draw < 1024) {o : Obs}
    (ho : Conversion L input (.encrypt opts draw tape) o) :
    o.written = [] ∨ ∃ hdr codec cs, encryptHeader L opts draw tape = .ok (hdr, codec, cs) ∧ hdr.length ≤ maxHeader ∧
      o.written <+: file codec.crypto codec.payloadKey hdr cs input := by
  cases ho with
  | started => exact .inl rfl
  | encryptHeaderErr => exact .inl rfl
  | encryptHeaderPanic => exact .inl rfl
  | writeHeaderErr => exact .inl rfl
  | writingHeader _ _ _ hdr codec cs pieces out h1 h2 h3 =>
    rw [(write_ok h2).1] at h3
    exact .inr ⟨hdr, codec, cs, h1, (write_ok h2).2, h3.trans (List.prefix_append _ _)⟩
  | writeHeaderFault _ _ _ hdr codec cs pieces out h1 h2 h3 =>
    rw [(write_ok h2).1] at h3
    exact .inr ⟨hdr, codec, cs, h1, (write_ok h2).2, h3.trans (List.prefix_append _ _)⟩
  | encrypting _ _ _ hdr codec cs pieces ls s he h2 hrun =>
    refine .inr ⟨hdr, codec, cs, he, (write_ok h2).2, ?_⟩
    have hP := ofCodec_lawful (lawful_of_encrypt hL he)
    have hcd := codec_of_encrypt he
    have hin : (pipe codec cs).inputBufferSize = cs := by
      rw [hcd]; rfl
    have hcv : (pipe codec cs).conv.convert =
        StreamCrypto.convertChunk ⟨codec.crypto, codec.payloadKey, codec.crypto.hash hdr, true⟩ := by
      rw [← hcd]; rfl
    have hw := written_in_order hP (by rw [hin]; exact cs_pos hdraw he) hrun
    rw [hin, hcv] at hw
    have he2 := convertStream_encrypt (C := codec.crypto) (key := codec.payloadKey) (hash := codec.crypto.hash hdr) cs input
    rw [(write_ok h2).1]
    unfold file
    refine (List.prefix_append_right_inj _).mpr ?_
    have := (Prod.mk.inj he2).1
    exact this ▸ hw

/-- C22. Every conversion, of whatever input, can end without I/O failures, and everything it may have written at any moment,
under any schedule and any failures, is a beginning of what it then has written. -/
theorem conversion_can_end (hL : L.Lawful) {input : Bytes} (d : Direction)
    (hd : ∀ opts draw tape, d = .encrypt opts draw tape → draw < 1024) :
    ∃ w r, Conversion L input d ⟨w, some r, false⟩ ∧ ∀ o, Conversion L input d o → o.written <+: w := by
  cases d with
  | encrypt opts draw tape =>
    cases he : encryptHeader L opts draw tape with
    | err e =>
      refine ⟨[], .err e, .encryptHeaderErr _ _ _ _ he, ?_⟩
      intro o ho
      cases ho <;> first | exact List.nil_prefix | simp_all
    | panic =>
      refine ⟨[], .panic, .encryptHeaderPanic _ _ _ he, ?_⟩
      intro o ho
      cases ho <;> first | exact List.nil_prefix | simp_all
    | ok v =>
      obtain ⟨hdr, codec, cs⟩ := v
      by_cases hmax : hdr.length ≤ maxHeader
      · refine ⟨_, _, encryption_can_finish hL (hd _ _ _ rfl) he hmax, ?_⟩
        intro o ho
        rcases encryption_written hL (hd _ _ _ rfl) ho with h | ⟨hdr', codec', cs', he', -, h⟩
        · rw [h]; exact List.nil_prefix
        · rw [he] at he'
          cases he'
          exact h
      · refine ⟨[], _, .writeHeaderErr _ _ _ _ _ _ _ he ((write_header_frames hdr).2 (by omega)), ?_⟩
        intro o ho
        cases ho with
        | writingHeader _ _ _ hdr' codec' cs' pieces out h1 h2 h3 =>
          rw [he] at h1
          cases h1
          exact absurd (write_ok h2).2 hmax
        | writeHeaderFault _ _ _ hdr' codec' cs' pieces out h1 h2 h3 =>
          rw [he] at h1
          cases h1
          exact absurd (write_ok h2).2 hmax
        | encrypting _ _ _ hdr' codec' cs' pieces ls s h1 h2 hrun =>
          rw [he] at h1
          cases h1
          exact absurd (write_ok h2).2 hmax
        | _ => exact List.nil_prefix
  | decrypt S =>
    match hr : HeaderIO.readHeader { data := input } with
    | (.err e, r) =>
      refine ⟨[], .err e, .readHeaderErr _ _ (by rw [hr]), ?_⟩
      intro o ho
      cases ho with
      | decrypting _ hdr' n' r' codec' cs' ls s h1 h2 hrun => rw [hr] at h1; cases h1
      | _ => exact List.nil_prefix
    | (.panic, r) =>
      refine ⟨[], .panic, .readHeaderPanic _ (by rw [hr]), ?_⟩
      intro o ho
      cases ho with
      | decrypting _ hdr' n' r' codec' cs' ls s h1 h2 hrun => rw [hr] at h1; cases h1
      | _ => exact List.nil_prefix
    | (.ok (hdr, n), r) =>
      cases hd : decryptHeader L hdr S with
      | err e =>
        refine ⟨[], .err e, .decryptHeaderErr _ _ _ _ _ hr hd, ?_⟩
        intro o ho
        cases ho with
        | decrypting _ hdr' n' r' codec' cs' ls s h1 h2 hrun =>
          rw [hr] at h1; cases h1; rw [hd] at h2; cases h2
        | _ => exact List.nil_prefix
      | panic =>
        refine ⟨[], .panic, .decryptHeaderPanic _ _ _ _ hr hd, ?_⟩
        intro o ho
        cases ho with
        | decrypting _ hdr' n' r' codec' cs' ls s h1 h2 hrun =>
          rw [hr] at h1; cases h1; rw [hd] at h2; cases h2
        | _ => exact List.nil_prefix
      | ok v =>
        obtain ⟨codec, cs⟩ := v
        have hfr := frame_of_read hr
        obtain ⟨⟨rest, hrest⟩, hpos, hmax, -⟩ := (read_header_accepts_iff { data := input } hdr n).mp (by rw [hr])
        have hfin := decryption_can_finish (body := r.data) hL hpos hmax hd
        rw [← hfr] at hfin
        refine ⟨_, _, hfin, ?_⟩
        intro o ho
        cases ho with
        | decrypting _ hdr' n' r' codec' cs' ls s h1 h2 hrun =>
          rw [hr] at h1; cases h1; rw [hd] at h2; cases h2
          have := (decrypt_opened hL hd hrun).1
          rwa [← (codec_of_decrypt hL hd).2] at this
        | _ => exact List.nil_prefix

end

/-! ### Concrete cases

Encryption with the toy primitives under a 2-of-3 tree (`Sample`), decrypted with two members' secrets, with secrets that
only reach one share, and after truncation. -/

namespace Sample

theorem max_ok : hdr.length ≤ maxHeader := by have := hdr_length; unfold maxHeader; omega

/-- C01, C12, C26, C67: the hypothesis "was encrypted successfully" is met for every plaintext. -/
theorem encrypted (plain : Bytes) : Conversion Toy.lib plain (.encrypt opts 5 tape)
    ⟨file codec.crypto codec.payloadKey hdr chunkSize plain, some (.ok ()), false⟩ :=
  encryption_can_finish Toy.lib_lawful (by omega) enc_ok max_ok

def good : List Credential := [.privateKey bob.2, .password [99, 100]]
def bad : List Credential := [.symmetricKey [9], .password [99, 100], .password [1]]

theorem good_usable : ∀ c ∈ good, Usable c := by simp [good, Usable]
theorem bad_usable : ∀ c ∈ bad, Usable c := by simp [bad, Usable]

theorem good_detects : HeaderDetectsWrongCredentials codec.crypto hdr opts.credential good := by
  rw [sample_crypto]; exact toyDetects_detects (by decide +kernel)

theorem bad_detects : HeaderDetectsWrongCredentials codec.crypto hdr opts.credential bad := by
  rw [sample_crypto]; exact toyDetects_detects (by decide +kernel)

theorem good_satisfies : opts.credential.satisfied (heldBy codec.crypto good) = true := by
  have h := header_opens_iff_satisfied Toy.lib_lawful cred_wf (by omega) enc_ok (by have := hdr_length; omega) good_usable
    good_detects
  have h2 : (decryptHeader Toy.lib hdr good).isOk = true := by decide +kernel
  rw [h] at h2
  by_contra hc
  rw [if_neg hc] at h2
  cases h2

theorem bad_does_not : opts.credential.satisfied (heldBy codec.crypto bad) = false := by
  have h := header_opens_iff_satisfied Toy.lib_lawful cred_wf (by omega) enc_ok (by have := hdr_length; omega) bad_usable
    bad_detects
  have h2 : (decryptHeader Toy.lib hdr bad).isOk = false := by decide +kernel
  rw [h] at h2
  by_contra hc
  rw [if_pos (by simpa using hc)] at h2
  cases h2

theorem good_opens : decryptHeader Toy.lib hdr good = .ok ({ codec with isEncrypting := false }, chunkSize) := by
  have h := header_opens_iff_satisfied Toy.lib_lawful cred_wf (by omega) enc_ok (by have := hdr_length; omega) good_usable
    good_detects
  rwa [if_pos good_satisfies] at h

/-- C01, C09, C10: a successful decryption. -/
theorem decrypted (plain : Bytes) : Conversion Toy.lib (file codec.crypto codec.payloadKey hdr chunkSize plain)
    (.decrypt good) ⟨plain, some (.ok ()), false⟩ :=
  decrypt_encrypt_possible Toy.lib_lawful cred_wf (by omega) enc_ok (encrypted plain) good_usable good_detects
    good_satisfies

/-- C03: an unsuccessful one. -/
example (plain : Bytes) : ∃ o, Conversion Toy.lib (file codec.crypto codec.payloadKey hdr chunkSize plain)
    (.decrypt bad) o ∧ o.result = some (.err .insufficientCredentials) := by
  obtain ⟨n, r, hread, hrest⟩ := read_frame (payload codec.crypto codec.payloadKey (codec.crypto.hash hdr) chunkSize plain)
    (header_nonempty Toy.lib_lawful enc_ok) max_ok
  have h := header_opens_iff_satisfied Toy.lib_lawful cred_wf (by omega) enc_ok (by have := hdr_length; omega) bad_usable
    bad_detects
  rw [if_neg (by simp [bad_does_not])] at h
  exact ⟨_, .decryptHeaderErr bad hdr n r _ hread h, rfl⟩

/-- A plaintext that contains a box for the toy AEAD: `7, 8, 9` and its MAC. -/
def boxInside : Bytes := [7, 8, 9] ++
  Toy.mac codec.payloadKey (payloadNonce 0) (boundTo (Toy.crypto.hash hdr) true) [7, 8, 9]

/-- C11: its encryption, without the last 16 bytes, is accepted by the toy primitives (and, as `truncated_file_rejected` says,
contains a box that was not sealed by the encryption). -/
theorem box_inside_accepted : Conversion Toy.lib ((file codec.crypto codec.payloadKey hdr chunkSize boxInside).take
      ((frame hdr).length + 19)) (.decrypt good) ⟨[7, 8, 9], some (.ok ()), false⟩ ∧
    (frame hdr).length + 19 < (file codec.crypto codec.payloadKey hdr chunkSize boxInside).length := by
  have h := decryption_can_finish (body := boxInside) Toy.lib_lawful (header_nonempty Toy.lib_lawful enc_ok) max_ok good_opens
  have hp : (payload codec.crypto codec.payloadKey (codec.crypto.hash hdr) chunkSize boxInside).take 19 = boxInside ∧
      19 < (payload codec.crypto codec.payloadKey (codec.crypto.hash hdr) chunkSize boxInside).length := by
    decide +kernel
  have hs : convertStream (StreamCrypto.convertChunk { codec with isEncrypting := false }) (chunkSize + 16) boxInside =
      ([7, 8, 9], .ok ()) := by decide +kernel
  rw [hs] at h
  have ht : (file codec.crypto codec.payloadKey hdr chunkSize boxInside).take ((frame hdr).length + 19) =
      frame hdr ++ boxInside := by
    unfold file
    rw [List.take_append, List.take_of_length_le (by omega), Nat.add_sub_cancel_left, hp.1]
  rw [ht]
  refine ⟨h, ?_⟩
  unfold file
  rw [List.length_append]
  omega

/-! The theorems above for these cases. -/

example (plain : Bytes) := encrypted_file_layout Toy.lib_lawful (by omega) enc_ok (encrypted plain)
example := nonces_distinct Toy.lib_lawful cred_wf (by omega) enc_ok (encrypted [1, 2, 3]) (by decide)
example (plain : Bytes) := encrypted_size Toy.lib_lawful (by omega) enc_ok (encrypted plain)
example (plain : Bytes) := decrypt_encrypt Toy.lib_lawful cred_wf (by omega) enc_ok (encrypted plain) good_usable good_detects good_satisfies
  (decrypted plain)
example (plain : Bytes) (o : Obs) (h : Conversion Toy.lib (file codec.crypto codec.payloadKey hdr chunkSize plain) (.decrypt bad) o) :
    o.written = [] :=
  (unsatisfied_writes_nothing Toy.lib_lawful cred_wf (by omega) enc_ok (encrypted plain) bad_usable bad_detects bad_does_not h).1
example := changed_file_rejected Toy.lib_lawful (by omega) enc_ok (encrypted [1, 2, 3]) (by decide) [] (by decide +kernel) (decrypted [1, 2, 3])
example := written_is_authentic Toy.lib_lawful (by omega) enc_ok (plain := [1, 2, 3]) (by decide) []
  (header_nonempty Toy.lib_lawful enc_ok) max_ok (by decide +kernel) good_opens rfl (decrypted [1, 2, 3])
example (plain : Bytes) := written_was_opened Toy.lib_lawful (decrypted plain)
example := changed_payload_rejected Toy.lib_lawful cred_wf (by omega) enc_ok (encrypted [1, 2, 3]) good_usable good_detects (by decide) []
  (by decide +kernel) (decrypted [1, 2, 3])
example := truncated_file_rejected Toy.lib_lawful cred_wf (by omega) enc_ok (encrypted boxInside) good_usable good_detects (by decide +kernel) []
  box_inside_accepted.2 box_inside_accepted.1
example (plain : Bytes) := encryption_written Toy.lib_lawful (by omega) (encrypted plain)
example (plain : Bytes) := conversion_can_end Toy.lib_lawful (input := plain) (.encrypt opts 5 tape) (by rintro _ _ _ ⟨⟩; omega)

end Sample

end Rypt.Props
