import Verif.Props.Possible
import Verif.Props.Pipeline

/-!
Property C113: how much memory a conversion uses for data (the README promises less than 10 MB).
-/

namespace Rypt.Props

open HeaderCrypto Proto Pipeline CryptFile

variable {L : CryptoLib} {opts : EncryptOptions} {draw : Nat} {tape : Tape} {hdr : Bytes} {codec : Codec} {cs : Nat} {input : Bytes}
  {ls : List Label} {s : State} {S : List Credential}

private theorem sum_caps {P : Params} (hL : P.conv.Lawful) (hN : 0 < P.inputBufferSize) (h : Run P (State.start input) ls s) :
    (s.held.map (·.cap)).sum ≤ 6 * P.bufferCapacity := by
  obtain ⟨h1, h2, -⟩ := six_buffers hL hN h
  have : ∀ l : List PChunk, (∀ c ∈ l, c.cap = P.bufferCapacity) → (l.map (·.cap)).sum = l.length * P.bufferCapacity := by
    intro l hl
    induction l with
    | nil => simp
    | cons c l ih =>
      rw [List.map_cons, List.sum_cons, ih fun d hd => hl d (List.mem_cons_of_mem _ hd), hl c List.mem_cons_self, List.length_cons,
        Nat.succ_mul]
      omega
  rw [this _ fun c hc => (h2 c hc).1]
  exact Nat.mul_le_mul_right _ h1

private theorem fits {P : Params} (hL : P.conv.Lawful) (hN : 0 < P.inputBufferSize) (h : Run P (State.start input) ls s) :
    ∀ c ∈ s.held, c.buffer.length ≤ c.cap := by
  obtain ⟨-, h2, -⟩ := six_buffers hL hN h
  intro c hc
  rw [(h2 c hc).1]
  exact (h2 c hc).2

private theorem capacity (codec : Codec) (cs : Nat) : (pipe codec cs).bufferCapacity = cs + 17 := by
  unfold Params.bufferCapacity pipe Converter.ofCodec StreamCrypto.inputAsize StreamCrypto.outputAsize
  cases codec.isEncrypting <;> simp [AEAD_MAC_LEN]

/-- Before anything is read, six buffers exist. -/
private theorem six_allocated (P : Params) (input : Bytes) :
    ∃ ls s, Run P (State.start input) ls s ∧ (s.held.map (·.cap)).sum = 6 * P.bufferCapacity := by
  have h0 := Run.refl (P := P) (s := State.start input)
  have h1 := Run.step _ _ _ _ h0 (Step.mainInit _ 0 rfl (by decide))
  have h2 := Run.step _ _ _ _ h1 (Step.mainInit _ 1 rfl (by decide))
  have h3 := Run.step _ _ _ _ h2 (Step.mainInit _ 2 rfl (by decide))
  have h4 := Run.step _ _ _ _ h3 (Step.mainInit _ 3 rfl (by decide))
  have h5 := Run.step _ _ _ _ h4 (Step.mainInit _ 4 rfl (by decide))
  have h6 := Run.step _ _ _ _ h5 (Step.mainInit _ 5 rfl (by decide))
  refine ⟨_, _, h6, ?_⟩
  simp [State.held, State.start, State.readerDone, freshChunk, ReaderPc.held, CodecPc.held, WriterPc.held, MainPc.held]
  omega

/-- C113. While a file of any length is encrypted, its buffers have room for less than 6.32 million bytes altogether at every moment of every
execution, and no data are outside this room. With the header it is less than 10 million, unless there are very many recipients. -/
theorem encryption_memory (hL : L.Lawful) (hwf : opts.credential.WF) (hdraw : draw < 1024)
    (henc : encryptHeader L opts draw tape = .ok (hdr, codec, cs)) (h : Run (pipe codec cs) (State.start input) ls s) :
    (s.held.map (·.cap)).sum < 6320000 ∧ (∀ c ∈ s.held, c.buffer.length ≤ c.cap) ∧
      (membersCost opts.credential.subCreds 32 ≤ 3679720 → hdr.length + (s.held.map (·.cap)).sum < 10000000) := by
  obtain ⟨-, -, hcs, -⟩ := encrypt_chunk_size_valid hdraw henc
  have hl := ofCodec_lawful (lawful_of_encrypt hL henc)
  have hN : 0 < (pipe codec cs).inputBufferSize := Nat.lt_of_lt_of_le (cs_pos hdraw henc) (Nat.le_add_right _ _)
  have h1 := sum_caps hl hN h
  rw [capacity] at h1
  refine ⟨by omega, fits hl hN h, fun hm => ?_⟩
  have h2 := header_size_bound L hL opts hwf draw tape hdr codec cs henc
  omega

/-- C113. The same while a file that rypt has made is decrypted, whatever its length and whatever has been done to it after the header. -/
theorem decryption_memory (hL : L.Lawful) (hwf : opts.credential.WF) (hdraw : draw < 1024)
    (henc : encryptHeader L opts draw tape = .ok (hdr, codec, cs)) (hlen : hdr.length < 2 ^ 64) (hS : ∀ c ∈ S, Usable c)
    (hw : HeaderDetectsWrongCredentials codec.crypto hdr opts.credential S) {codec' : Codec} {cs' : Nat}
    (hdec : decryptHeader L hdr S = .ok (codec', cs')) (h : Run (pipe codec' cs') (State.start input) ls s) :
    (s.held.map (·.cap)).sum < 6320000 ∧ (∀ c ∈ s.held, c.buffer.length ≤ c.cap) ∧
      (membersCost opts.credential.subCreds 32 ≤ 3679720 → hdr.length + (s.held.map (·.cap)).sum < 10000000) := by
  obtain ⟨-, -, hcs, -⟩ := encrypt_chunk_size_valid hdraw henc
  have hopen := header_opens_iff_satisfied hL hwf hdraw henc hlen hS hw
  have hl := ofCodec_lawful (codec_of_decrypt hL hdec).1
  rw [hdec] at hopen
  split at hopen
  · cases hopen
    have hN : 0 < (pipe { codec with isEncrypting := false } cs).inputBufferSize :=
      Nat.lt_of_lt_of_le (cs_pos hdraw henc) (Nat.le_add_right _ _)
    have h1 := sum_caps hl hN h
    rw [capacity] at h1
    refine ⟨by omega, fits hl hN h, fun hm => ?_⟩
    have h2 := header_size_bound L hL opts hwf draw tape hdr codec cs henc
    omega
  · cases hopen

/-- C113. Whatever file is decrypted: six times 1 GiB (and a little), since larger chunks are refused. -/
theorem decryption_memory_bound (hL : L.Lawful) (hdec : decryptHeader L hdr S = .ok (codec, cs))
    (h : Run (pipe codec cs) (State.start input) ls s) :
    (s.held.map (·.cap)).sum ≤ 6 * (2 ^ 30 + 17) ∧ ∀ c ∈ s.held, c.buffer.length ≤ c.cap := by
  obtain ⟨hC, hcd⟩ := codec_of_decrypt hL hdec
  obtain ⟨-, hcs⟩ := decrypt_chunk_size_valid hdec
  have hN : 0 < (pipe codec cs).inputBufferSize := by
    have : (pipe codec cs).inputBufferSize = cs + 16 := by rw [hcd]; rfl
    omega
  have h1 := sum_caps (ofCodec_lawful hC) hN h
  rw [capacity] at h1
  exact ⟨by omega, fits (ofCodec_lawful hC) hN h⟩

/-- A header by somebody who can encrypt to the key, with the greatest chunk size. -/
def hugeChunksHeader : Bytes :=
  let epk := (Toy.crypto.keypair [3]).1
  let key := Toy.crypto.hmac (epk ++ [9]) SYMMETRIC_SECRET_NONCE
  encodeHeader { cryptoFamily := some 1, ephemeralPk := epk,
                 protectedHeader := Toy.crypto.aeadEncryptEasy (encodeProtectedHeader ⟨2 ^ 30, ANONYMOUS, epk⟩)
                   (List.replicate 32 7) ENCRYPTED_HEADER_NONCE
                 payloadKey := some (.mk 0 [
                   .mk 0 (.encrypted (Toy.crypto.aeadEncryptEasy (List.replicate 32 7) key (recipientSecretNonce 0)))]) }

/-- C113. "Less than 10 MB" is false for files others have made: such a file, empty but for its header, makes the program ask for more
than six gigabytes before it has read anything. -/
theorem decryption_memory_can_be_large :
    ¬ ∀ (L : CryptoLib) (hdr : Bytes) (S : List Credential) (codec : Codec) (cs : Nat) (ls : List Label) (s : State), L.Lawful →
      (∀ c ∈ S, Usable c) → decryptHeader L hdr S = .ok (codec, cs) → Run (pipe codec cs) (State.start []) ls s →
      (s.held.map (·.cap)).sum < 6 * 2 ^ 30 := by
  intro h
  have h1 : (match decryptHeader Toy.lib hugeChunksHeader [.symmetricKey [9]] with | .ok (_, cs) => decide (cs = 2 ^ 30) | _ => false) = true := by
    decide +kernel
  split at h1
  case h_2 => cases h1
  case h_1 codec cs hd =>
  have hcs : cs = 2 ^ 30 := by simpa using h1
  obtain ⟨ls, s, hr, hs⟩ := six_allocated (pipe codec cs) []
  have h2 := h Toy.lib hugeChunksHeader [.symmetricKey [9]] codec cs ls s Toy.lib_lawful (by simp [Usable]) hd hr
  rw [hs, capacity] at h2
  omega

/-- The hypotheses are met, with all six buffers in use, while a file is encrypted under a 2-of-3 tree ... -/
example (plain : Bytes) : ∃ ls s, Run (pipe Sample.codec Sample.chunkSize) (State.start plain) ls s ∧
    (s.held.map (·.cap)).sum = 6 * (Sample.chunkSize + 17) ∧ Sample.hdr.length + (s.held.map (·.cap)).sum < 10000000 := by
  obtain ⟨ls, s, hr, hs⟩ := six_allocated (pipe Sample.codec Sample.chunkSize) plain
  rw [capacity] at hs
  refine ⟨ls, s, hr, hs, ?_⟩
  exact (encryption_memory Toy.lib_lawful Sample.cred_wf (by omega) Sample.enc_ok hr).2.2 (by decide +kernel)

/-- ... and decrypted again. -/
example (body : Bytes) : ∃ codec' cs' ls s, decryptHeader Toy.lib Sample.hdr Sample.good = .ok (codec', cs') ∧
    Run (pipe codec' cs') (State.start body) ls s ∧ 0 < (s.held.map (·.cap)).sum ∧
    Sample.hdr.length + (s.held.map (·.cap)).sum < 10000000 := by
  have hd := header_opens_iff_satisfied Toy.lib_lawful Sample.cred_wf (by omega) Sample.enc_ok
    (by have := Sample.hdr_length; omega) Sample.good_usable Sample.good_detects
  rw [if_pos Sample.good_satisfies] at hd
  obtain ⟨ls, s, hr, hs⟩ := six_allocated (pipe { Sample.codec with isEncrypting := false } Sample.chunkSize) body
  rw [capacity] at hs
  refine ⟨_, _, ls, s, hd, hr, by omega, ?_⟩
  exact (decryption_memory Toy.lib_lawful Sample.cred_wf (by omega) Sample.enc_ok (by have := Sample.hdr_length; omega)
    Sample.good_usable Sample.good_detects hd hr).2.2 (by decide +kernel)

end Rypt.Props
