import Verif.Proofs.Reports

/-! Property C105: what the progress display is told about a conversion. -/

namespace Rypt.Props

open HeaderCrypto Pipeline CryptFile Spec

section

variable {L : CryptoLib} {opts : EncryptOptions} {draw : Nat} {tape : Tape} {hdr : Bytes} {codec : Codec} {cs : Nat}
  {input plain F : Bytes} {flt : Bool} {S : List Credential} {d : Direction} {o : Obs} {reports : List Nat}

/-- C105: the conversions with the counts that are reported are the conversions of C01 to C67. -/
theorem told_iff : (∃ reports, Told L input d o reports) ↔ Conversion L input d o :=
  ⟨fun ⟨_, h⟩ => h.conversion, Conversion.told⟩

private theorem encrypt_size (hdraw : draw < 1024) (henc : encryptHeader L opts draw tape = .ok (hdr, codec, cs)) :
    (pipe codec cs).inputBufferSize = cs ∧ 0 < cs := by
  obtain ⟨C, ck, st', -, -, -, -, -, h6⟩ := encryptHeader_ok henc
  exact ⟨by rw [h6]; rfl, cs_pos hdraw henc⟩

private theorem sum_take (cs : List Chunk) (k : Nat) :
    ((cs.take k).map (·.buffer.length)).sum ≤ (bytesOf cs).length := by
  have h := (bytesOf_take_prefix cs k).length_le
  rw [bytesOf, List.length_flatten, List.map_map] at h
  exact h

/-- C105: encrypting reports the sizes of the first chunks of the plaintext, in order; the header and these chunks, sealed, have been
written. -/
theorem encryption_reports (hL : L.Lawful) (hdraw : draw < 1024) (henc : encryptHeader L opts draw tape = .ok (hdr, codec, cs))
    (h : Told L plain (.encrypt opts draw tape) o reports) :
    reports = [] ∨ ∃ k, reports = ((chunks cs plain).take k).map (·.buffer.length) ∧
      frame hdr ++ (((chunks cs plain).take k).map fun c => (sealChunk codec.crypto codec.payloadKey (codec.crypto.hash hdr) c).bytes).flatten
        <+: o.written := by
  cases h with
  | encrypting _ _ _ hdr' codec' cs' pieces ls s h1 h2 h3 =>
    rw [henc] at h1
    cases h1
    obtain ⟨hin, hpos⟩ := encrypt_size hdraw henc
    obtain ⟨k, e1, -, e3⟩ := progress_is_written (ofCodec_lawful (lawful_of_encrypt hL henc)) (by rw [hin]; exact hpos) h3
    have hcd : codec = ⟨codec.crypto, codec.payloadKey, codec.crypto.hash hdr, true⟩ := by
      obtain ⟨C, ck, st', -, -, -, -, -, h6⟩ := encryptHeader_ok henc
      rw [h6]
    have hcv : (pipe codec cs).conv.convert =
        StreamCrypto.convertChunk ⟨codec.crypto, codec.payloadKey, codec.crypto.hash hdr, true⟩ := by
      rw [← hcd]; rfl
    rw [hin, hcv, (convertedPrefix_map convert_seals).1, ← List.map_take, bytesOf, List.map_map] at e3
    rw [hin] at e1
    refine .inr ⟨k, e1, ?_⟩
    have hw : pieces.flatten = frame hdr := by
      by_cases hl : hdr.length ≤ maxHeader
      · obtain ⟨p, hp, he, -⟩ := (write_header_frames hdr).1 hl
        rw [h2] at hp
        cases hp
        exact he
      · rw [(write_header_frames hdr).2 (by omega)] at h2
        cases h2
    rw [hw]
    exact (List.prefix_append_right_inj _).mpr e3
  | _ => exact .inl rfl

/-- C105: decrypting reports the size of the framed header, then the sizes of the first pieces of the rest, in order; these pieces were
opened and written. -/
theorem decryption_reports (hL : L.Lawful) (h : Told L F (.decrypt S) o reports) :
    reports = [] ∨ ∃ hdr body, F = frame hdr ++ body ∧
      (reports = [(frame hdr).length] ∨ ∃ codec cs k, decryptHeader L hdr S = .ok (codec, cs) ∧
        reports = (frame hdr).length :: ((chunks (cs + 16) body).take k).map (·.buffer.length) ∧
        k ≤ (convertedPrefix (StreamCrypto.convertChunk codec) (chunks (cs + 16) body)).length ∧
        bytesOf ((convertedPrefix (StreamCrypto.convertChunk codec) (chunks (cs + 16) body)).take k) <+: o.written) := by
  have hlen : ∀ {hdr n r}, HeaderIO.readHeader { data := F } = (.ok (hdr, n), r) → F = frame hdr ++ r.data ∧ n = (frame hdr).length := by
    intro hdr n r hr
    refine ⟨frame_of_read hr, ?_⟩
    obtain ⟨-, -, -, hn⟩ := (read_header_accepts_iff { data := F } hdr n).mp (by rw [hr])
    rw [hn]
  cases h with
  | headerRead _ hdr n r h1 =>
    obtain ⟨e1, rfl⟩ := hlen h1
    exact .inr ⟨hdr, r.data, e1, .inl rfl⟩
  | decryptHeaderErr _ hdr n r e h1 h2 =>
    obtain ⟨e1, rfl⟩ := hlen h1
    exact .inr ⟨hdr, r.data, e1, .inl rfl⟩
  | decryptHeaderPanic _ hdr n r h1 h2 =>
    obtain ⟨e1, rfl⟩ := hlen h1
    exact .inr ⟨hdr, r.data, e1, .inl rfl⟩
  | decrypting _ hdr n r codec cs ls s h1 h2 h3 =>
    obtain ⟨e1, rfl⟩ := hlen h1
    obtain ⟨hC, hcd⟩ := codec_of_decrypt hL h2
    have hin : (pipe codec cs).inputBufferSize = cs + 16 := by rw [hcd]; rfl
    obtain ⟨k, e2, e3, e4⟩ := progress_is_written (ofCodec_lawful hC) (by rw [hin]; omega) h3
    rw [hin] at e2 e3 e4
    exact .inr ⟨hdr, r.data, e1, .inr ⟨codec, cs, k, h2, by rw [e2], e3, e4⟩⟩
  | _ => exact .inl rfl

/-- C105: the counts never add up to more than the size of the input, and after success they add up to it; then at least one was
reported. -/
theorem reports_add_up (hL : L.Lawful) (hd : ∀ opts draw tape, d = .encrypt opts draw tape → draw < 1024) (h : Told L input d o reports) :
    reports.sum ≤ input.length ∧ (o.result = some (.ok ()) → reports ≠ [] ∧ reports.sum = input.length) := by
  constructor
  · cases d with
    | encrypt opts draw tape =>
      cases h with
      | encrypting _ _ _ hdr codec cs pieces ls s h1 h2 h3 =>
        rcases encryption_reports hL (hd _ _ _ rfl) h1 (.encrypting opts draw tape hdr codec cs pieces ls s h1 h2 h3) with h0 | ⟨k, hk, -⟩
        · rw [h0]; simp
        · rw [hk]
          have := sum_take (chunks cs input) k
          rwa [show bytesOf (chunks cs input) = input from bytesOf_chunksFrom (encrypt_size (hd _ _ _ rfl) h1).2 0 input] at this
      | _ => simp
    | decrypt S =>
      rcases decryption_reports hL h with h0 | ⟨hdr, body, rfl, h0 | ⟨codec, cs, k, h1, h2, -⟩⟩
      · rw [h0]; simp
      · rw [h0]; simp
      · have := sum_take (chunks (cs + 16) body) k
        rw [show bytesOf (chunks (cs + 16) body) = body from bytesOf_chunksFrom (by omega) 0 body] at this
        rw [h2, List.sum_cons, List.length_append]
        omega
  · intro ho
    have hne : ∀ {P : Params} {data : Bytes} {ls : List Label} {s : State}, P.conv.Lawful → 0 < P.inputBufferSize →
        Run P (State.start data) ls s → s.returned (.ok ()) → s.progress ≠ [] := by
      intro P data ls s hP hN hrun hret
      obtain ⟨k, hk⟩ := inv_run hP hN hrun
      rw [(final_ok hk hret).2.2.2.1]
      simp only [ne_eq, List.map_eq_nil_iff]
      exact chunksFrom_ne_nil _ _ _
    cases h with
    | encrypting opts draw tape hdr codec cs pieces ls s h1 h2 h3 =>
      obtain ⟨hin, hpos⟩ := encrypt_size (hd _ _ _ rfl) h1
      have hP := ofCodec_lawful (lawful_of_encrypt hL h1)
      have hN : 0 < (pipe codec cs).inputBufferSize := by rw [hin]; exact hpos
      have hret := result_returned hP hN h3 ho
      exact ⟨hne hP hN h3 hret, progress_adds_up hP hN h3 hret⟩
    | decrypting _ hdr n r codec cs ls s h1 h2 h3 =>
      obtain ⟨hC, hcd⟩ := codec_of_decrypt hL h2
      have hin : (pipe codec cs).inputBufferSize = cs + 16 := by rw [hcd]; rfl
      have hP := ofCodec_lawful hC
      have hN : 0 < (pipe codec cs).inputBufferSize := by rw [hin]; omega
      have hret := result_returned hP hN h3 ho
      refine ⟨by simp, ?_⟩
      obtain ⟨-, -, -, hn⟩ := (read_header_accepts_iff { data := input } hdr n).mp (by rw [h1])
      have hF := congrArg List.length (frame_of_read h1)
      rw [List.length_append] at hF
      rw [List.sum_cons, progress_adds_up hP hN h3 hret, hn, hF]
    | _ => cases ho

end

/-! ### Concrete cases: the file of `Sample`, encrypted and decrypted -/

namespace Sample

/-- C105: encrypting three bytes reports them. -/
theorem three_told : Told Toy.lib [1, 2, 3] (.encrypt opts 5 tape) ⟨file codec.crypto codec.payloadKey hdr chunkSize [1, 2, 3], some (.ok ()), false⟩
    [3] := by
  obtain ⟨reports, h⟩ := told_iff.2 (encrypted [1, 2, 3])
  have hne := (reports_add_up Toy.lib_lawful (by rintro _ _ _ ⟨⟩; omega) h).2 rfl
  rcases encryption_reports Toy.lib_lawful (by omega) enc_ok h with h0 | ⟨k, h1, -⟩
  · exact absurd h0 hne.1
  · have hc : (chunks chunkSize [1, 2, 3]).map (·.buffer.length) = [3] := by decide +kernel
    rw [List.map_take, hc] at h1
    match k with
    | 0 => exact absurd (by simpa using h1) hne.1
    | k + 1 => rw [h1] at h; simpa using h

/-- C105: decrypting the file, whatever was encrypted, reports at least its header and all of its bytes. -/
example (plain : Bytes) : ∃ n rest, Told Toy.lib (file codec.crypto codec.payloadKey hdr chunkSize plain) (.decrypt good)
    ⟨plain, some (.ok ()), false⟩ (n :: rest) ∧ n + rest.sum = (file codec.crypto codec.payloadKey hdr chunkSize plain).length := by
  obtain ⟨reports, h⟩ := told_iff.2 (decrypted plain)
  obtain ⟨h1, h2⟩ := (reports_add_up Toy.lib_lawful (by rintro _ _ _ ⟨⟩) h).2 rfl
  match reports with
  | [] => exact absurd rfl h1
  | n :: rest => exact ⟨n, rest, h, by simpa using h2⟩

/-- C105: before anything is decrypted, the header has been reported. -/
example (plain : Bytes) : ∃ n, 0 < n ∧ Told Toy.lib (file codec.crypto codec.payloadKey hdr chunkSize plain) (.decrypt good)
    ⟨[], none, false⟩ [n] := by
  obtain ⟨n, r, hread, -⟩ := read_frame (payload codec.crypto codec.payloadKey (codec.crypto.hash hdr) chunkSize plain)
    (header_nonempty Toy.lib_lawful enc_ok) max_ok
  obtain ⟨-, -, -, hn⟩ := (read_header_accepts_iff _ hdr n).mp (congrArg Prod.fst hread)
  exact ⟨n, by rw [hn, frame_length]; omega, .headerRead good hdr n r hread⟩

end Sample

end Rypt.Props
