import Verif.Proofs.SlowCrash

/-! Property C107: how long a conversion must have taken when the progress display crashes. -/

namespace Rypt.Props

open HeaderCrypto CryptFile Progress Spec

section

variable {L : CryptoLib} {opts : EncryptOptions} {draw : Nat} {tape : Tape} {input : Bytes} {S : List Credential} {o : Obs}

private theorem crash_parts {start : Nat} {f : Option Nat} {calls : List (Nat × Nat)} (hs : Plausible start f calls)
    (hp : session start f calls = .panic) :
    ∃ A B R, calls.map Prod.fst = A ++ B ++ R ∧ B ≠ [] ∧ (A = [] ∨ 99 ≤ B.length) ∧
      1000 < (lastInstant start calls - start) / 1000000 ∧ B.sum * 1000 < (lastInstant start calls - start) / 1000000 :=
  slow_parts hs.forward (progress_panic_cause start f calls hs hp).2

/-- C107: when the display crashes while something is encrypted, then more than a second has passed, and more seconds than the input
has bytes, or else twelve days. -/
theorem encrypting_display_crash (hL : L.Lawful) (hdraw : draw < 1024) (start : Nat) (f : Option Nat) (calls : List (Nat × Nat))
    (h : Told L input (.encrypt opts draw tape) o (calls.map Prod.fst)) (hs : Plausible start f calls)
    (hp : session start f calls = .panic) :
    1000 * max 1 (min input.length 1044480) < (lastInstant start calls - start) / 1000000 := by
  obtain ⟨A, B, R, he, hB, hlong, h1, h2⟩ := crash_parts hs hp
  have hne : calls.map Prod.fst ≠ [] := by
    rw [he]
    simp [hB]
  have henc : ∃ hdr codec cs, encryptHeader L opts draw tape = .ok (hdr, codec, cs) := by
    clear he hp hs
    revert hne h
    generalize calls.map Prod.fst = reports
    intro h hne
    cases h with
    | encrypting _ _ _ hdr codec cs pieces ls s e1 e2 e3 => exact ⟨_, _, _, e1⟩
    | _ => exact absurd rfl hne
  obtain ⟨hdr, codec, cs, henc⟩ := henc
  have hcs := (encrypt_chunk_size_valid hdraw henc).2.1
  rcases encryption_reports hL hdraw henc h with h0 | ⟨k, hk, -⟩
  · exact absurd h0 hne
  have hall : (chunks cs input).map (·.buffer.length) = A ++ B ++ (R ++ ((chunks cs input).drop k).map (·.buffer.length)) := by
    rw [← List.append_assoc, ← he, hk, ← List.map_append, List.take_append_drop]
  have hsum : min input.length 1044480 ≤ B.sum := by
    rcases hlong with rfl | hlong
    · have := chunks_first (size := cs) (by omega) 0 input B _ hB hall
      omega
    · have h3 := chunks_stretch (size := cs) (by omega) 0 input A B _ hall
      have h4 : cs * 1 ≤ cs * (B.length - 1) := Nat.mul_le_mul_left _ (by omega)
      omega
  omega

/-- C107: for inputs up to a megabyte this is exact: the display crashes if and only if anything was reported after more than a
second and more seconds than the input has bytes. -/
theorem small_file_display_crash_iff (hL : L.Lawful) (hdraw : draw < 1024) (hsmall : input.length ≤ 1044480) (start size : Nat)
    (calls : List (Nat × Nat)) (h : Told L input (.encrypt opts draw tape) o (calls.map Prod.fst))
    (hs : Plausible start (some size) calls) :
    session start (some size) calls = .panic ↔ 1000 * max 1 input.length < (lastInstant start calls - start) / 1000000 := by
  constructor
  · intro hp
    have := encrypting_display_crash hL hdraw start _ calls h hs hp
    rwa [Nat.min_eq_left hsmall] at this
  · intro hlong
    have hone : calls = [] ∨ ∃ t, calls = [(input.length, t)] := by
      by_cases hne : calls.map Prod.fst = []
      · exact .inl (List.map_eq_nil_iff.1 hne)
      right
      have henc : ∃ hdr codec cs, encryptHeader L opts draw tape = .ok (hdr, codec, cs) := by
        clear hlong hs
        revert hne h
        generalize calls.map Prod.fst = reports
        intro h hne
        cases h with
        | encrypting _ _ _ hdr codec cs pieces ls s e1 e2 e3 => exact ⟨_, _, _, e1⟩
        | _ => exact absurd rfl hne
      obtain ⟨hdr, codec, cs, henc⟩ := henc
      have hcs := (encrypt_chunk_size_valid hdraw henc).2.1
      rcases encryption_reports hL hdraw henc h with h0 | ⟨k, hk, -⟩
      · exact absurd h0 hne
      rw [chunks, chunksFrom_le (by omega)] at hk
      cases k with
      | zero => exact absurd hk hne
      | succ k =>
        rw [List.take_succ_cons, List.take_nil, List.map_cons, List.map_nil] at hk
        match calls, hk with
        | [(b, t)], hk =>
          cases hk
          exact ⟨t, rfl⟩
    rcases hone with rfl | ⟨t, rfl⟩
    · simp [lastInstant] at hlong
    · have hle := hs.forward.1
      obtain ⟨e, rfl⟩ := Nat.exists_eq_add_of_le hle
      have hb := hs.bytes
      have ht := hs.time
      simp only [totalBytes, lastInstant, Nat.add_zero, Nat.add_sub_cancel_left] at hb ht hlong
      rw [first_update_panics_iff start size _ e hb ht (hs.size size rfl)]
      omega

/-- C107: when the display crashes while something is decrypted, then more than 16 seconds have passed. -/
theorem decrypting_display_crash (hL : L.Lawful) (start : Nat) (f : Option Nat) (calls : List (Nat × Nat))
    (h : Told L input (.decrypt S) o (calls.map Prod.fst)) (hs : Plausible start f calls) (hp : session start f calls = .panic) :
    1000 * 16 < (lastInstant start calls - start) / 1000000 := by
  obtain ⟨A, B, R, he, hB, hlong, h1, h2⟩ := crash_parts hs hp
  have hne : calls.map Prod.fst ≠ [] := by
    rw [he]
    simp [hB]
  obtain ⟨n, rest, hn, h16⟩ := told_header h hne
  have hsum : 16 ≤ B.sum := by
    rcases hlong with rfl | hlong
    · rw [hn] at he
      cases B with
      | nil => exact absurd rfl hB
      | cons b B =>
        rw [List.nil_append, List.cons_append, List.cons.injEq] at he
        rw [List.sum_cons]
        omega
    · cases A with
      | nil =>
        rw [hn] at he
        cases B with
        | nil => exact absurd rfl hB
        | cons b B =>
          rw [List.nil_append, List.cons_append, List.cons.injEq] at he
          rw [List.sum_cons]
          omega
      | cons a A =>
        rcases decryption_reports hL h with h0 | ⟨hdr, body, rfl, h0 | ⟨codec, cs, k, h5, h6, -⟩⟩
        · exact absurd h0 hne
        · rw [he] at h0
          have := congrArg List.length h0
          simp only [List.length_append, List.length_cons, List.length_nil] at this
          omega
        · rw [he, List.cons_append, List.cons_append, List.cons.injEq] at h6
          have hall : (chunks (cs + 16) body).map (·.buffer.length) =
              A ++ B ++ (R ++ ((chunks (cs + 16) body).drop k).map (·.buffer.length)) := by
            rw [← List.append_assoc, h6.2, ← List.map_append, List.take_append_drop]
          have h7 := chunks_stretch (size := cs + 16) (by omega) 0 body A B _ hall
          have h8 : (cs + 16) * 1 ≤ (cs + 16) * (B.length - 1) := Nat.mul_le_mul_left _ (by omega)
          omega
  omega

end

/-! ### Concrete cases: the file of `Sample` -/

namespace Sample

/-- Three bytes are encrypted; the only report comes after more than three seconds. -/
example : (∃ f, Told Toy.lib [1, 2, 3] (.encrypt opts 5 tape) ⟨file codec.crypto codec.payloadKey hdr chunkSize [1, 2, 3], none, f⟩
      (([(3, 3001000000)] : List (Nat × Nat)).map Prod.fst)) ∧
    Plausible 0 (some 3) [(3, 3001000000)] ∧ session 0 (some 3) [(3, 3001000000)] = .panic :=
  ⟨Told.before_success three_told rfl, ⟨by simp [ClockForward], by decide, by decide, by rintro size ⟨⟩; decide⟩, by decide +kernel⟩

/-- The file is decrypted; its header is read so slowly that the display crashes. -/
example : ∃ n, Told Toy.lib (file codec.crypto codec.payloadKey hdr chunkSize [1, 2, 3]) (.decrypt good) ⟨[], none, false⟩
      (([(n, (n + 2) * 1000000000)] : List (Nat × Nat)).map Prod.fst) ∧
    Plausible 0 (some 500) [(n, (n + 2) * 1000000000)] ∧ session 0 (some 500) [(n, (n + 2) * 1000000000)] = .panic := by
  obtain ⟨n, r, hread, -⟩ := read_frame (payload codec.crypto codec.payloadKey (codec.crypto.hash hdr) chunkSize [1, 2, 3])
    (header_nonempty Toy.lib_lawful enc_ok) max_ok
  obtain ⟨-, -, hmax, hn⟩ := (read_header_accepts_iff _ hdr n).mp (congrArg Prod.fst hread)
  have hn' : n ≤ 16777232 := by
    rw [hn]
    simp only [frame, lenBytes, pad, maxHeader, List.length_append, List.length_cons, List.length_nil, List.length_replicate] at hmax ⊢
    omega
  refine ⟨n, .headerRead good hdr n r hread, ⟨by simp [ClockForward], by simp only [totalBytes]; omega,
    by simp only [lastInstant]; omega, by rintro size ⟨⟩; decide⟩, ?_⟩
  have := (first_update_panics_iff 0 500 n ((n + 2) * 1000000000) (by omega) (by omega) (by decide)).2 (by omega)
  rwa [Nat.zero_add] at this

end Sample

end Rypt.Props
