import Verif.Props.Reports
import Verif.Props.Progress

/-! How long the progress display must be kept waiting before it crashes. -/

namespace Rypt.CryptFile

open HeaderCrypto Pipeline Spec

theorem totalBytes_sum (calls : List (Nat × Nat)) : totalBytes calls = (calls.map Prod.fst).sum := by
  induction calls with
  | nil => rfl
  | cons c calls ih => obtain ⟨b, t⟩ := c; simp [totalBytes, ih]

/-- Consecutive chunks: all but one are full. -/
theorem chunks_stretch {size : Nat} (hs : 0 < size) (idx : Nat) (data : Bytes) :
    ∀ A B R : List Nat, (chunksFrom size idx data).map (·.buffer.length) = A ++ B ++ R → size * (B.length - 1) ≤ B.sum := by
  refine chunks_induction hs (motive := fun j d => ∀ A B R : List Nat, (chunksFrom size j d).map (·.buffer.length) = A ++ B ++ R →
    size * (B.length - 1) ≤ B.sum) ?_ ?_ idx data
  · intro j d h A B R he
    rw [chunksFrom_le h] at he
    have := congrArg List.length he
    simp only [List.map_cons, List.map_nil, List.length_cons, List.length_nil, List.length_append] at this
    rw [show B.length - 1 = 0 by omega, Nat.mul_zero]
    exact Nat.zero_le _
  · intro j d h ih A B R he
    rw [chunksFrom_gt hs h, List.map_cons] at he
    cases A with
    | cons a A =>
      rw [List.cons_append, List.cons_append, List.cons.injEq] at he
      exact ih A B R he.2
    | nil =>
      cases B with
      | nil => simp
      | cons b B =>
        rw [List.nil_append, List.cons_append, List.cons.injEq] at he
        have h1 := ih [] B R (by rw [List.nil_append]; exact he.2)
        have h2 : b = size := by rw [← he.1]; simp; omega
        simp only [List.length_cons, Nat.add_sub_cancel, List.sum_cons, h2]
        cases hB : B.length with
        | zero => simp
        | succ n =>
          rw [hB, Nat.add_sub_cancel] at h1
          rw [Nat.mul_succ]
          omega

/-- The first chunk. -/
theorem chunks_first {size : Nat} (hs : 0 < size) (idx : Nat) (data : Bytes) (B R : List Nat) (hB : B ≠ [])
    (h : (chunksFrom size idx data).map (·.buffer.length) = B ++ R) : min data.length size ≤ B.sum := by
  cases B with
  | nil => exact absurd rfl hB
  | cons b B =>
    rw [List.sum_cons]
    by_cases hl : data.length ≤ size
    · rw [chunksFrom_le hl, List.map_cons, List.cons_append, List.cons.injEq] at h
      have : data.length = b := h.1
      omega
    · rw [chunksFrom_gt hs (by omega), List.map_cons, List.cons_append, List.cons.injEq] at h
      have := h.1
      simp only [List.length_take] at this
      omega

/-- A slow stretch: its counts, and the time it takes. -/
theorem slow_parts {start : Nat} {calls : List (Nat × Nat)} (hf : ClockForward start calls) (h : SlowStretch start calls) :
    ∃ A B R, calls.map Prod.fst = A ++ B ++ R ∧ B ≠ [] ∧ (A = [] ∨ 99 ≤ B.length) ∧
      1000 < (lastInstant start calls - start) / 1000000 ∧ B.sum * 1000 < (lastInstant start calls - start) / 1000000 := by
  obtain ⟨q1, q2, r, rfl, h1, h2, h3⟩ := h
  have hf1 := (Progress.clockForward_append _ _ _).1 hf
  have hf2 := (Progress.clockForward_append _ _ _).1 hf1.1
  have hle1 := Progress.start_le_last _ _ hf2.1
  have hle2 := Progress.start_le_last _ _ hf1.2
  rw [← Progress.lastInstant_append] at hle2
  have hdiv : (lastInstant start (q1 ++ q2) - lastInstant start q1) / 1000000 ≤
      (lastInstant start (q1 ++ q2 ++ r) - start) / 1000000 := Nat.div_le_div_right (by omega)
  refine ⟨q1.map Prod.fst, q2.map Prod.fst, r.map Prod.fst, by simp, ?_, ?_, Nat.lt_of_lt_of_le h2 hdiv, ?_⟩
  · intro he
    rw [List.map_eq_nil_iff] at he
    rw [he, List.append_nil, Nat.sub_self] at h2
    exact absurd h2 (by decide)
  · rcases h1 with rfl | h1
    · exact .inl rfl
    · exact .inr (by simpa using h1)
  · rw [← totalBytes_sum]
    exact Nat.lt_of_lt_of_le h3 hdiv

variable {L : CryptoLib} {input : Bytes} {d : Direction} {o : Obs} {reports : List Nat}

/-- The reports of a decryption begin with a header. -/
theorem told_header {S : List Credential} (h : Told L input (.decrypt S) o reports) (hne : reports ≠ []) :
    ∃ n rest, reports = n :: rest ∧ 16 ≤ n := by
  have key : ∀ {hdr n r}, HeaderIO.readHeader { data := input } = (.ok (hdr, n), r) → 16 ≤ n := by
    intro hdr n r hr
    obtain ⟨-, h1, -, hn⟩ := (Props.read_header_accepts_iff { data := input } hdr n).mp (by rw [hr])
    rw [hn]
    simp only [frame, lenBytes, pad, List.length_append, List.length_cons, List.length_nil, List.length_replicate]
    omega
  cases h with
  | headerRead _ hdr n r h1 => exact ⟨_, _, rfl, key h1⟩
  | decryptHeaderErr _ hdr n r e h1 h2 => exact ⟨_, _, rfl, key h1⟩
  | decryptHeaderPanic _ hdr n r h1 h2 => exact ⟨_, _, rfl, key h1⟩
  | decrypting _ hdr n r codec cs ls s h1 h2 h3 => exact ⟨_, _, rfl, key h1⟩
  | _ => exact absurd rfl hne

end Rypt.CryptFile
