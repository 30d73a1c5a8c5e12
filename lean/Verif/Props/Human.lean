import Verif.Proofs.Human

/-! Properties of the texts for sizes and durations. -/

namespace Rypt.Props

open Human Spec

/-- C58: a duration is shown as `m:ss` or `h:mm:ss`, and the fields add up to it. -/
theorem duration_text (secs : Nat) : Clock secs (humanDuration secs) := by
  simp only [humanDuration]
  split
  · exact .long (secs / 60 / 60) (secs / 60 % 60) (secs % 60) _ _ _ (by assumption) (by omega) (by omega) (by omega)
      (decimal_spec _) (twoDigits_spec _ (by omega)) (twoDigits_spec _ (by omega))
  · exact .short (secs / 60 % 60) (secs % 60) _ _ (by omega) (by omega) (by omega) (decimal_spec _)
      (twoDigits_spec _ (by omega))

/-- C58: different durations look different. -/
theorem duration_injective (a b : Nat) (h : humanDuration a = humanDuration b) : a = b :=
  clock_unique a b _ (duration_text a) (by rw [h]; exact duration_text b)

example : humanDuration 59 = "0:59".toList := by decide +kernel
example : humanDuration 3599 = "59:59".toList := by decide +kernel
example : humanDuration 3600 = "1:00:00".toList := by decide +kernel
example : humanDuration 360061 = "100:01:01".toList := by decide +kernel

/-- C58: sizes below 1024 are shown exactly. -/
theorem size_text_small (val : Nat) (h : val < 1024) :
    ∃ t, Decimal t val ∧ humanFileSize val = .ok (t ++ [' ', 'B']) := by
  refine ⟨decimal val, decimal_spec val, ?_⟩
  have h1 : (filledBits val - 1) / 10 = 0 := by
    have := filledBits_le val 10 (by omega)
    omega
  simp only [humanFileSize, h1, scales, List.getElem?_cons_zero, if_true, toF64_exact val (by omega)]

/-- C58: a size from 1024 on is shown in the unit of which it is at least one and less than 1024, with two decimals; what is shown
differs from the size by less than 0.01 of the unit, and by at most 0.005 if the size is below `2^53`. -/
theorem size_text (val : Nat) (h0 : 1024 ≤ val) (h : val < 2 ^ 64) :
    ∃ k a b ta tb, 1 ≤ k ∧ k ≤ 6 ∧ 1024 ^ k ≤ val ∧ val < 1024 ^ (k + 1) ∧ Decimal ta a ∧ TwoDigits tb b ∧
      humanFileSize val = .ok (ta ++ '.' :: tb ++ ' ' :: unitName k) ∧
      (100 * a + b) * 1024 ^ k < 100 * val + 1024 ^ k ∧ 100 * val < (100 * a + b) * 1024 ^ k + 1024 ^ k ∧
      (val < 2 ^ 53 → 2 * ((100 * a + b) * 1024 ^ k) ≤ 2 * (100 * val) + 1024 ^ k ∧
        2 * (100 * val) ≤ 2 * ((100 * a + b) * 1024 ^ k) + 1024 ^ k) := by
  obtain ⟨k, hk, hk1, hk6, hlo, hhi⟩ := scale_spec val h0 h
  have hpow : 2 ^ (k * 10) = 1024 ^ k := by rw [Nat.mul_comm, Nat.pow_mul]
  have hb := divRound_bounds (toF64 val * 100) (1024 ^ k) (by positivity)
  refine ⟨k, divRound (toF64 val * 100) (1024 ^ k) / 100, divRound (toF64 val * 100) (1024 ^ k) % 100, _, _, hk1, hk6, hlo, hhi,
    decimal_spec _, twoDigits_spec _ (by omega), ?_, ?_⟩
  · have hs : scales[k]? = some (unitName k) := by interval_cases k <;> rfl
    simp only [humanFileSize, hk, hs, if_neg (show k ≠ 0 by omega), hpow]
  · rw [show 100 * (divRound (toF64 val * 100) (1024 ^ k) / 100) + divRound (toF64 val * 100) (1024 ^ k) % 100 =
      divRound (toF64 val * 100) (1024 ^ k) from Nat.div_add_mod _ _]
    have hc := toF64_close val h
    have he : val < 2 ^ 53 → toF64 val = val := toF64_exact val
    have hp : 1024 ≤ 1024 ^ k := by
      calc 1024 = 1024 ^ 1 := rfl
        _ ≤ 1024 ^ k := Nat.pow_le_pow_right (by decide) hk1
    by_cases hv : val < 2 ^ 53
    · rw [he hv] at hb ⊢
      exact ⟨by omega, by omega, fun _ => ⟨by omega, by omega⟩⟩
    · have hbig : 1024 ^ 5 ≤ 1024 ^ k := by
        apply Nat.pow_le_pow_right (by decide)
        by_contra hlt
        have : 1024 ^ (k + 1) ≤ 1024 ^ 5 := Nat.pow_le_pow_right (by decide) (by omega)
        omega
      exact ⟨by omega, by omega, fun hv' => absurd hv' hv⟩

example : humanFileSize 1023 = .ok "1023 B".toList := by decide +kernel
example : humanFileSize 1100 = .ok "1.07 KiB".toList := by decide +kernel
example : humanFileSize 1048575 = .ok "1024.00 KiB".toList := by decide +kernel
example : humanFileSize (2 ^ 64 - 1) = .ok "16.00 EiB".toList := by decide +kernel

end Rypt.Props
