import Verif.Model.Human
import Verif.Spec.Human
import Mathlib.Tactic.Ring
import Mathlib.Tactic.IntervalCases
import Mathlib.Tactic.Linarith

/-! Lemmas on the texts for sizes and durations. -/

namespace Rypt.Human

open Spec

theorem digitsValue_eq (l : List Char) : digitsValue l = Nat.ofDigitChars 10 l 0 := rfl

theorem isDigit_range {c : Char} (h : c.isDigit = true) : 48 ≤ c.toNat ∧ c.toNat ≤ 57 := by
  simp only [Char.isDigit, Bool.and_eq_true, decide_eq_true_eq, ge_iff_le] at h
  exact ⟨h.1, h.2⟩

theorem head_toDigits (n : Nat) : (Nat.toDigits 10 n).head? = some '0' → n = 0 := by
  induction n using Nat.strongRecOn with
  | ind n ih =>
    intro h
    rw [Nat.toDigits_eq_if (by decide)] at h
    split at h
    · rename_i hlt
      interval_cases n <;> first | rfl | (revert h; decide)
    · rename_i hge
      rw [List.head?_append, List.head?_eq_some_head Nat.toDigits_ne_nil, Option.some_or,
        ← List.head?_eq_some_head] at h
      have := ih (n / 10) (by omega) h
      omega

theorem decimal_spec (n : Nat) : Decimal (decimal n) n where
  nonempty := Nat.toDigits_ne_nil
  digits c hc := isDigit_range (Nat.isDigit_of_mem_toDigits (by decide) (by decide) hc)
  value := by rw [digitsValue_eq]; exact Nat.ofDigitChars_ten_toDigits
  no_zero h := by
    rw [head_toDigits n h]
    rfl

theorem twoDigits_spec (n : Nat) (h : n < 100) : TwoDigits (twoDigits n) n := by
  have hd := decimal_spec n
  unfold twoDigits
  split
  · rename_i hlt
    refine ⟨?_, ?_, ?_⟩
    · rw [decimal, Nat.toDigits_of_lt_base hlt]; rfl
    · intro c hc
      rcases List.mem_cons.1 hc with rfl | hc
      · decide
      · exact hd.digits c hc
    · exact hd.value
  · rename_i hge
    refine ⟨?_, hd.digits, hd.value⟩
    rw [decimal, Nat.toDigits_of_base_le (by decide) (by omega), Nat.toDigits_of_lt_base (by omega)]
    rfl

theorem divRound_bounds (a b : Nat) (hb : 0 < b) :
    2 * (divRound a b * b) ≤ 2 * a + b ∧ 2 * a ≤ 2 * (divRound a b * b) + b := by
  have h1 := Nat.div_add_mod a b
  have h2 := Nat.mod_lt a hb
  have h3 : a / b * b = b * (a / b) := Nat.mul_comm _ _
  have h4 : (a / b + 1) * b = b * (a / b) + b := by ring
  unfold divRound
  split
  · rw [h3]; omega
  · split
    · rw [h4]; omega
    · split
      · rw [h3]; omega
      · rw [h4]; omega

theorem divRound_one (a : Nat) : divRound a 1 = a := by
  unfold divRound
  rw [Nat.mod_one, Nat.div_one]
  simp

theorem filledBits_le (val k : Nat) (h : val < 2 ^ k) : filledBits val ≤ k := by
  unfold filledBits
  split
  · omega
  · rename_i hne
    have := (Nat.log2_lt hne).2 h
    omega

theorem toF64_exact (val : Nat) (h : val < 2 ^ 53) : toF64 val = val := by
  have := filledBits_le val 53 h
  simp only [toF64, Nat.sub_eq_zero_of_le this, Nat.pow_zero, divRound_one, Nat.mul_one]

theorem toF64_close (val : Nat) (h : val < 2 ^ 64) : 2 * toF64 val ≤ 2 * val + 2 ^ 11 ∧ 2 * val ≤ 2 * toF64 val + 2 ^ 11 := by
  have h1 := filledBits_le val 64 h
  have h2 : 2 ^ (filledBits val - 53) ≤ 2 ^ 11 := Nat.pow_le_pow_right (by decide) (by omega)
  have h3 := divRound_bounds val (2 ^ (filledBits val - 53)) (by positivity)
  simp only [toF64]
  omega

/-- The unit of a size of at least 1024. -/
theorem scale_spec (val : Nat) (h0 : 1024 ≤ val) (h : val < 2 ^ 64) :
    ∃ k, (filledBits val - 1) / 10 = k ∧ 1 ≤ k ∧ k ≤ 6 ∧ 1024 ^ k ≤ val ∧ val < 1024 ^ (k + 1) := by
  have hne : val ≠ 0 := by omega
  have hf : filledBits val - 1 = Nat.log2 val := by simp [filledBits, hne]
  have hlo : 10 ≤ Nat.log2 val := (Nat.le_log2 hne).2 (by omega)
  have hhi : Nat.log2 val < 64 := (Nat.log2_lt hne).2 h
  have hself := Nat.log2_self_le hne
  have hlt := Nat.lt_log2_self (n := val)
  refine ⟨Nat.log2 val / 10, by rw [hf], by omega, by omega, ?_, ?_⟩
  · refine le_trans ?_ hself
    rw [show (1024 : Nat) = 2 ^ 10 from rfl, ← Nat.pow_mul]
    exact Nat.pow_le_pow_right (by decide) (by omega)
  · refine lt_of_lt_of_le hlt ?_
    rw [show (1024 : Nat) = 2 ^ 10 from rfl, ← Nat.pow_mul]
    exact Nat.pow_le_pow_right (by decide) (by omega)

theorem clock_unique (a b : Nat) (t : List Char) (ha : Clock a t) (hb : Clock b t) : a = b := by
  have split1 : ∀ (x x' y y' : List Char), (∀ c ∈ x, 48 ≤ c.toNat ∧ c.toNat ≤ 57) → (∀ c ∈ x', 48 ≤ c.toNat ∧ c.toNat ≤ 57) →
      x ++ ':' :: y = x' ++ ':' :: y' → x = x' ∧ y = y' := by
    intro x
    induction x with
    | nil =>
      intro x' y y' _ hx' h
      cases x' with
      | nil => simpa using h
      | cons c x' =>
        simp only [List.nil_append, List.cons_append, List.cons.injEq] at h
        exact absurd (hx' c (List.mem_cons_self ..)).2 (by rw [← h.1]; decide)
    | cons d x ih =>
      intro x' y y' hx hx' h
      cases x' with
      | nil =>
        simp only [List.nil_append, List.cons_append, List.cons.injEq] at h
        exact absurd (hx d (List.mem_cons_self ..)).2 (by rw [h.1]; decide)
      | cons c x' =>
        simp only [List.cons_append, List.cons.injEq] at h
        obtain ⟨h1, h2⟩ := ih x' y y' (fun c hc => hx c (List.mem_cons_of_mem _ hc))
          (fun c hc => hx' c (List.mem_cons_of_mem _ hc)) h.2
        exact ⟨by rw [h.1, h1], h2⟩
  have nocolon : ∀ x y : List Char, (∀ c ∈ x ++ ':' :: y, 48 ≤ c.toNat ∧ c.toNat ≤ 57) → False := by
    intro x y h
    have := h ':' (by simp)
    revert this
    decide
  have main : ∀ a b t t', Clock a t → Clock b t' → t = t' → a = b := by
    intro a b t t' ha hb ht
    cases ha with
    | short m s tm ts hm hs he dm ds =>
      cases hb with
      | short m' s' tm' ts' hm' hs' he' dm' ds' =>
        obtain ⟨h1, h2⟩ := split1 _ _ _ _ dm.digits dm'.digits ht
        have e1 := dm.value
        have e2 := ds.value
        rw [h1, dm'.value] at e1
        rw [h2, ds'.value] at e2
        omega
      | long h' m' s' th' tm' ts' hh' hm' hs' he' dh' dm' ds' =>
        rw [List.append_assoc] at ht
        obtain ⟨h1, h2⟩ := split1 _ _ _ _ dm.digits dh'.digits ht
        exact (nocolon tm' ts' (fun c hc => ds.digits c (by rw [h2]; exact hc))).elim
    | long h m s th tm ts hh hm hs he dh dm ds =>
      cases hb with
      | short m' s' tm' ts' hm' hs' he' dm' ds' =>
        rw [List.append_assoc] at ht
        obtain ⟨h1, h2⟩ := split1 _ _ _ _ dh.digits dm'.digits ht
        exact (nocolon tm ts (fun c hc => ds'.digits c (by rw [← h2]; exact hc))).elim
      | long h' m' s' th' tm' ts' hh' hm' hs' he' dh' dm' ds' =>
        rw [List.append_assoc, List.append_assoc] at ht
        obtain ⟨h1, h2⟩ := split1 _ _ _ _ dh.digits dh'.digits ht
        obtain ⟨h3, h4⟩ := split1 _ _ _ _ dm.digits dm'.digits h2
        have e1 := dh.value
        have e2 := dm.value
        have e3 := ds.value
        rw [h1, dh'.value] at e1
        rw [h3, dm'.value] at e2
        rw [h4, ds'.value] at e3
        omega
  exact main a b t t ha hb rfl

end Rypt.Human
