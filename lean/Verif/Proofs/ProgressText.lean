import Verif.Model.ProgressText
import Verif.Spec.ProgressText
import Verif.Proofs.Human
import Mathlib.Tactic.Linarith
import Mathlib.Tactic.FieldSimp
import Mathlib.Tactic.Positivity
import Mathlib.Tactic.NormNum
import Mathlib.Tactic.Ring
import Mathlib.Tactic.Push
import Mathlib.Data.Rat.Cast.Order
import Mathlib.Algebra.Order.Field.Basic
import Mathlib.Algebra.Order.Field.Rat

/-! How far the percentage of a progress line is off. -/

namespace Rypt.Progress

open Human Spec

/-- Rounding a quotient changes it by at most one half. -/
theorem divRound_close (a b : Nat) (hb : 0 < b) : |(divRound a b : ℚ) - a / b| ≤ 1 / 2 := by
  obtain ⟨h1, h2⟩ := divRound_bounds a b hb
  have hb' : (0 : ℚ) < b := by exact_mod_cast hb
  have h1' : 2 * ((divRound a b : ℚ) * b) ≤ 2 * a + b := by exact_mod_cast h1
  have h2' : 2 * (a : ℚ) ≤ 2 * ((divRound a b : ℚ) * b) + b := by exact_mod_cast h2
  have he : (a : ℚ) / b * b = a := div_mul_cancel₀ _ hb'.ne'
  rw [abs_le]
  constructor
  · by_contra hc
    push Not at hc
    have := mul_lt_mul_of_pos_right hc hb'
    rw [sub_mul, he] at this
    linarith
  · by_contra hc
    push Not at hc
    have := mul_lt_mul_of_pos_right hc hb'
    rw [sub_mul, he] at this
    linarith

/-- Conversion to `f64` changes a number by at most `2^-53` of it. -/
theorem toF64_rel (v : Nat) : |(toF64 v : ℚ) - v| ≤ v / 2 ^ 53 := by
  by_cases hv : v < 2 ^ 53
  · rw [toF64_exact v hv, sub_self, abs_zero]
    positivity
  · have hne : v ≠ 0 := by omega
    have hlog : 53 ≤ Nat.log2 v := (Nat.le_log2 hne).2 (by omega)
    have hself := Nat.log2_self_le hne
    obtain ⟨j, hj⟩ : ∃ j, Nat.log2 v = 52 + j := ⟨Nat.log2 v - 52, by omega⟩
    have hf : filledBits v - 53 = j := by simp only [filledBits, if_neg hne]; omega
    obtain ⟨h1, h2⟩ := divRound_bounds v (2 ^ j) (by positivity)
    have ht : toF64 v = divRound v (2 ^ j) * 2 ^ j := by simp only [toF64, hf]
    rw [hj, Nat.pow_add] at hself
    have h3 : (2 ^ 52 : ℚ) * 2 ^ j ≤ v := by exact_mod_cast hself
    rw [ht]
    have h1' : 2 * ((divRound v (2 ^ j) * 2 ^ j : Nat) : ℚ) ≤ 2 * v + 2 ^ j := by exact_mod_cast h1
    have h2' : 2 * (v : ℚ) ≤ 2 * ((divRound v (2 ^ j) * 2 ^ j : Nat) : ℚ) + 2 ^ j := by exact_mod_cast h2
    generalize ((divRound v (2 ^ j) * 2 ^ j : Nat) : ℚ) = w at *
    rw [abs_le]
    constructor
    · rw [neg_le_iff_add_nonneg]
      have : (v : ℚ) / 2 ^ 53 * 2 ^ 53 = v := by field_simp
      nlinarith
    · rw [le_div_iff₀ (by positivity)]
      nlinarith

/-- Division of `f64` changes the quotient by at most `2^-53` of it. -/
theorem f64Div_rel (a b : Nat) (hb : 0 < b) (hab : a ≤ b) :
    |((f64Div a b).1 : ℚ) / 2 ^ (f64Div a b).2 - (a : ℚ) / b| ≤ (a : ℚ) / b / 2 ^ 53 := by
  unfold f64Div
  split
  · rename_i h
    subst h
    simp
  · rename_i ha
    have hl : Nat.log2 a ≤ Nat.log2 b := (Nat.le_log2 (by omega)).2 (le_trans (Nat.log2_self_le ha) hab)
    obtain ⟨d, hd⟩ : ∃ d, Nat.log2 b = Nat.log2 a + d := ⟨Nat.log2 b - Nat.log2 a, by omega⟩
    have hk0 : 52 + Nat.log2 b - Nat.log2 a = 52 + d := by omega
    rw [hk0]
    have key : ∃ k, (if a * 2 ^ (52 + d) < b * 2 ^ 52 then 52 + d + 1 else 52 + d) = k ∧ b * 2 ^ 52 ≤ a * 2 ^ k := by
      by_cases hlt : a * 2 ^ (52 + d) < b * 2 ^ 52
      · refine ⟨52 + d + 1, if_pos hlt, ?_⟩
        have h1 := Nat.log2_self_le ha
        have h2 := Nat.lt_log2_self (n := b)
        have h3 : b ≤ a * 2 ^ (d + 1) := by
          calc b ≤ 2 ^ (Nat.log2 b + 1) := h2.le
            _ = 2 ^ Nat.log2 a * 2 ^ (d + 1) := by rw [← Nat.pow_add, hd]; congr 1
            _ ≤ a * 2 ^ (d + 1) := Nat.mul_le_mul_right _ h1
        calc b * 2 ^ 52 ≤ a * 2 ^ (d + 1) * 2 ^ 52 := Nat.mul_le_mul_right _ h3
          _ = a * 2 ^ (52 + d + 1) := by rw [Nat.mul_assoc, ← Nat.pow_add]; congr 2; omega
      · exact ⟨52 + d, if_neg hlt, by omega⟩
    obtain ⟨k, hk, hlow⟩ := key
    simp only [hk]
    have hc := divRound_close (a * 2 ^ k) b hb
    have hb' : (0 : ℚ) < b := by exact_mod_cast hb
    have hlow' : (b : ℚ) * 2 ^ 52 ≤ a * 2 ^ k := by exact_mod_cast hlow
    have hp : (0 : ℚ) < 2 ^ k := by positivity
    have e1 : ((divRound (a * 2 ^ k) b : ℚ) / 2 ^ k - a / b) = ((divRound (a * 2 ^ k) b : ℚ) - (a * 2 ^ k : Nat) / b) / 2 ^ k := by
      push_cast
      field_simp
    rw [e1, abs_div, abs_of_pos hp, div_le_iff₀ hp]
    refine le_trans hc ?_
    have e2 : (a : ℚ) / b / 2 ^ 53 * 2 ^ k = (a * 2 ^ k) / (b * 2 ^ 53) := by field_simp
    rw [e2, le_div_iff₀ (by positivity)]
    nlinarith

/-- A quotient of two numbers each off by `2^-53` of itself. -/
theorem quot_close (a b a' b' : ℚ) (ha : 0 ≤ a) (hb : 0 < b) (h1 : |a' - a| ≤ a / 2 ^ 53) (h2 : |b' - b| ≤ b / 2 ^ 53) :
    0 < b' ∧ |a' / b' - a / b| ≤ a / b / 2 ^ 51 := by
  rw [abs_le] at h1 h2
  have hb' : 0 < b' := by
    have : b / 2 ^ 53 < b := by rw [div_lt_iff₀ (by positivity)]; nlinarith
    linarith
  refine ⟨hb', ?_⟩
  have e1 : a / b / 2 ^ 51 = a / 2 ^ 51 / b := by field_simp
  have ha53 : 0 ≤ a / 2 ^ 53 := by positivity
  have e51 : a / 2 ^ 51 = 4 * (a / 2 ^ 53) := by ring
  rw [abs_le]
  constructor
  · rw [e1, neg_le_sub_iff_le_add, ← sub_le_iff_le_add, ← sub_div, div_le_div_iff₀ hb hb']
    rw [e51]
    set u := a / 2 ^ 53 with hu
    have hau : a = 2 ^ 53 * u := by rw [hu]; field_simp
    set v := b / 2 ^ 53 with hv
    have hbv : b = 2 ^ 53 * v := by rw [hv]; field_simp
    have hv0 : 0 < v := by positivity
    nlinarith [mul_nonneg ha53 hv0.le]
  · rw [e1, sub_le_iff_le_add, ← add_div, div_le_div_iff₀ hb' hb]
    rw [e51]
    set u := a / 2 ^ 53 with hu
    have hau : a = 2 ^ 53 * u := by rw [hu]; field_simp
    set v := b / 2 ^ 53 with hv
    have hbv : b = 2 ^ 53 * v := by rw [hv]; field_simp
    have hv0 : 0 < v := by positivity
    nlinarith [mul_nonneg ha53 hv0.le]

/-- The ratio is off by at most `2^-50`. -/
theorem ratio_close (w f : Nat) (hw : w ≤ max f 1) :
    |((ratio w f).1 : ℚ) / 2 ^ (ratio w f).2 - (w : ℚ) / (max f 1 : Nat)| ≤ 1 / 2 ^ 50 := by
  generalize hs : max f 1 = s at hw
  have hs0 : 0 < s := by omega
  have hs0' : (0 : ℚ) < s := by exact_mod_cast hs0
  have hw' : (w : ℚ) ≤ s := by exact_mod_cast hw
  have hq := quot_close w s _ _ (by positivity) hs0' (toF64_rel w) (toF64_rel s)
  have hx1 : (w : ℚ) / s ≤ 1 := (div_le_one hs0').2 hw'
  have hx0 : (0 : ℚ) ≤ (w : ℚ) / s := by positivity
  have hb0 : 0 < toF64 s := by exact_mod_cast hq.1
  have hb0' : (0 : ℚ) < toF64 s := hq.1
  unfold ratio
  rw [hs]
  split
  · rename_i hlt
    have hlt' : (toF64 s : ℚ) < toF64 w := by exact_mod_cast hlt
    have hge : 1 < (toF64 w : ℚ) / toF64 s := (one_lt_div hb0').2 hlt'
    have h2 := (abs_le.1 hq.2).2
    rw [abs_le]
    constructor
    · norm_num
      linarith
    · norm_num
      norm_num at h2
      linarith
  · rename_i hle
    have hd := f64Div_rel (toF64 w) (toF64 s) hb0 (by omega)
    have hy : (toF64 w : ℚ) / toF64 s ≤ 2 := by
      have := (abs_le.1 hq.2).2
      norm_num at this
      linarith
    have hy0 : (0 : ℚ) ≤ (toF64 w : ℚ) / toF64 s := by positivity
    have := abs_sub_le (((f64Div (toF64 w) (toF64 s)).1 : ℚ) / 2 ^ (f64Div (toF64 w) (toF64 s)).2)
      ((toF64 w : ℚ) / toF64 s) ((w : ℚ) / s)
    refine le_trans this ?_
    have h3 := hq.2
    norm_num at h3 hd ⊢
    linarith

/-- The percentage in tenths. -/
theorem percent_tenths (w f : Nat) (hw : w ≤ max f 1) : ∃ t, percent (some f) w = decimal (t / 10) ++ '.' :: decimal (t % 10) ∧
    t ≤ 1000 ∧ 2 ^ 39 * (t * max f 1) ≤ 2 ^ 39 * (1000 * w) + (2 ^ 38 + 1) * max f 1 ∧
    2 ^ 39 * (1000 * w) ≤ 2 ^ 39 * (t * max f 1) + (2 ^ 38 + 1) * max f 1 := by
  have hr := ratio_close w f hw
  simp only [percent]
  generalize ratio w f = mk at hr ⊢
  obtain ⟨m, k⟩ := mk
  simp only at hr ⊢
  generalize hs : max f 1 = s at hw hr ⊢
  have hs0 : 0 < s := by omega
  have hs0' : (0 : ℚ) < s := by exact_mod_cast hs0
  have hw' : (w : ℚ) ≤ s := by exact_mod_cast hw
  have hp : (0 : ℚ) < 2 ^ k := by positivity
  set t := divRound (toF64 (m * 100) * 10) (2 ^ k) with ht
  have h1 := divRound_close (toF64 (m * 100) * 10) (2 ^ k) (by positivity)
  rw [← ht] at h1
  have h2 := toF64_rel (m * 100)
  have hx1 : (w : ℚ) / s ≤ 1 := (div_le_one hs0').2 hw'
  have hx0 : (0 : ℚ) ≤ (w : ℚ) / s := by positivity
  set x := (w : ℚ) / s with hx
  set y := (m : ℚ) / 2 ^ k with hy
  have hy0 : 0 ≤ y := by positivity
  have hmy : (m : ℚ) = y * 2 ^ k := by rw [hy]; field_simp
  push_cast at h1 h2
  set z := (toF64 (m * 100) : ℚ) * 10 / 2 ^ k with hz
  have hz' : (toF64 (m * 100) : ℚ) = z / 10 * 2 ^ k := by rw [hz]; field_simp
  rw [hz', hmy] at h2
  have e3 : z / 10 * 2 ^ k - y * 2 ^ k * 100 = (z / 10 - 100 * y) * 2 ^ k := by ring
  have e4 : y * 2 ^ k * 100 / 2 ^ 53 = (100 * y / 2 ^ 53) * 2 ^ k := by ring
  rw [e3, e4, abs_mul, abs_of_pos hp, mul_le_mul_iff_left₀ hp] at h2
  rw [abs_le] at h1 h2 hr
  norm_num at h1 h2 hr
  have hfin : (t : ℚ) ≤ 1000 * x + (1 / 2 + 1 / 2 ^ 39) ∧ 1000 * x ≤ t + (1 / 2 + 1 / 2 ^ 39) := by
    constructor
    · norm_num
      linarith
    · norm_num
      linarith
  have hws : (w : ℚ) = x * s := by rw [hx]; field_simp
  have b1 : (2 ^ 39 : ℚ) * (t * s) ≤ 2 ^ 39 * (1000 * w) + (2 ^ 38 + 1) * s := by
    rw [hws]
    have := mul_le_mul_of_nonneg_right hfin.1 hs0'.le
    norm_num at this ⊢
    linarith
  have b2 : (2 ^ 39 : ℚ) * (1000 * w) ≤ 2 ^ 39 * (t * s) + (2 ^ 38 + 1) * s := by
    rw [hws]
    have := mul_le_mul_of_nonneg_right hfin.2 hs0'.le
    norm_num at this ⊢
    linarith
  have ht1000 : t ≤ 1000 := by
    have : (t : ℚ) < 1001 := by
      have := hfin.1
      norm_num at this
      linarith
    have : t < 1001 := by exact_mod_cast this
    omega
  exact ⟨t, rfl, ht1000, by exact_mod_cast b1, by exact_mod_cast b2⟩

theorem percent_shown (w f : Nat) (hw : w ≤ max f 1) : PercentShown w (max f 1) (percent (some f) w) := by
  obtain ⟨t, h0, h1, h2, h3⟩ := percent_tenths w f hw
  have e5 : 10 * (t / 10) + t % 10 = t := Nat.div_add_mod _ _
  refine ⟨t / 10, t % 10, _, _, h0, decimal_spec _, decimal_spec _, Nat.mod_lt _ (by decide), by omega, ?_, ?_⟩
  · rw [e5]; exact h2
  · rw [e5]; exact h3

theorem percent_all (w f : Nat) (hw : w = max f 1) : percent (some f) w = "100.0".toList := by
  obtain ⟨t, h0, h1, h2, h3⟩ := percent_tenths w f (by omega)
  rw [← hw] at h2 h3
  have hw0 : 0 < w := by omega
  have : t = 1000 := by
    by_contra hne
    have : t * w ≤ 999 * w := Nat.mul_le_mul_right _ (by omega)
    omega
  rw [h0, this]
  decide +kernel

theorem percent_none (f : Nat) : percent (some f) 0 = "0.0".toList := by
  obtain ⟨t, h0, h1, h2, h3⟩ := percent_tenths 0 f (by omega)
  have : t = 0 := by
    by_contra hne
    have : 1 * max f 1 ≤ t * max f 1 := Nat.mul_le_mul_right _ (by omega)
    have : 0 < max f 1 := by omega
    omega
  rw [h0, this]
  decide +kernel

theorem padLeft_column (n : Nat) (s : List Char) : InColumn n s (padLeft n s) :=
  ⟨_, rfl, fun _ h => List.eq_of_mem_replicate h, by simp only [padLeft, List.length_append, List.length_replicate]; omega⟩

/-! The characters of the texts. -/

/-- Visible characters and spaces. -/
def Plain (s : List Char) : Prop := ∀ c ∈ s, 32 ≤ c.toNat ∧ c.toNat ≤ 126

theorem Plain.append {a b : List Char} (ha : Plain a) (hb : Plain b) : Plain (a ++ b) := fun c h =>
  (List.mem_append.1 h).elim (ha c) (hb c)

theorem Plain.cons {c : Char} {a : List Char} (hc : 32 ≤ c.toNat ∧ c.toNat ≤ 126) (ha : Plain a) : Plain (c :: a) := fun d h => by
  rcases List.mem_cons.1 h with rfl | h
  · exact hc
  · exact ha d h

theorem plain_decimal {l : List Char} {n : Nat} (h : Decimal l n) : Plain l := fun c hc => by
  have := h.digits c hc
  omega

theorem plain_twoDigits {l : List Char} {n : Nat} (h : TwoDigits l n) : Plain l := fun c hc => by
  have := h.digits c hc
  omega

theorem plain_size {n : Nat} {t : List Char} (h : SizeShown n t) : Plain t := by
  cases h with
  | exact t h1 h2 => exact (plain_decimal h2).append (by unfold Plain; decide)
  | scaled k a b ta tb h1 h2 h3 h4 h5 h6 =>
    refine ((plain_decimal h5).append ?_).append ?_
    · exact .cons (by decide) (plain_twoDigits h6)
    · refine .cons (by decide) ?_
      have : k = 1 ∨ k = 2 ∨ k = 3 ∨ k = 4 ∨ k = 5 ∨ k = 6 := by omega
      rcases this with rfl | rfl | rfl | rfl | rfl | rfl <;> (unfold Plain unitName; decide)

theorem plain_clock {n : Nat} {t : List Char} (h : Clock n t) : Plain t := by
  cases h with
  | short m s tm ts _ _ _ h1 h2 => exact (plain_decimal h1).append (.cons (by decide) (plain_twoDigits h2))
  | long h m s th tm ts _ _ _ _ h1 h2 h3 =>
    exact ((plain_decimal h1).append (.cons (by decide) (plain_twoDigits h2))).append (.cons (by decide) (plain_twoDigits h3))

theorem plain_column {n : Nat} {s t : List Char} (h : InColumn n s t) (hs : Plain s) : Plain t := by
  obtain ⟨pad, rfl, hp, -⟩ := h
  exact Plain.append (fun c hc => by rw [hp c hc]; decide) hs

theorem plain_percent {w s : Nat} {t : List Char} (h : PercentShown w s t) : Plain t := by
  obtain ⟨a, b, ta, tb, rfl, h1, h2, -⟩ := h
  exact (plain_decimal h1).append (.cons (by decide) (plain_decimal h2))

theorem plain_line {f : Option Nat} {l : Line} {pct size speed eta text : List Char}
    (h : LineShown f l pct size speed eta text) : Plain text := by
  obtain ⟨c1, c2, c3, h1, h2, h3, rfl⟩ := h.layout
  have hp : Plain pct := by
    cases f with
    | none => rw [h.unknown rfl]; unfold Plain; decide
    | some n => exact plain_percent (h.percent n rfl)
  have hs : Plain speed := by
    cases hv : l.speed with
    | none => rw [h.no_speed hv]; unfold Plain; decide
    | some v =>
      obtain ⟨t, h4, h5⟩ := h.speed v hv
      rw [h5]
      exact (plain_size h4).append (by unfold Plain; decide)
  have he : Plain eta := by
    cases hv : l.eta with
    | none => rw [h.no_eta hv]; unfold Plain; decide
    | some v =>
      obtain ⟨t, h4, h5⟩ := h.eta v hv
      rw [h5]
      exact (Plain.append (by unfold Plain; decide) (plain_clock h4)).append (by unfold Plain; decide)
  refine Plain.append (Plain.append (Plain.append (Plain.append (Plain.append (Plain.append (Plain.append ?_ ?_) ?_) ?_) ?_) ?_) ?_) he
  · unfold Plain; decide
  · exact plain_column h1 hp
  · unfold Plain; decide
  · exact plain_column h2 (plain_size h.size)
  · unfold Plain; decide
  · exact plain_column h3 hs
  · unfold Plain; decide

/-! The lines of the display can be formatted. -/

/-- The numbers of a line are 64-bit numbers, and not more than the size of the file. -/
def Fits (f : Option Nat) (l : Line) : Prop :=
  l.written < 2 ^ 64 ∧ (∀ v, l.speed = some v → v < 2 ^ 64) ∧ ∀ n, f = some n → l.written ≤ n

theorem wrap64_lt (n : Nat) : wrap64 n < 2 ^ 64 := Nat.mod_lt _ (by decide)

theorem printProgressLine_fits {s s' : Printer} {l : Line} (hs : ∀ m ∈ s.stamps, m.2 < 2 ^ 64)
    (h : s.printProgressLine = .ok (s', l)) : Fits s.filesize l ∧ s' = { s with printed := true } := by
  unfold Printer.printProgressLine at h
  split at h
  · rename_i first last h1 h2
    obtain ⟨speed, h3, h⟩ := Res.bind_eq_ok.1 h
    obtain ⟨eta, h4, h⟩ := Res.bind_eq_ok.1 h
    cases h
    have hl : last.2 < 2 ^ 64 := hs last (List.mem_of_getLast? h2)
    refine ⟨⟨?_, ?_, ?_⟩, rfl⟩
    · simp only [shownBytes]
      split
      · split <;> omega
      · exact hl
    · rintro v rfl
      unfold measuredSpeed at h3
      obtain ⟨d, h5, h3⟩ := Res.bind_eq_ok.1 h3
      split at h3
      · cases h3
        exact lt_of_le_of_lt (Nat.div_le_self _ _) (wrap64_lt _)
      · cases h3
    · rintro n hn
      simp only [shownBytes, hn]
      split <;> omega
  · cases h

theorem printProgress_fits {s s' : Printer} {b now : Nat} {ol : Option Line} (hs : ∀ m ∈ s.stamps, m.2 < 2 ^ 64)
    (h : s.printProgress b now = .ok (s', ol)) :
    (∀ l, ol = some l → Fits s.filesize l) ∧ (∀ m ∈ s'.stamps, m.2 < 2 ^ 64) ∧ s'.filesize = s.filesize := by
  unfold Printer.printProgress at h
  obtain ⟨e, h1, h⟩ := Res.bind_eq_ok.1 h
  split at h
  · split at h
    · cases h
    · cases h
      refine ⟨by rintro l ⟨⟩, ?_, rfl⟩
      intro m hm
      rcases List.mem_append.1 hm with hm | hm
      · exact hs m (List.mem_of_mem_dropLast hm)
      · rw [List.mem_singleton.1 hm]
        exact wrap64_lt _
  · obtain ⟨⟨s2, l⟩, h2, h⟩ := Res.bind_eq_ok.1 h
    cases h
    have hst : ∀ m ∈ (if (s.stamps ++ [(now, wrap64 (s.written + b))]).length > keepStampsCount
        then (s.stamps ++ [(now, wrap64 (s.written + b))]).tail else s.stamps ++ [(now, wrap64 (s.written + b))]), m.2 < 2 ^ 64 := by
      have hall : ∀ m ∈ s.stamps ++ [(now, wrap64 (s.written + b))], m.2 < 2 ^ 64 := by
        intro m hm
        rcases List.mem_append.1 hm with hm | hm
        · exact hs m hm
        · rw [List.mem_singleton.1 hm]
          exact wrap64_lt _
      intro m hm
      split at hm
      · exact hall m (List.mem_of_mem_tail hm)
      · exact hall m hm
    obtain ⟨h3, h4⟩ := printProgressLine_fits hst h2
    subst h4
    exact ⟨by rintro l ⟨⟩; exact h3, hst, rfl⟩

theorem run_fits (calls : List (Nat × Nat)) (s s' : Printer) (ls : List Line) (hs : ∀ m ∈ s.stamps, m.2 < 2 ^ 64)
    (hr : s.run calls = .ok (s', ls)) :
    (∀ l ∈ ls, Fits s.filesize l) ∧ (∀ m ∈ s'.stamps, m.2 < 2 ^ 64) ∧ s'.filesize = s.filesize := by
  induction calls generalizing s s' ls with
  | nil =>
    cases hr
    exact ⟨by simp, hs, rfl⟩
  | cons c rest ih =>
    obtain ⟨b, now⟩ := c
    rw [Printer.run] at hr
    obtain ⟨⟨s1, ol⟩, h3, hr⟩ := Res.bind_eq_ok.1 hr
    obtain ⟨⟨s2, ls2⟩, h4, hr⟩ := Res.bind_eq_ok.1 hr
    cases hr
    obtain ⟨h5, h6, h7⟩ := printProgress_fits hs h3
    obtain ⟨h8, h9, h10⟩ := ih _ _ _ h6 h4
    refine ⟨?_, h9, h10.trans h7⟩
    intro l hl
    rcases List.mem_append.1 hl with hl | hl
    · exact h5 l (Option.mem_toList.1 hl)
    · rw [← h7]; exact h8 l hl

theorem run_snoc {s s' s'' : Printer} {calls : List (Nat × Nat)} {ls : List Line} {b now : Nat} {ol : Option Line}
    (h : s.run calls = .ok (s', ls)) (h2 : s'.printProgress b now = .ok (s'', ol)) :
    s.run (calls ++ [(b, now)]) = .ok (s'', ls ++ ol.toList) := by
  induction calls generalizing s ls with
  | nil =>
    cases h
    rw [List.nil_append, Printer.run, h2, Res.bind_ok]
    simp [Printer.run, Res.pure_def]
  | cons c rest ih =>
    obtain ⟨b', now'⟩ := c
    rw [Printer.run] at h
    obtain ⟨⟨s1, ol1⟩, h3, h⟩ := Res.bind_eq_ok.1 h
    obtain ⟨⟨s2, ls2⟩, h4, h⟩ := Res.bind_eq_ok.1 h
    cases h
    rw [List.cons_append, Printer.run, h3, Res.bind_ok]
    simp only [ih h4, Res.bind_ok, Res.pure_def, List.append_assoc]

end Rypt.Progress
