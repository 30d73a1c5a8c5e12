import Verif.Model.Text
import Mathlib.Tactic.SplitIfs

/-! Facts about the standard-library string functions: UTF-8, trimming, lines. -/

namespace Rypt.Text

theorem char_ofNat_toNat (c : Char) : Char.ofNat c.toNat = c := by
  simp

theorem char_toNat_ofNat {n : Nat} (h : n.isValidChar) : (Char.ofNat n).toNat = n := by
  rw [Char.ofNat, dif_pos h]; rfl

theorem char_range (c : Char) : c.toNat < 0xD800 ∨ (0xDFFF < c.toNat ∧ c.toNat < 0x110000) := by
  exact c.valid

theorem char_ext {c d : Char} (h : c.toNat = d.toNat) : c = d := by
  rw [← char_ofNat_toNat c, h, char_ofNat_toNat]

theorem ofNat_toNat8 {n : Nat} (h : n < 256) : (UInt8.ofNat n).toNat = n := by
  simp [UInt8.toNat_ofNat', Nat.mod_eq_of_lt h]

@[simp] theorem encode_nil : encode [] = [] := rfl
@[simp] theorem encode_cons (c : Char) (s : List Char) : encode (c :: s) = encodeChar c ++ encode s := by
  simp [encode]
theorem encode_append (s t : List Char) : encode (s ++ t) = encode s ++ encode t := by
  simp [encode]

theorem encodeChar_ne_nil (c : Char) : encodeChar c ≠ [] := by
  simp only [encodeChar]; split_ifs <;> simp

theorem fromUtf8_1 (b : UInt8) (rest : Bytes) (h : b.toNat < 0x80) :
    fromUtf8 (b :: rest) = (fromUtf8 rest).cons (Char.ofNat b.toNat) := by
  rw [fromUtf8.eq_def]
  simp only [if_pos h]

theorem fromUtf8_2 (b c : UInt8) (rest : Bytes) (h : 0xC2 ≤ b.toNat ∧ b.toNat ≤ 0xDF) (hc : isCont c = true) :
    fromUtf8 (b :: c :: rest) = (fromUtf8 rest).cons (Char.ofNat ((b.toNat - 0xC0) * 64 + (c.toNat - 0x80))) := by
  rw [fromUtf8.eq_def]
  simp only [if_pos h, hc, if_true]
  rw [if_neg (by omega)]

theorem fromUtf8_3 (b c d : UInt8) (rest : Bytes) (h : 0xE0 ≤ b.toNat ∧ b.toNat ≤ 0xEF) (hc : second3 b c = true)
    (hd : isCont d = true) :
    fromUtf8 (b :: c :: d :: rest) =
      (fromUtf8 rest).cons (Char.ofNat ((b.toNat - 0xE0) * 4096 + (c.toNat - 0x80) * 64 + (d.toNat - 0x80))) := by
  rw [fromUtf8.eq_def]
  simp only [if_pos h, hc, hd, if_true]
  rw [if_neg (by omega), if_neg (by omega)]

theorem fromUtf8_4 (b c d e : UInt8) (rest : Bytes) (h : 0xF0 ≤ b.toNat ∧ b.toNat ≤ 0xF4)
    (hc : second4 b c = true) (hd : isCont d = true) (he : isCont e = true) :
    fromUtf8 (b :: c :: d :: e :: rest) =
      (fromUtf8 rest).cons (Char.ofNat ((b.toNat - 0xF0) * 262144 + (c.toNat - 0x80) * 4096 +
        (d.toNat - 0x80) * 64 + (e.toNat - 0x80))) := by
  rw [fromUtf8.eq_def]
  simp only [if_pos h, hc, hd, he, if_true]
  rw [if_neg (by omega), if_neg (by omega), if_neg (by omega)]

/-- Decoding a character followed by anything. -/
theorem fromUtf8_encodeChar_append (c : Char) (rest : Bytes) :
    fromUtf8 (encodeChar c ++ rest) = (fromUtf8 rest).cons c := by
  have hr := char_range c
  simp only [encodeChar]
  split_ifs with h1 h2 h3
  · have e1 := @ofNat_toNat8 c.toNat (by omega)
    rw [List.singleton_append, fromUtf8_1 _ _ (by omega), e1, char_ofNat_toNat]
  · have e1 := @ofNat_toNat8 (0xC0 + c.toNat / 64) (by omega)
    have e2 := @ofNat_toNat8 (0x80 + c.toNat % 64) (by omega)
    simp only [List.cons_append, List.nil_append]
    rw [fromUtf8_2 _ _ _ (by omega) (by simp only [isCont, Bool.and_eq_true, decide_eq_true_eq]; omega), e1, e2]
    rw [show (192 + c.toNat / 64 - 192) * 64 + (128 + c.toNat % 64 - 128) = c.toNat by omega, char_ofNat_toNat]
  · have e1 := @ofNat_toNat8 (0xE0 + c.toNat / 4096) (by omega)
    have e2 := @ofNat_toNat8 (0x80 + c.toNat / 64 % 64) (by omega)
    have e3 := @ofNat_toNat8 (0x80 + c.toNat % 64) (by omega)
    simp only [List.cons_append, List.nil_append]
    rw [fromUtf8_3 _ _ _ _ (by omega)
      (by simp only [second3, Bool.and_eq_true, decide_eq_true_eq, Bool.or_eq_true, beq_iff_eq]; omega)
      (by simp only [isCont, Bool.and_eq_true, decide_eq_true_eq]; omega), e1, e2, e3]
    rw [show (224 + c.toNat / 4096 - 224) * 4096 + (128 + c.toNat / 64 % 64 - 128) * 64 +
      (128 + c.toNat % 64 - 128) = c.toNat by omega, char_ofNat_toNat]
  · have e1 := @ofNat_toNat8 (0xF0 + c.toNat / 262144) (by omega)
    have e2 := @ofNat_toNat8 (0x80 + c.toNat / 4096 % 64) (by omega)
    have e3 := @ofNat_toNat8 (0x80 + c.toNat / 64 % 64) (by omega)
    have e4 := @ofNat_toNat8 (0x80 + c.toNat % 64) (by omega)
    simp only [List.cons_append, List.nil_append]
    rw [fromUtf8_4 _ _ _ _ _ (by omega)
      (by simp only [second4, Bool.and_eq_true, decide_eq_true_eq, Bool.or_eq_true, beq_iff_eq]; omega)
      (by simp only [isCont, Bool.and_eq_true, decide_eq_true_eq]; omega)
      (by simp only [isCont, Bool.and_eq_true, decide_eq_true_eq]; omega), e1, e2, e3, e4]
    rw [show (240 + c.toNat / 262144 - 240) * 262144 + (128 + c.toNat / 4096 % 64 - 128) * 4096 +
      (128 + c.toNat / 64 % 64 - 128) * 64 + (128 + c.toNat % 64 - 128) = c.toNat by omega, char_ofNat_toNat]

/-- Encoding and decoding text. -/
theorem fromUtf8_encode (s : List Char) : fromUtf8 (encode s) = .ok s := by
  induction s with
  | nil => rfl
  | cons c s ih => rw [encode_cons, fromUtf8_encodeChar_append, ih]; rfl

theorem encodeChar_ofNat_1 {n : Nat} (h : n < 0x80) : encodeChar (Char.ofNat n) = [UInt8.ofNat n] := by
  have : (Char.ofNat n).toNat = n := char_toNat_ofNat (Or.inl (by omega))
  simp only [encodeChar, this]
  rw [if_pos h]

theorem encodeChar_ofNat_2 {n : Nat} (h0 : 0x80 ≤ n) (h : n < 0x800) :
    encodeChar (Char.ofNat n) = [UInt8.ofNat (0xC0 + n / 64), UInt8.ofNat (0x80 + n % 64)] := by
  have : (Char.ofNat n).toNat = n := char_toNat_ofNat (Or.inl (by omega))
  simp only [encodeChar, this]
  rw [if_neg (by omega), if_pos h]

theorem encodeChar_ofNat_3 {n : Nat} (h0 : 0x800 ≤ n) (h : n < 0x10000) (hv : n.isValidChar) :
    encodeChar (Char.ofNat n) =
      [UInt8.ofNat (0xE0 + n / 4096), UInt8.ofNat (0x80 + n / 64 % 64), UInt8.ofNat (0x80 + n % 64)] := by
  have : (Char.ofNat n).toNat = n := char_toNat_ofNat hv
  simp only [encodeChar, this]
  rw [if_neg (by omega), if_neg (by omega), if_pos h]

theorem encodeChar_ofNat_4 {n : Nat} (h0 : 0x10000 ≤ n) (hv : n.isValidChar) :
    encodeChar (Char.ofNat n) =
      [UInt8.ofNat (0xF0 + n / 262144), UInt8.ofNat (0x80 + n / 4096 % 64), UInt8.ofNat (0x80 + n / 64 % 64),
        UInt8.ofNat (0x80 + n % 64)] := by
  have : (Char.ofNat n).toNat = n := char_toNat_ofNat hv
  simp only [encodeChar, this]
  rw [if_neg (by omega), if_neg (by omega), if_neg (by omega)]

theorem ofNat_eq {n : Nat} {b : UInt8} (h : n = b.toNat) : UInt8.ofNat n = b := by
  subst h; simp

theorem Utf8.cons_eq_ok {c : Char} {r : Utf8} {s : List Char} :
    r.cons c = .ok s ↔ ∃ t, r = .ok t ∧ s = c :: t := by
  cases r <;> simp [Utf8.cons, eq_comm]

theorem Utf8.cons_eq_err {c : Char} {r : Utf8} {e : Option Nat} : r.cons c = .err e ↔ r = .err e := by
  cases r <;> simp [Utf8.cons]

/-- Only encodings of text are accepted. -/
theorem encode_of_fromUtf8 (b : Bytes) (s : List Char) (h : fromUtf8 b = .ok s) : encode s = b := by
  fun_induction fromUtf8 b generalizing s with
  | case1 => cases h; rfl
  | case2 b rest hb ih =>
    obtain ⟨t, ht, rfl⟩ := Utf8.cons_eq_ok.1 h
    rw [encode_cons, encodeChar_ofNat_1 hb, ih t ht, ofNat_eq rfl]; rfl
  | case4 b h1 h2 c rest hc ih =>
    obtain ⟨t, ht, rfl⟩ := Utf8.cons_eq_ok.1 h
    simp only [isCont, Bool.and_eq_true, decide_eq_true_eq] at hc
    rw [encode_cons, encodeChar_ofNat_2 (by omega) (by omega), ih t ht]
    rw [ofNat_eq (b := b) (by omega), ofNat_eq (b := c) (by omega)]; rfl
  | case8 b h1 h2 h3 c hc d rest hd ih =>
    obtain ⟨t, ht, rfl⟩ := Utf8.cons_eq_ok.1 h
    simp only [isCont, second3, Bool.and_eq_true, decide_eq_true_eq, Bool.or_eq_true, beq_iff_eq] at hc hd
    rw [encode_cons, encodeChar_ofNat_3 (by omega) (by omega) (by simp only [Nat.isValidChar]; omega), ih t ht]
    rw [ofNat_eq (b := b) (by omega), ofNat_eq (b := c) (by omega), ofNat_eq (b := d) (by omega)]; rfl
  | case14 b h1 h2 h3 h4 c hc d hd e rest he ih =>
    obtain ⟨t, ht, rfl⟩ := Utf8.cons_eq_ok.1 h
    simp only [isCont, second4, Bool.and_eq_true, decide_eq_true_eq, Bool.or_eq_true, beq_iff_eq] at hc hd he
    rw [encode_cons, encodeChar_ofNat_4 (by omega) (by simp only [Nat.isValidChar]; omega), ih t ht]
    rw [ofNat_eq (b := b) (by omega), ofNat_eq (b := c) (by omega), ofNat_eq (b := d) (by omega),
      ofNat_eq (b := e) (by omega)]; rfl
  | _ => simp at h

theorem encode_injective {s t : List Char} (h : encode s = encode t) : s = t := by
  have := fromUtf8_encode s
  rw [h, fromUtf8_encode] at this
  cases this; rfl

/-- The model's encoding is the encoding of Lean's own strings. -/
theorem encodeChar_eq_core (c : Char) : encodeChar c = String.utf8EncodeChar c := by
  have hr := char_range c
  have hv : c.val.toNat = c.toNat := rfl
  simp only [encodeChar, String.utf8EncodeChar, hv]
  split_ifs <;> first | rfl | omega | skip
  · rw [show c.toNat / 64 % 32 + 192 = 192 + c.toNat / 64 by omega, Nat.add_comm 128]
  · rw [show c.toNat / 4096 % 16 + 224 = 224 + c.toNat / 4096 by omega, Nat.add_comm 128, Nat.add_comm 128]
  · rw [show c.toNat / 262144 % 8 + 240 = 240 + c.toNat / 262144 by omega, Nat.add_comm 128, Nat.add_comm 128,
      Nat.add_comm 128]

end Rypt.Text
