import Verif.Model.Hex
import Verif.Spec.Hex
import Verif.Proofs.Text
import Mathlib.Tactic.IntervalCases
import Mathlib.Data.List.Forall2

/-! Facts about the hex functions. -/

namespace Rypt.Hex

open Text Spec.Hex

theorem isDigit_lt {c : Char} {v : Nat} (h : IsDigit c v) : v < 16 := by
  rcases h with h | h <;> obtain ⟨h, -⟩ := List.getElem?_eq_some_iff.1 h <;> simpa using h

theorem toDigit16_of_isDigit {c : Char} {v : Nat} (h : IsDigit c v) : toDigit16 c = some v := by
  have hv := isDigit_lt h
  unfold IsDigit at h
  interval_cases v <;> simp at h <;> first | (subst h; rfl) | (rcases h with h | h <;> subst h <;> rfl)

theorem isDigit_of_toDigit16 {c : Char} {v : Nat} (h : toDigit16 c = some v) : IsDigit c v := by
  have hc := char_ofNat_toNat c
  simp only [toDigit16] at h
  rw [← hc]
  generalize c.toNat = n at *
  unfold IsDigit
  split_ifs at h with h1 h2 h3
  all_goals simp only [Option.some.injEq] at h; subst h
  · obtain ⟨h1, h2⟩ := h1; interval_cases n <;> decide
  · obtain ⟨h1, h2⟩ := h2; interval_cases n <;> decide
  · obtain ⟨h1, h2⟩ := h3; interval_cases n <;> decide

theorem toDigit16_iff {c : Char} {v : Nat} : toDigit16 c = some v ↔ IsDigit c v :=
  ⟨isDigit_of_toDigit16, toDigit16_of_isDigit⟩

theorem not_whitespace_of_digit {c : Char} {v : Nat} (h : toDigit16 c = some v) : isWhitespace c = false := by
  simp only [toDigit16] at h
  simp only [isWhitespace, Bool.or_eq_false_iff, Bool.and_eq_false_iff, decide_eq_false_iff_not, beq_eq_false_iff_ne]
  split_ifs at h <;> omega

theorem acc_eq {u v : Nat} (hu : u < 16) (hv : v < 16) :
    (((0 : UInt8) <<< 4 + UInt8.ofNat u) <<< 4 + UInt8.ofNat v) = UInt8.ofNat (u * 16 + v) := by
  interval_cases u <;> interval_cases v <;> rfl

theorem loop_space (res : Bytes) (c : Char) (s : List Char) (h : isWhitespace c = true) :
    parseHexLoop 0 0 res (c :: s) = parseHexLoop 0 0 res s := by
  rw [parseHexLoop]; simp [h]

theorem loop_pair (res : Bytes) (c d : Char) (u v : Nat) (s : List Char) (hc : toDigit16 c = some u)
    (hd : toDigit16 d = some v) :
    parseHexLoop 0 0 res (c :: d :: s) = parseHexLoop 0 0 (res ++ [UInt8.ofNat (u * 16 + v)]) s := by
  have hu := isDigit_lt (toDigit16_iff.1 hc)
  have hv := isDigit_lt (toDigit16_iff.1 hd)
  rw [parseHexLoop]
  simp only [not_whitespace_of_digit hc, hc]
  simp only [Bool.false_eq_true, and_false, if_false]
  rw [if_neg (by omega), parseHexLoop]
  simp only [hd, acc_eq hu hv]
  simp

theorem loop_append (s t : List Char) (b res : Bytes) (h : HexText s b) :
    parseHexLoop 0 0 res (s ++ t) = parseHexLoop 0 0 (res ++ b) t := by
  induction h generalizing res with
  | nil => simp
  | space c s b hc _ ih => rw [List.cons_append, loop_space _ _ _ hc, ih]
  | byte c d x s b hc hd _ ih =>
    have hx : UInt8.ofNat (x.toNat / 16 * 16 + x.toNat % 16) = x := by
      rw [Nat.div_add_mod' x.toNat 16]; simp
    rw [List.cons_append, List.cons_append, loop_pair _ _ _ _ _ _ (toDigit16_iff.2 hc) (toDigit16_iff.2 hd), hx, ih]
    simp

/-- How a text can go on after its longest well-formed part. -/
inductive Rest : List Char → Prop where
  | nil : Rest []
  | odd (d : Char) (v : Nat) : IsDigit d v → Rest [d]
  | bad (c : Char) (t : List Char) : (∀ v, ¬ IsDigit c v) → isWhitespace c = false → Rest (c :: t)
  | bad2 (d c : Char) (v : Nat) (t : List Char) : IsDigit d v → (∀ v, ¬ IsDigit c v) → Rest (d :: c :: t)

theorem decompose (s : List Char) : ∃ s0 b t, s = s0 ++ t ∧ HexText s0 b ∧ Rest t := by
  generalize hn : s.length = n
  induction n using Nat.strong_induction_on generalizing s with
  | _ n ih =>
    cases s with
    | nil => exact ⟨[], [], [], rfl, .nil, .nil⟩
    | cons c s =>
      by_cases hw : isWhitespace c = true
      · obtain ⟨s0, b, t, rfl, h, hr⟩ := ih s.length (by simp at hn; omega) s rfl
        exact ⟨c :: s0, b, t, rfl, .space c s0 b hw h, hr⟩
      · simp only [Bool.not_eq_true] at hw
        cases hc : toDigit16 c with
        | none =>
          exact ⟨[], [], c :: s, rfl, .nil, .bad c s (fun v hv => by simp [toDigit16_iff.2 hv] at hc) hw⟩
        | some u =>
          cases s with
          | nil => exact ⟨[], [], [c], rfl, .nil, .odd c u (toDigit16_iff.1 hc)⟩
          | cons d s =>
            cases hd : toDigit16 d with
            | none =>
              exact ⟨[], [], c :: d :: s, rfl, .nil,
                .bad2 c d u s (toDigit16_iff.1 hc) (fun v hv => by simp [toDigit16_iff.2 hv] at hd)⟩
            | some v =>
              obtain ⟨s0, b, t, rfl, h, hr⟩ := ih s.length (by simp at hn; omega) s rfl
              have hu := isDigit_lt (toDigit16_iff.1 hc)
              have hv := isDigit_lt (toDigit16_iff.1 hd)
              refine ⟨c :: d :: s0, UInt8.ofNat (u * 16 + v) :: b, t, rfl, .byte c d _ s0 b ?_ ?_ h, hr⟩
              · rw [ofNat_toNat8 (by omega), show (u * 16 + v) / 16 = u by omega]; exact toDigit16_iff.1 hc
              · rw [ofNat_toNat8 (by omega), show (u * 16 + v) % 16 = v by omega]; exact toDigit16_iff.1 hd

theorem loop_bad (res : Bytes) (c : Char) (t : List Char) (h : ∀ v, ¬ IsDigit c v) (hw : isWhitespace c = false) :
    parseHexLoop 0 0 res (c :: t) = .error (.invalidChar c) := by
  have hc : toDigit16 c = none := by
    cases hc : toDigit16 c with
    | none => rfl
    | some v => exact absurd (toDigit16_iff.1 hc) (h v)
  rw [parseHexLoop]; simp [hw, hc]

theorem loop_odd (res : Bytes) (d : Char) (v : Nat) (t : List Char) (hd : IsDigit d v) :
    parseHexLoop 0 0 res (d :: t) = parseHexLoop (UInt8.ofNat v) 1 res t := by
  rw [parseHexLoop]
  simp [not_whitespace_of_digit (toDigit16_iff.2 hd), toDigit16_iff.2 hd]

theorem loop_bad2 (res : Bytes) (d c : Char) (v : Nat) (t : List Char) (hd : IsDigit d v) (h : ∀ v, ¬ IsDigit c v) :
    parseHexLoop 0 0 res (d :: c :: t) = .error (.invalidChar c) := by
  have hc : toDigit16 c = none := by
    cases hc : toDigit16 c with
    | none => rfl
    | some v => exact absurd (toDigit16_iff.1 hc) (h v)
  rw [loop_odd _ _ _ _ hd, parseHexLoop]; simp [hc]

theorem parse_ok_iff (s : List Char) (b : Bytes) : tryParseHexString s = .ok b ↔ HexText s b := by
  constructor
  · intro h
    obtain ⟨s0, b', t, rfl, h0, ht⟩ := decompose s
    rw [tryParseHexString, loop_append _ _ _ _ h0] at h
    cases ht with
    | nil =>
      simp [parseHexLoop] at h
      subst h; simpa using h0
    | odd d v hd => rw [loop_odd _ _ _ _ hd] at h; simp [parseHexLoop] at h
    | bad c t hc hw => rw [loop_bad _ _ _ hc hw] at h; simp at h
    | bad2 d c v t hd hc => rw [loop_bad2 _ _ _ _ _ hd hc] at h; simp at h
  · intro h
    have := loop_append s [] b [] h
    rw [List.append_nil] at this
    rw [tryParseHexString, this]; simp [parseHexLoop]

/-- The half bytes of a byte string. -/
def nibbles (b : Bytes) : List Nat := b.flatMap (fun x => [x.toNat / 16, x.toNat % 16])

theorem toHexString_eq (b : Bytes) : toHexString b = (nibbles b).map hexChar := by
  simp [toHexString, nibbles, List.map_flatMap]

theorem nibbles_lt {b : Bytes} {n : Nat} (h : n ∈ nibbles b) : n < 16 := by
  simp only [nibbles, List.mem_flatMap, List.mem_cons, List.not_mem_nil, or_false] at h
  obtain ⟨x, -, rfl | rfl⟩ := h
  · have := x.toNat_lt; omega
  · omega

theorem nibbles_length (b : Bytes) : (nibbles b).length = 2 * b.length := by
  induction b with
  | nil => rfl
  | cons x b ih => simp only [nibbles, List.flatMap_cons] at *; simp [ih]; omega

theorem nibbles_getElem? (b : Bytes) (i : Nat) :
    (nibbles b)[i]? = (b[i / 2]?).map (fun x => if i % 2 = 0 then x.toNat / 16 else x.toNat % 16) := by
  induction b generalizing i with
  | nil => simp [nibbles]
  | cons x b ih =>
    have : nibbles (x :: b) = x.toNat / 16 :: x.toNat % 16 :: nibbles b := by simp [nibbles]
    rw [this]
    match i with
    | 0 => simp
    | 1 => simp
    | i + 2 =>
      rw [List.getElem?_cons_succ, List.getElem?_cons_succ, ih, show (i + 2) / 2 = i / 2 + 1 by omega,
        List.getElem?_cons_succ, show (i + 2) % 2 = i % 2 by omega]

/-- Without the whitespace, a hex text is the half bytes digit by digit. -/
theorem digits_of_hexText {s : List Char} {b : Bytes} (h : HexText s b) :
    List.Forall₂ IsDigit (removeWhitespace s) (nibbles b) := by
  induction h with
  | nil => simp [removeWhitespace, nibbles]
  | space c s b hc _ ih => simpa [removeWhitespace, hc] using ih
  | byte c d x s b hc hd _ ih =>
    have h1 := not_whitespace_of_digit (toDigit16_iff.2 hc)
    have h2 := not_whitespace_of_digit (toDigit16_iff.2 hd)
    have h3 : removeWhitespace (c :: d :: s) = c :: d :: removeWhitespace s := by simp [removeWhitespace, h1, h2]
    have h4 : nibbles (x :: b) = x.toNat / 16 :: x.toNat % 16 :: nibbles b := by simp [nibbles]
    rw [h3, h4]
    exact .cons hc (.cons hd ih)

theorem hexText_of_digits {s : List Char} {b : Bytes} (h : List.Forall₂ IsDigit s (nibbles b)) : HexText s b := by
  induction b generalizing s with
  | nil => simp [nibbles] at h; subst h; exact .nil
  | cons x b ih =>
    have h4 : nibbles (x :: b) = x.toNat / 16 :: x.toNat % 16 :: nibbles b := by simp [nibbles]
    rw [h4] at h
    cases h with
    | cons hc h => cases h with
      | cons hd h => exact .byte _ _ x _ b hc hd (ih h)

theorem isDigit_hexChar {n : Nat} (h : n < 16) : IsDigit (hexChar n) n := by
  unfold IsDigit; interval_cases n <;> decide +kernel

theorem toHexString_hexText (b : Bytes) : HexText (toHexString b) b := by
  apply hexText_of_digits
  rw [toHexString_eq, List.forall₂_map_left_iff]
  exact List.forall₂_same.2 fun n hn => isDigit_hexChar (nibbles_lt hn)

theorem hexText_unique {s : List Char} {b b' : Bytes} (h : HexText s b) (h' : HexText s b') : b = b' := by
  have h1 := (parse_ok_iff s b).2 h
  rw [(parse_ok_iff s b').2 h'] at h1
  cases h1; rfl

/-- The checksummed text, character by character. -/
def checkChar (bit : Bool) (n : Nat) : Char :=
  if bit then toAsciiUppercase (hexChar n) else toAsciiLowercase (hexChar n)

theorem le_hexChar {n : Nat} (h : n < 16) : '8' ≤ hexChar n ↔ 8 ≤ n := by
  interval_cases n <;> decide +kernel

theorem checksummed_getElem? (sha512 : Bytes → Bytes) (b : Bytes) (hne : sha512 b ≠ []) (i : Nat) :
    (toHexStringChecksummed sha512 b)[i]? = (nibbles b)[i]?.map (checkChar (checkBit (sha512 b) i)) := by
  have hlen : (toHexString (sha512 b)).length = 2 * (sha512 b).length := by
    rw [toHexString_eq, List.length_map, nibbles_length]
  have hpos : 0 < (sha512 b).length := List.length_pos_iff.2 hne
  simp only [toHexStringChecksummed]
  rw [if_neg (by omega), List.getElem?_map, List.getElem?_zipIdx]
  rw [toHexString_eq b, List.getElem?_map]
  cases hn : (nibbles b)[i]? with
  | none => simp
  | some n =>
    simp only [Option.map_some, Option.some.injEq, Nat.zero_add]
    have hlt : (i / 2) % (sha512 b).length < (sha512 b).length := Nat.mod_lt _ hpos
    have hmod2 : i % (2 * (sha512 b).length) % 2 = i % 2 := Nat.mod_mul_right_mod i 2 _
    have hdiv : i % (2 * (sha512 b).length) / 2 = (i / 2) % (sha512 b).length := Nat.mod_mul_right_div_self i 2 _
    have hbit : checkBit (sha512 b) i =
        if i % 2 = 0 then ((sha512 b)[(i / 2) % (sha512 b).length]).toNat.testBit 7
        else ((sha512 b)[(i / 2) % (sha512 b).length]).toNat.testBit 3 := by
      simp only [checkBit, List.getElem?_eq_getElem hlt]
    rw [hlen, toHexString_eq (sha512 b), List.getElem?_map, nibbles_getElem?, hdiv, hmod2,
      List.getElem?_eq_getElem hlt]
    simp only [Option.map_some]
    rw [hbit]
    generalize (sha512 b)[(i / 2) % (sha512 b).length] = x
    have hx := x.toNat_lt
    have t7 : x.toNat.testBit 7 = decide (8 ≤ x.toNat / 16) := by
      rw [Nat.testBit_eq_decide_div_mod_eq]
      congr 1; apply propext; omega
    have t3 : x.toNat.testBit 3 = decide (8 ≤ x.toNat % 16) := by
      rw [Nat.testBit_eq_decide_div_mod_eq]
      congr 1; apply propext; omega
    rw [t7, t3]
    by_cases h1 : i % 2 = 0
    · simp only [h1, if_true, checkChar, decide_eq_true_eq, le_hexChar (show x.toNat / 16 < 16 by omega)]
    · simp only [h1, if_false, checkChar, decide_eq_true_eq, le_hexChar (show x.toNat % 16 < 16 by omega)]

theorem isDigit_chars {c : Char} {n : Nat} (h : IsDigit c n) : n < 16 ∧ (c = checkChar true n ∨ c = checkChar false n) := by
  have hn := isDigit_lt h
  refine ⟨hn, ?_⟩
  unfold IsDigit at h
  interval_cases n <;> simp at h <;> first | (subst h; decide +kernel) | (rcases h with h | h <;> subst h <;> decide +kernel)

theorem isDigit_checkChar {n : Nat} (h : n < 16) (bit : Bool) : IsDigit (checkChar bit n) n := by
  unfold IsDigit; interval_cases n <;> cases bit <;> decide +kernel

/-- A digit has the right case iff it is the character the checksum asks for. -/
theorem case_iff {c : Char} {n : Nat} (h : IsDigit c n) (bit : Bool) :
    c = checkChar bit n ↔ (c ∈ ['a', 'b', 'c', 'd', 'e', 'f'] → bit = false) ∧
      (c ∈ ['A', 'B', 'C', 'D', 'E', 'F'] → bit = true) := by
  obtain ⟨hn, h⟩ := isDigit_chars h
  interval_cases n <;> cases bit <;> rcases h with h | h <;> subst h <;> decide +kernel

theorem checksummed_length (sha512 : Bytes → Bytes) (b : Bytes) (hne : sha512 b ≠ []) :
    (toHexStringChecksummed sha512 b).length = 2 * b.length := by
  have hlen : (toHexString (sha512 b)).length = 2 * (sha512 b).length := by
    rw [toHexString_eq, List.length_map, nibbles_length]
  have hpos : 0 < (sha512 b).length := List.length_pos_iff.2 hne
  simp only [toHexStringChecksummed]
  rw [if_neg (by omega), List.length_map, List.length_zipIdx, toHexString_eq, List.length_map, nibbles_length]

theorem checksummed_hexText (sha512 : Bytes → Bytes) (b : Bytes) (hne : sha512 b ≠ []) :
    HexText (toHexStringChecksummed sha512 b) b := by
  apply hexText_of_digits
  rw [List.forall₂_iff_get]
  refine ⟨by rw [checksummed_length _ _ hne, nibbles_length], fun i h1 h2 => ?_⟩
  have h := checksummed_getElem? sha512 b hne i
  rw [List.getElem?_eq_getElem h1, List.getElem?_eq_getElem h2, Option.map_some, Option.some.injEq] at h
  simp only [List.get_eq_getElem, h]
  exact isDigit_checkChar (nibbles_lt (List.getElem_mem h2)) _

theorem checksummed_ok_iff (sha512 : Bytes → Bytes) (s : List Char) (b : Bytes) (hne : sha512 b ≠ []) :
    tryParseHexStringChecksummed sha512 s = .ok b ↔ HexText s b ∧ CaseMatches (sha512 b) (removeWhitespace s) := by
  have hmain : HexText s b → (toHexStringChecksummed sha512 b = removeWhitespace s ↔
      CaseMatches (sha512 b) (removeWhitespace s)) := by
    intro h
    have hd := digits_of_hexText h
    have hlen := hd.length_eq
    constructor
    · intro he i c hc
      rw [← he, checksummed_getElem? _ _ hne] at hc
      cases hn : (nibbles b)[i]? with
      | none => simp [hn] at hc
      | some n =>
        simp only [hn, Option.map_some, Option.some.injEq] at hc
        have hlt := nibbles_lt (List.mem_of_getElem? hn)
        exact (case_iff (hc ▸ isDigit_checkChar hlt _) _).1 hc.symm
    · intro hm
      apply List.ext_getElem?
      intro i
      rw [checksummed_getElem? _ _ hne]
      by_cases hi : i < (nibbles b).length
      · have hi' : i < (removeWhitespace s).length := by omega
        rw [List.getElem?_eq_getElem hi, List.getElem?_eq_getElem hi', Option.map_some, Option.some.injEq]
        have hdig := (List.forall₂_iff_get.1 hd).2 i hi' hi
        simp only [List.get_eq_getElem] at hdig
        exact ((case_iff hdig _).2 (hm i _ (List.getElem?_eq_getElem hi'))).symm
      · rw [List.getElem?_eq_none (by omega), List.getElem?_eq_none (by omega)]; rfl
  unfold tryParseHexStringChecksummed
  constructor
  · intro h
    cases hp : tryParseHexString s with
    | error e => simp [hp] at h
    | ok b' =>
      simp only [hp] at h
      split_ifs at h with hc
      cases h
      have ht := (parse_ok_iff s b).1 hp
      exact ⟨ht, (hmain ht).1 (not_not.1 hc)⟩
  · rintro ⟨ht, hm⟩
    rw [(parse_ok_iff s b).2 ht]
    simp [(hmain ht).2 hm]

theorem toLower_toNat (c : Char) :
    c.toLower.toNat = if 65 ≤ c.toNat ∧ c.toNat ≤ 90 then c.toNat + 32 else c.toNat := by
  have hv : ∀ n : UInt32, c.val = n ↔ c.toNat = n.toNat := fun n => UInt32.toNat_inj.symm
  simp only [Char.toLower]
  split_ifs with h1 h2 h2
  · have : c.val.toNat = c.toNat := rfl
    simp only [Char.toNat]
    simp [UInt32.toNat_add, this]; omega
  · exact absurd ⟨UInt32.le_iff_toNat_le.1 h1.1, UInt32.le_iff_toNat_le.1 h1.2⟩ h2
  · exact absurd ⟨UInt32.le_iff_toNat_le.2 h2.1, UInt32.le_iff_toNat_le.2 h2.2⟩ h1
  · rfl

theorem toDigit16_toLower (c : Char) : toDigit16 c.toLower = toDigit16 c := by
  simp only [toDigit16, toLower_toNat]
  split_ifs <;> first | rfl | omega

theorem isWhitespace_toLower (c : Char) : isWhitespace c.toLower = isWhitespace c := by
  rw [Bool.eq_iff_iff]
  simp only [isWhitespace, toLower_toNat, Bool.or_eq_true, Bool.and_eq_true, decide_eq_true_eq, beq_iff_eq]
  split_ifs <;> omega

theorem toLower_of_whitespace {c : Char} (h : isWhitespace c = true) : c.toLower = c := by
  apply char_ext
  rw [toLower_toNat, if_neg]
  simp only [isWhitespace, Bool.or_eq_true, Bool.and_eq_true, decide_eq_true_eq, beq_iff_eq] at h
  omega

theorem hexText_sameLetters {s t : List Char} {b : Bytes} (h : HexText s b) (hst : SameLetters s t) : HexText t b := by
  unfold SameLetters at hst
  induction h generalizing t with
  | nil =>
    cases t with
    | nil => exact .nil
    | cons => simp at hst
  | space c s b hc _ ih =>
    cases t with
    | nil => simp at hst
    | cons d t =>
      simp only [List.map_cons, List.cons.injEq] at hst
      refine .space d t b ?_ (ih hst.2)
      rw [← isWhitespace_toLower, ← hst.1, isWhitespace_toLower]; exact hc
  | byte c d x s b hc hd _ ih =>
    match t, hst with
    | [], hst => simp at hst
    | [_], hst => simp at hst
    | c' :: d' :: t, hst =>
      simp only [List.map_cons, List.cons.injEq] at hst
      refine .byte c' d' x t b ?_ ?_ (ih hst.2.2)
      · rw [← toDigit16_iff, ← toDigit16_toLower, ← hst.1, toDigit16_toLower, toDigit16_iff]; exact hc
      · rw [← toDigit16_iff, ← toDigit16_toLower, ← hst.2.1, toDigit16_toLower, toDigit16_iff]; exact hd

theorem eq_of_removeWhitespace {s t : List Char} (hst : SameLetters s t)
    (h : removeWhitespace s = removeWhitespace t) : s = t := by
  unfold SameLetters at hst
  induction s generalizing t with
  | nil => cases t <;> simp_all
  | cons c s ih =>
    cases t with
    | nil => simp at hst
    | cons d t =>
      simp only [List.map_cons, List.cons.injEq] at hst
      have hw : isWhitespace c = isWhitespace d := by
        rw [← isWhitespace_toLower, hst.1, isWhitespace_toLower]
      cases hc : isWhitespace c with
      | true =>
        have hd : isWhitespace d = true := hw ▸ hc
        simp only [removeWhitespace, List.filter_cons, hc, hd] at h
        have h2 := hst.1
        rw [toLower_of_whitespace hc, toLower_of_whitespace hd] at h2
        rw [h2, ih hst.2 (by simpa [removeWhitespace] using h)]
      | false =>
        have hd : isWhitespace d = false := hw ▸ hc
        simp only [removeWhitespace, List.filter_cons, hc, hd] at h
        simp only [Bool.not_false, if_true, List.cons.injEq] at h
        rw [h.1, ih hst.2 (by simpa [removeWhitespace] using h.2)]

theorem removeWhitespace_of_digits {s : List Char} {ns : List Nat} (h : List.Forall₂ IsDigit s ns) :
    removeWhitespace s = s := by
  induction h with
  | nil => rfl
  | cons hc _ ih =>
    simp only [removeWhitespace, List.filter_cons] at *
    rw [not_whitespace_of_digit (toDigit16_iff.2 hc), ih]; rfl

/-- Checksummed text is accepted. -/
theorem parse_checksummed (sha512 : Bytes → Bytes) (b : Bytes) (hne : sha512 b ≠ []) :
    tryParseHexStringChecksummed sha512 (toHexStringChecksummed sha512 b) = .ok b := by
  have ht := checksummed_hexText sha512 b hne
  have hd := digits_of_hexText ht
  unfold tryParseHexStringChecksummed
  rw [(parse_ok_iff _ b).2 ht]
  have : removeWhitespace (toHexStringChecksummed sha512 b) = toHexStringChecksummed sha512 b := by
    have h2 : ∀ s, removeWhitespace (removeWhitespace s) = removeWhitespace s := fun s => by simp [removeWhitespace]
    have h3 : ∀ c ∈ toHexStringChecksummed sha512 b, isWhitespace c = false := by
      intro c hc
      obtain ⟨i, hi⟩ := List.mem_iff_getElem?.1 hc
      rw [checksummed_getElem? _ _ hne] at hi
      cases hn : (nibbles b)[i]? with
      | none => simp [hn] at hi
      | some n =>
        simp only [hn, Option.map_some, Option.some.injEq] at hi
        exact not_whitespace_of_digit (toDigit16_iff.2 (hi ▸ isDigit_checkChar (nibbles_lt (List.mem_of_getElem? hn)) _))
    simp only [removeWhitespace]
    rw [List.filter_eq_self]
    intro c hc; simp [h3 c hc]
  simp [this]

/-- Hex digits are one byte long in UTF-8. -/
theorem strLen_of_digits {s : List Char} {ns : List Nat} (h : List.Forall₂ IsDigit s ns) : strLen s = s.length := by
  induction h with
  | nil => rfl
  | cons hc _ ih =>
    obtain ⟨hn, hc⟩ := isDigit_chars hc
    simp only [strLen, encode_cons, List.length_append, List.length_cons] at *
    have : ∀ {c : Char} {n : Nat}, n < 16 → c = checkChar true n ∨ c = checkChar false n → (encodeChar c).length = 1 := by
      intro c n hn hc
      interval_cases n <;> rcases hc with hc | hc <;> subst hc <;> decide +kernel
    rw [ih, this hn hc]; omega

end Rypt.Hex
