import Verif.Spec.CryptStreams
import Verif.Proofs.Text
import Mathlib.Tactic.SplitIfs

/-! Facts about prompts. -/

namespace Rypt.Text

/-- A proper beginning of a character is incomplete. -/
theorem fromUtf8_prefix (c : Char) (p : Bytes) (hp : p <+: encodeChar c) (h0 : p ≠ []) (h1 : p ≠ encodeChar c) :
    fromUtf8 p = .err none := by
  have hr := char_range c
  unfold encodeChar at hp h1
  dsimp only at hp h1
  split_ifs at hp h1 with a1 a2 a3
  · match p, h0 with
    | [b], _ => obtain ⟨t, ht⟩ := hp; simp only [List.cons_append, List.cons.injEq, List.nil_append] at ht; exact absurd (by simp [ht.1]) h1
    | b :: b2 :: p, _ => obtain ⟨t, ht⟩ := hp; simp at ht
  · match p, h0 with
    | [b], _ =>
      obtain ⟨t, ht⟩ := hp; simp only [List.cons_append, List.cons.injEq, List.nil_append] at ht
      have hb := congrArg UInt8.toNat ht.1
      rw [ofNat_toNat8 (by omega)] at hb
      rw [fromUtf8.eq_def]; simp only; rw [if_neg (by omega), if_pos (by omega)]
    | [b, b2], _ => obtain ⟨t, ht⟩ := hp; simp only [List.cons_append, List.cons.injEq, List.nil_append] at ht; exact absurd (by simp [ht.1, ht.2.1]) h1
    | b :: b2 :: b3 :: p, _ => obtain ⟨t, ht⟩ := hp; simp at ht
  · match p, h0 with
    | [b], _ =>
      obtain ⟨t, ht⟩ := hp; simp only [List.cons_append, List.cons.injEq, List.nil_append] at ht
      have hb := congrArg UInt8.toNat ht.1
      rw [ofNat_toNat8 (by omega)] at hb
      rw [fromUtf8.eq_def]; simp only; rw [if_neg (by omega), if_neg (by omega), if_pos (by omega)]
    | [b, b2], _ =>
      obtain ⟨t, ht⟩ := hp; simp only [List.cons_append, List.cons.injEq, List.nil_append] at ht
      have hb := congrArg UInt8.toNat ht.1
      have hb2 := congrArg UInt8.toNat ht.2.1
      rw [ofNat_toNat8 (by omega)] at hb hb2
      have hs : second3 b b2 = true := by
        unfold second3
        simp only [Bool.or_eq_true, Bool.and_eq_true, beq_iff_eq, decide_eq_true_eq]
        omega
      rw [fromUtf8.eq_def]; simp only; rw [if_neg (by omega), if_neg (by omega), if_pos (by omega), if_pos hs]
    | [b, b2, b3], _ => obtain ⟨t, ht⟩ := hp; simp only [List.cons_append, List.cons.injEq, List.nil_append] at ht; exact absurd (by simp [ht.1, ht.2.1, ht.2.2.1]) h1
    | b :: b2 :: b3 :: b4 :: p, _ => obtain ⟨t, ht⟩ := hp; simp at ht
  · match p, h0 with
    | [b], _ =>
      obtain ⟨t, ht⟩ := hp; simp only [List.cons_append, List.cons.injEq, List.nil_append] at ht
      have hb := congrArg UInt8.toNat ht.1
      rw [ofNat_toNat8 (by omega)] at hb
      rw [fromUtf8.eq_def]; simp only
      rw [if_neg (by omega), if_neg (by omega), if_neg (by omega), if_pos (by omega)]
    | [b, b2], _ =>
      obtain ⟨t, ht⟩ := hp; simp only [List.cons_append, List.cons.injEq, List.nil_append] at ht
      have hb := congrArg UInt8.toNat ht.1
      have hb2 := congrArg UInt8.toNat ht.2.1
      rw [ofNat_toNat8 (by omega)] at hb hb2
      have hs : second4 b b2 = true := by
        unfold second4
        simp only [Bool.or_eq_true, Bool.and_eq_true, beq_iff_eq, decide_eq_true_eq]
        omega
      rw [fromUtf8.eq_def]; simp only
      rw [if_neg (by omega), if_neg (by omega), if_neg (by omega), if_pos (by omega), if_pos hs]
    | [b, b2, b3], _ =>
      obtain ⟨t, ht⟩ := hp; simp only [List.cons_append, List.cons.injEq, List.nil_append] at ht
      have hb := congrArg UInt8.toNat ht.1
      have hb2 := congrArg UInt8.toNat ht.2.1
      have hb3 := congrArg UInt8.toNat ht.2.2.1
      rw [ofNat_toNat8 (by omega)] at hb hb2 hb3
      have hs : second4 b b2 = true := by
        unfold second4
        simp only [Bool.or_eq_true, Bool.and_eq_true, beq_iff_eq, decide_eq_true_eq]
        omega
      have hc : isCont b3 = true := by
        unfold isCont
        simp only [Bool.and_eq_true, decide_eq_true_eq]
        omega
      rw [fromUtf8.eq_def]; simp only
      rw [if_neg (by omega), if_neg (by omega), if_neg (by omega), if_pos (by omega), if_pos hs, if_pos hc]
    | [b, b2, b3, b4], _ =>
      obtain ⟨t, ht⟩ := hp; simp only [List.cons_append, List.cons.injEq, List.nil_append] at ht; exact absurd (by simp [ht.1, ht.2.1, ht.2.2.1, ht.2.2.2.1]) h1
    | b :: b2 :: b3 :: b4 :: b5 :: p, _ => obtain ⟨t, ht⟩ := hp; simp at ht

/-- What is incomplete does not end in a newline. -/
theorem fromUtf8_incomplete_last (l : Bytes) (h : fromUtf8 l = .err none) : l.getLast? ≠ some 10 := by
  have key : ∀ (x : UInt8) {l : Bytes}, l ≠ [] → (x :: l).getLast? = l.getLast? := by
    intro x l h
    cases l with
    | nil => exact absurd rfl h
    | cons y l => simp
  have hne : ∀ {l : Bytes}, fromUtf8 l = .err none → l ≠ [] := by
    rintro l h rfl; simp [fromUtf8] at h
  have hlow : ∀ {x : UInt8}, 0x80 ≤ x.toNat → x ≠ 10 := by rintro x h rfl; exact absurd h (by decide)
  have hcont : ∀ {x : UInt8}, isCont x = true → 0x80 ≤ x.toNat := by
    intro x h; simp [isCont] at h; exact h.1
  have h3 : ∀ {b x : UInt8}, second3 b x = true → 0x80 ≤ x.toNat := by
    intro b x h; simp [second3] at h; omega
  have h4 : ∀ {b x : UInt8}, second4 b x = true → 0x80 ≤ x.toNat := by
    intro b x h; simp [second4] at h; omega
  fun_induction fromUtf8 l with
  | case1 => cases h
  | case2 b rest hb ih =>
    have h := Utf8.cons_eq_err.1 h
    rw [key _ (hne h)]; exact ih h
  | case3 b hb hb2 => simpa using hlow (by omega)
  | case4 b hb hb2 c rest hc ih =>
    have h := Utf8.cons_eq_err.1 h
    rw [key _ (by simp), key _ (hne h)]; exact ih h
  | case5 => cases h
  | case6 b hb hb2 hb3 => simpa using hlow (by omega)
  | case7 b hb hb2 hb3 c hc => simpa using hlow (h3 hc)
  | case8 b hb hb2 hb3 c hc d rest hd ih =>
    have h := Utf8.cons_eq_err.1 h
    rw [key _ (by simp), key _ (by simp), key _ (hne h)]; exact ih h
  | case9 => cases h
  | case10 => cases h
  | case11 b hb hb2 hb3 hb4 => simpa using hlow (by omega)
  | case12 b hb hb2 hb3 hb4 c hc => simpa using hlow (h4 hc)
  | case13 b hb hb2 hb3 hb4 c hc d hd => simpa using hlow (hcont hd)
  | case14 b hb hb2 hb3 hb4 c hc d hd e rest he ih =>
    have h := Utf8.cons_eq_err.1 h
    rw [key _ (by simp), key _ (by simp), key _ (by simp), key _ (hne h)]; exact ih h
  | case15 => cases h
  | case16 => cases h
  | case17 => cases h
  | case18 => cases h

/-- The first byte of a character and its other bytes: only ASCII characters have a byte below 128, and then it is the only one. -/
theorem encodeChar_low {c : Char} {b : UInt8} (hb : b ∈ encodeChar c) (h : b.toNat < 0x80) : encodeChar c = [b] ∧ c.toNat = b.toNat := by
  have hr := char_range c
  unfold encodeChar at hb ⊢
  dsimp only at hb ⊢
  split_ifs at hb ⊢ with a1 a2 a3
  · simp only [List.mem_singleton] at hb
    have := congrArg UInt8.toNat hb
    rw [ofNat_toNat8 (by omega)] at this
    exact ⟨by rw [hb], this.symm⟩
  · exfalso
    simp only [List.mem_cons, List.not_mem_nil, or_false] at hb
    rcases hb with hb | hb <;>
    · have := congrArg UInt8.toNat hb
      rw [ofNat_toNat8 (by omega)] at this
      omega
  · exfalso
    simp only [List.mem_cons, List.not_mem_nil, or_false] at hb
    rcases hb with hb | hb | hb <;>
    · have := congrArg UInt8.toNat hb
      rw [ofNat_toNat8 (by omega)] at this
      omega
  · exfalso
    simp only [List.mem_cons, List.not_mem_nil, or_false] at hb
    rcases hb with hb | hb | hb | hb <;>
    · have := congrArg UInt8.toNat hb
      rw [ofNat_toNat8 (by omega)] at this
      omega

end Rypt.Text

namespace Rypt.UI

open Text

/-- Reads of events. -/
def reads (echo : Bool) (evs : List Input) : List Act := evs.map (.read · echo)

theorem reads_append (echo : Bool) (a b : List Input) : reads echo (a ++ b) = reads echo a ++ reads echo b := by
  simp [reads]

/-- Without the final carriage return. -/
def chop (s : List Char) : List Char := if s.getLast? = some '\r' then s.dropLast else s

theorem readLine_partial (echo : Bool) (c : Char) (hc : c ≠ '\n') (evs : List Input) (res : List Char) (q : Bytes) :
    ∀ (p : Bytes) (log : List Act), p ++ q = encodeChar c → q ≠ [] →
      readLine echo (q.map .byte ++ evs) p res log =
        readLine echo evs [] (res ++ [c]) (log ++ reads echo (q.map .byte)) := by
  induction q with
  | nil => intro _ _ _ h; exact absurd rfl h
  | cons b q ih =>
    intro p log hp _
    have hp2 : (p ++ [b]) ++ q = encodeChar c := by simpa using hp
    rw [List.map_cons, List.cons_append, readLine]
    by_cases hq : q = []
    · subst hq
      have h1 : fromUtf8 (p ++ [b]) = .ok [c] := by
        have := fromUtf8_encode [c]
        rw [show encode [c] = encodeChar c by simp [encode], ← hp2] at this
        simpa using this
      simp only [h1]
      rw [if_neg (by simpa using hc)]
      simp [reads]
    · have h1 : fromUtf8 (p ++ [b]) = .err none := by
        refine fromUtf8_prefix c _ ⟨q, hp2⟩ (by simp) ?_
        intro h; rw [← hp2] at h; simp at h; exact hq h
      simp only [h1]
      rw [ih _ _ hp2 hq]
      simp [reads]

theorem readLine_char (echo : Bool) (c : Char) (hc : c ≠ '\n') (evs : List Input) (res : List Char) (log : List Act) :
    readLine echo ((encodeChar c).map .byte ++ evs) [] res log =
      readLine echo evs [] (res ++ [c]) (log ++ reads echo ((encodeChar c).map .byte)) :=
  readLine_partial echo c hc evs res _ [] log (by simp) (encodeChar_ne_nil c)

/-- A whole line. -/
theorem readLine_text (echo : Bool) (s : List Char) (hs : '\n' ∉ s) (rest : List Input) :
    ∀ (res : List Char) (log : List Act),
      readLine echo ((encode s).map .byte ++ .byte 10 :: rest) [] res log =
        (.ok (chop (res ++ s)), rest, log ++ reads echo ((encode s).map .byte ++ [.byte 10])) := by
  induction s with
  | nil =>
    intro res log
    have h1 : fromUtf8 [10] = .ok ['\n'] := by decide +kernel
    rw [show (encode []).map Input.byte ++ .byte 10 :: rest = .byte 10 :: rest by simp [encode], readLine]
    simp only [List.nil_append, h1, if_true]
    simp [chop, reads, encode]
  | cons c s ih =>
    intro res log
    simp only [List.mem_cons, not_or] at hs
    have he : encode (c :: s) = encodeChar c ++ encode s := by simp [encode]
    rw [he, List.map_append, List.append_assoc, readLine_char echo c (Ne.symm hs.1), ih hs.2]
    simp [reads]

/-- No character is complete in `p`. -/
def Incomplete (p : Bytes) : Prop := ∀ c, ¬ encodeChar c <+: p

theorem incomplete_nil : Incomplete [] := by
  intro c h
  exact encodeChar_ne_nil c (List.prefix_nil.1 h)

theorem prefix_snoc {α : Type} {l p : List α} {b : α} (h : l <+: p ++ [b]) (hn : ¬ l <+: p) : l = p ++ [b] := by
  rcases List.prefix_concat_iff.1 h with h | h
  · exact h
  · exact absurd h hn

theorem incomplete_ok {p : Bytes} {b : UInt8} {v : List Char} (hp : Incomplete p) (h : fromUtf8 (p ++ [b]) = .ok v) :
    ∃ c, v = [c] ∧ encodeChar c = p ++ [b] := by
  have he := encode_of_fromUtf8 _ _ h
  cases v with
  | nil => simp [encode] at he
  | cons c v =>
    have he' : encodeChar c ++ encode v = p ++ [b] := by rw [← he]; simp [encode]
    have h1 := prefix_snoc ⟨_, he'⟩ (hp c)
    rw [h1] at he'
    have h2 : encode v = [] := by simpa using he'
    cases v with
    | nil => exact ⟨c, rfl, h1⟩
    | cons d v => simp [encode, encodeChar_ne_nil] at h2

theorem incomplete_step {p : Bytes} {b : UInt8} {e : Option Nat} (hp : Incomplete p) (h : fromUtf8 (p ++ [b]) = .err e) :
    Incomplete (p ++ [b]) := by
  intro c hc
  have h1 := prefix_snoc hc (hp c)
  have h2 := fromUtf8_encode [c]
  rw [show encode [c] = encodeChar c by simp [encode], h1, h] at h2
  cases h2

/-- Success: a line was read. -/
theorem readLine_ok (echo : Bool) (evs : List Input) (cb : Bytes) (res : List Char) (log : List Act) (hcb : Incomplete cb)
    {r : List Char} {rest : List Input} {log' : List Act} (h : readLine echo evs cb res log = (.ok r, rest, log')) :
    ∃ s pre, '\n' ∉ s ∧ evs = pre.map .byte ++ .byte 10 :: rest ∧ cb ++ pre = encode s ∧ r = chop (res ++ s) := by
  fun_induction readLine echo evs cb res log with
  | case1 => simp at h
  | case2 => simp at h
  | case3 b evs cb res log0 cb1 log1 hok =>
    obtain ⟨c, hc, he⟩ := incomplete_ok hcb hok
    simp only [List.cons.injEq, and_true] at hc
    subst hc
    have : encodeChar '\n' = [10] := by decide +kernel
    rw [this] at he
    have h0 : cb = [] := by
      cases cb with
      | nil => rfl
      | cons x l => have := congrArg List.length he; simp at this
    subst h0
    simp at he
    simp only [Prod.mk.injEq, Res.ok.injEq] at h
    obtain ⟨rfl, rfl, -⟩ := h
    refine ⟨[], [], by simp, by simp [he], by simp [encode], by simp [chop]⟩
  | case4 b evs cb res log0 cb1 log1 v hok hv ih =>
    obtain ⟨c, rfl, he⟩ := incomplete_ok hcb hok
    obtain ⟨s, pre, hs, h1, h2, h3⟩ := ih incomplete_nil h
    refine ⟨c :: s, b :: pre, ?_, by simp [h1], ?_, by simp [h3]⟩
    · simp only [List.mem_cons, not_or]
      exact ⟨fun hc => hv (by rw [hc]), hs⟩
    · simp only [List.nil_append] at h2
      rw [show cb ++ b :: pre = (cb ++ [b]) ++ pre by simp, ← he, h2]
      simp [encode]
  | case5 b evs cb res log0 cb1 log1 herr ih =>
    obtain ⟨s, pre, hs, h1, h2, h3⟩ := ih (incomplete_step hcb herr) h
    exact ⟨s, b :: pre, hs, by simp [h1], by simpa [cb1] using h2, h3⟩
  | case6 => simp at h

/-- Whatever happens, nothing after the line is read. -/
theorem readLine_reads (echo : Bool) (evs : List Input) (cb : Bytes) (res : List Char) (log : List Act) (hcb : Incomplete cb) :
    ∃ pre, evs = pre ++ (readLine echo evs cb res log).2.1 ∧ Input.byte 10 ∉ pre.dropLast ∧
      (readLine echo evs cb res log).2.2 = log ++ reads echo pre := by
  have hdl : ∀ {x : Input} {pre : List Input}, x ≠ .byte 10 → .byte 10 ∉ pre.dropLast → .byte 10 ∉ (x :: pre).dropLast := by
    intro x pre hx hp
    cases pre with
    | nil => simp
    | cons y pre => simpa [Ne.symm hx] using hp
  fun_induction readLine echo evs cb res log with
  | case1 => exact ⟨[], by simp, by simp, by simp [reads]⟩
  | case2 => exact ⟨[.fault], by simp, by simp, by simp [reads]⟩
  | case3 b evs cb res log0 => exact ⟨[.byte b], by simp, by simp, rfl⟩
  | case4 b evs cb res log0 cb1 log1 v hok hv ih =>
    obtain ⟨c, rfl, he⟩ := incomplete_ok hcb hok
    obtain ⟨pre, h1, h2, h3⟩ := ih incomplete_nil
    refine ⟨.byte b :: pre, by simp [← h1], hdl ?_ h2, by rw [h3]; simp [reads, log1]⟩
    intro hb
    simp only [Input.byte.injEq] at hb
    have := encodeChar_low (c := c) (b := b) (by rw [he]; simp) (by rw [hb]; decide)
    apply hv
    have : c = '\n' := char_ext (by rw [this.2, hb]; rfl)
    rw [this]
  | case5 b evs cb res log0 cb1 log1 herr ih =>
    obtain ⟨pre, h1, h2, h3⟩ := ih (incomplete_step hcb herr)
    refine ⟨.byte b :: pre, by simp [← h1], hdl ?_ h2, by rw [h3]; simp [reads, log1]⟩
    intro hb
    simp only [Input.byte.injEq] at hb
    have := fromUtf8_incomplete_last _ herr
    simp [cb1, hb] at this
  | case6 b evs cb res log0 => exact ⟨[.byte b], by simp, by simp, rfl⟩

theorem readLine_no_panic (echo : Bool) (evs : List Input) (cb : Bytes) (res : List Char) (log : List Act) :
    (readLine echo evs cb res log).1 ≠ .panic := by
  fun_induction readLine echo evs cb res log <;> simp_all

end Rypt.UI

namespace Rypt.UI

open Text Spec

theorem typed_eq (s : List Char) : typed s = (encode s).map .byte := by
  unfold typed encode
  congr 2
  funext c
  exact (encodeChar_eq_core c).symm

theorem chop_of_not {s : List Char} (h : s.getLast? ≠ some '\r') : chop s = s := by simp [chop, h]

theorem chop_cr (s : List Char) : chop (s ++ ['\r']) = s := by simp [chop]

/-- Reading a line. -/
theorem readLine_of_line (echo : Bool) (s : List Char) (l rest : List Input) (log : List Act) (h : LineOf s l) :
    readLine echo (l ++ rest) [] [] log = (.ok s, rest, log ++ reads echo l) := by
  cases h with
  | lf hn hr =>
    have := readLine_text echo s hn rest [] log
    rw [typed_eq, enter]
    simpa [chop_of_not hr] using this
  | crlf hn =>
    have := readLine_text echo (s ++ ['\r']) (by simp [hn]) rest [] log
    have he : (encode (s ++ ['\r'])).map Input.byte = typed s ++ [.byte 13] := by
      rw [typed_eq, encode_append, List.map_append]
      congr 1
    rw [he] at this
    simpa [chop_cr, enter] using this

theorem line_of_readLine (echo : Bool) (evs : List Input) (log : List Act) {r : List Char} {rest : List Input} {log' : List Act}
    (h : readLine echo evs [] [] log = (.ok r, rest, log')) :
    ∃ l, LineOf r l ∧ evs = l ++ rest ∧ log' = log ++ reads echo l := by
  obtain ⟨s, pre, hs, h1, h2, h3⟩ := readLine_ok echo evs [] [] log incomplete_nil h
  simp only [List.nil_append] at h2 h3
  have hl : LineOf r (pre.map .byte ++ [enter]) := by
    by_cases hr : s.getLast? = some '\r'
    · obtain ⟨s', rfl⟩ := List.getLast?_eq_some_iff.1 hr
      rw [chop_cr] at h3
      subst h3
      have he : (encode (r ++ ['\r'])).map Input.byte = typed r ++ [.byte 13] := by
        rw [typed_eq, encode_append, List.map_append]
        congr 1
      rw [h2, he]
      have := LineOf.crlf r (by simp at hs; exact hs)
      simpa using this
    · rw [chop_of_not hr] at h3
      subst h3
      rw [h2, ← typed_eq]
      exact .lf r hs hr
  refine ⟨_, hl, by simp [h1, enter], ?_⟩
  have h4 := readLine_of_line echo r _ rest log hl
  have h5 : evs = pre.map Input.byte ++ [enter] ++ rest := by simp [h1, enter]
  rw [← h5, h] at h4
  simp only [Prod.mk.injEq] at h4
  exact h4.2.2

/-! ### The settings of the terminal -/

theorem echo_bit (i : Nat) : ECHO.getLsbD i = decide (i = 3) := by
  unfold ECHO
  by_cases h : i < 4
  · have : i = 0 ∨ i = 1 ∨ i = 2 ∨ i = 3 := by omega
    rcases this with rfl | rfl | rfl | rfl <;> decide
  · have : (8#32).getLsbD i = false := by
      rw [BitVec.getLsbD_ofNat]
      have : Nat.testBit 8 i = false := Nat.testBit_lt_two_pow (Nat.lt_of_lt_of_le (by decide : 8 < 2 ^ 4) (Nat.pow_le_pow_right (by decide) (by omega)))
      simp [this]
    rw [this]; simp; omega

theorem bits_ext {a b : BitVec 32} (h : ∀ i, a.getLsbD i = b.getLsbD i) : a = b :=
  BitVec.eq_of_getLsbD_eq fun i _ => h i

theorem echoes_iff (a : Termios) : a.echoes = a.lflag.getLsbD 3 := by
  unfold Termios.echoes
  cases h : a.lflag.getLsbD 3 with
  | false =>
    have : a.lflag &&& ECHO = 0 := bits_ext fun i => by
      rw [BitVec.getLsbD_and, echo_bit]
      by_cases hi : i = 3
      · subst hi; rw [h]; decide
      · simp [hi]
    simp [this]
  | true =>
    have : a.lflag &&& ECHO ≠ 0 := fun hz => by
      have := congrArg (BitVec.getLsbD · 3) hz
      simp only [BitVec.getLsbD_and, echo_bit, h] at this
      revert this; decide
    simpa using this

theorem change_true (a : Termios) : EchoOn a (a.change true) := by
  refine ⟨by simp [Termios.change], fun i => ?_⟩
  simp only [Termios.change, if_true, BitVec.getLsbD_or, echo_bit]

theorem change_false (a : Termios) : EchoOff a (a.change false) := by
  refine ⟨by simp [Termios.change], fun i => ?_⟩
  simp only [Termios.change, Bool.false_eq_true, if_false, BitVec.getLsbD_and, BitVec.getLsbD_not, echo_bit]
  by_cases h : i < 32
  · simp [h]
  · have : i ≠ 3 := by omega
    have h2 : a.lflag.getLsbD i = false := BitVec.getLsbD_of_ge _ _ (by omega)
    simp [h2]

theorem _root_.Rypt.Spec.EchoOn.trans {a b c : Termios} (h1 : EchoOn a b) (h2 : EchoOn b c) : EchoOn a c := by
  refine ⟨?_, fun i => ?_⟩
  · rw [h2.1, h1.1]
  · rw [h2.2, h1.2]; cases a.lflag.getLsbD i <;> simp

theorem _root_.Rypt.Spec.EchoOff.on {a b c : Termios} (h1 : EchoOff a b) (h2 : EchoOn b c) : EchoOn a c := by
  refine ⟨?_, fun i => ?_⟩
  · rw [h2.1, h1.1]
  · rw [h2.2, h1.2]; cases a.lflag.getLsbD i <;> by_cases h : i = 3 <;> simp [h]

theorem _root_.Rypt.Spec.EchoOn.echoes {a b : Termios} (h : EchoOn a b) : b.echoes = true := by rw [echoes_iff, h.2]; simp

theorem _root_.Rypt.Spec.EchoOff.echoes {a b : Termios} (h : EchoOff a b) : b.echoes = false := by rw [echoes_iff, h.2]; simp

theorem _root_.Rypt.Spec.EchoOn.eq {a b : Termios} (h : EchoOn a b) (ha : a.echoes = true) : b = a := by
  have : b.lflag = a.lflag := bits_ext fun i => by
    rw [h.2]
    by_cases hi : i = 3
    · subst hi; rw [echoes_iff] at ha; simp [ha]
    · simp [hi]
  rw [h.1, this]

theorem setStdinEcho_keeps (t : Term) (b : Bool) :
    (setStdinEcho t b).stdin = t.stdin ∧ (setStdinEcho t b).hasInput = t.hasInput ∧
    (setStdinEcho t b).inputIsTty = t.inputIsTty ∧ (setStdinEcho t b).outputIsTty = t.outputIsTty ∧
    (setStdinEcho t b).verbosity = t.verbosity ∧ (setStdinEcho t b).writes = t.writes ∧ (setStdinEcho t b).log = t.log ∧
    (setStdinEcho t b).tcs <:+ t.tcs := by
  unfold setStdinEcho
  split
  · rename_i h
    exact ⟨rfl, rfl, rfl, rfl, rfl, rfl, rfl, by simp [h]⟩
  · rename_i h
    exact ⟨rfl, rfl, rfl, rfl, rfl, rfl, rfl, by simp [h]⟩

theorem setStdinEcho_tty {t : Term} (ho : Obeys t) (b : Bool) : (setStdinEcho t b).tty = t.tty.change b := by
  unfold setStdinEcho
  split
  · rfl
  · rename_i f fs h
    have := ho f (by rw [h]; simp)
    simp [setEcho, this.1, this.2]

theorem _root_.Rypt.Spec.Obeys.of_suffix {t t' : Term} (ho : Obeys t) (h : t'.tcs <:+ t.tcs) : Obeys t' := fun f hf => ho f (h.subset hf)

/-- What does not change, and the settings. -/
structure Frame (t t' : Term) : Prop where
  hasInput : t'.hasInput = t.hasInput
  inputIsTty : t'.inputIsTty = t.inputIsTty
  outputIsTty : t'.outputIsTty = t.outputIsTty
  verbosity : t'.verbosity = t.verbosity
  writes : t'.writes <:+ t.writes
  tcs : t'.tcs <:+ t.tcs
  tty : Obeys t → t'.tty = t.tty ∨ EchoOn t.tty t'.tty

theorem Frame.refl (t : Term) : Frame t t := ⟨rfl, rfl, rfl, rfl, List.suffix_refl _, List.suffix_refl _, fun _ => .inl rfl⟩

theorem Frame.obeys {t t' : Term} (h : Frame t t') (ho : Obeys t) : Obeys t' := ho.of_suffix h.tcs

theorem Frame.trans {a b c : Term} (h1 : Frame a b) (h2 : Frame b c) : Frame a c :=
  ⟨h2.hasInput.trans h1.hasInput, h2.inputIsTty.trans h1.inputIsTty, h2.outputIsTty.trans h1.outputIsTty,
    h2.verbosity.trans h1.verbosity, h2.writes.trans h1.writes, h2.tcs.trans h1.tcs, fun ho => by
      rcases h1.tty ho with e1 | e1 <;> rcases h2.tty (h1.obeys ho) with e2 | e2
      · exact .inl (e2.trans e1)
      · exact .inr (e1 ▸ e2)
      · exact .inr (e2 ▸ e1)
      · exact .inr (e1.trans e2)⟩

theorem Frame.writesWork {t t' : Term} (h : Frame t t') (hw : WritesWork t) : WritesWork t' :=
  fun w hw' => hw w (h.writes.subset hw')

theorem canRead_iff (t : Term) : canRead t = true ↔ CanPrompt t := by
  simp only [canRead, CanPrompt, willPrint, interactiveVerbosity, Bool.and_eq_true, and_assoc]
  exact ⟨fun ⟨a, b, c, d⟩ => ⟨a, b, c, of_decide_eq_true d⟩, fun ⟨a, b, c, d⟩ => ⟨a, b, c, decide_eq_true d⟩⟩

theorem Frame.canRead {t t' : Term} (h : Frame t t') : canRead t' = canRead t := by
  unfold UI.canRead willPrint
  rw [h.hasInput, h.inputIsTty, h.outputIsTty, h.verbosity]

/-- Only writing of `m`, or of a part of it, happened. -/
structure Wrote (m : List Char) (t t' : Term) : Prop extends Frame t t' where
  stdin : t'.stdin = t.stdin
  same : t'.tty = t.tty
  log : ∃ acts, t'.log = t.log ++ acts ∧ ∀ a ∈ acts, ∃ s, a = .wrote s ∧ s <+: m

theorem Wrote.echo {m : List Char} {t t' : Term} (h : Wrote m t t') : t'.echo = t.echo := by unfold Term.echo; rw [h.same]

theorem Wrote.refl (m : List Char) (t : Term) : Wrote m t t := ⟨.refl t, rfl, rfl, [], by simp, by simp⟩

theorem writeAll_wrote (t : Term) (s : List Char) : Wrote s t (writeAll t s).2 := by
  unfold writeAll
  split
  · exact ⟨⟨rfl, rfl, rfl, rfl, List.suffix_refl _, List.suffix_refl _, fun _ => .inl rfl⟩, rfl, rfl, _, rfl, by simp⟩
  · rename_i ws hw
    exact ⟨⟨rfl, rfl, rfl, rfl, by rw [hw]; exact List.suffix_cons _ _, List.suffix_refl _, fun _ => .inl rfl⟩, rfl, rfl, _, rfl, by simp⟩
  · rename_i n ws hw
    exact ⟨⟨rfl, rfl, rfl, rfl, by rw [hw]; exact List.suffix_cons _ _, List.suffix_refl _, fun _ => .inl rfl⟩, rfl, rfl, _, rfl, by simp [List.take_prefix]⟩

theorem writeAll_ok {t : Term} (h : WritesWork t) (s : List Char) : (writeAll t s).1 = .ok () := by
  unfold writeAll
  split
  · rfl
  · rfl
  · rename_i n ws hw
    have := h (some n) (by rw [hw]; simp)
    cases this

theorem writeAll_no_panic (t : Term) (s : List Char) : (writeAll t s).1 ≠ .panic := by
  unfold writeAll; split <;> simp

theorem printlnInteractive_wrote (t : Term) (s : List Char) : Wrote (s ++ ['\n']) t (printlnInteractive t s).2 := by
  unfold printlnInteractive
  split
  · exact writeAll_wrote _ _
  · exact .refl _ t

theorem printlnInteractive_ok {t : Term} (h : WritesWork t) (s : List Char) : (printlnInteractive t s).1 = .ok () := by
  unfold printlnInteractive
  split
  · exact writeAll_ok h _
  · rfl

theorem printlnInteractive_no_panic (t : Term) (s : List Char) : (printlnInteractive t s).1 ≠ .panic := by
  unfold printlnInteractive
  split
  · exact writeAll_no_panic _ _
  · simp

/-- Reads with allowed states of the echo only, and writes of allowed messages only. -/
def ReadsWith (E : Bool → Prop) (M : List Char → Prop) (acts : List Act) : Prop :=
  ∀ a ∈ acts, (∃ e b, a = .read e b ∧ E b) ∨ ∃ s, a = .wrote s ∧ M s

theorem ReadsWith.mono {E E' : Bool → Prop} {M : List Char → Prop} {acts : List Act} (h : ReadsWith E M acts) (hE : ∀ b, E b → E' b) :
    ReadsWith E' M acts := fun a ha => (h a ha).imp_left fun ⟨e, b, h1, h2⟩ => ⟨e, b, h1, hE b h2⟩

theorem readsWith_of_wrote {E : Bool → Prop} {M : List Char → Prop} {m : List Char} (hM : ∀ s, s <+: m → M s) {acts : List Act}
    (h : ∀ a ∈ acts, ∃ s, a = .wrote s ∧ s <+: m) : ReadsWith E M acts := by
  intro a hm; obtain ⟨s, hs, hp⟩ := h _ hm; exact .inr ⟨s, hs, hM s hp⟩

theorem readsWith_reads (echo : Bool) (M : List Char → Prop) (evs : List Input) : ReadsWith (· = echo) M (reads echo evs) := by
  intro a hm; simp only [reads, List.mem_map] at hm; obtain ⟨e, _, h⟩ := hm; exact .inl ⟨e, echo, h.symm, rfl⟩

theorem ReadsWith.append {E : Bool → Prop} {M : List Char → Prop} {a b : List Act} (ha : ReadsWith E M a)
    (hb : ReadsWith E M b) : ReadsWith E M (a ++ b) := by
  intro x hm
  rcases List.mem_append.1 hm with hm | hm
  · exact ha x hm
  · exact hb x hm

/-- Everything about `readPrompt` that does not depend on its result. -/
theorem readPrompt_frame (t : Term) (prompt : List Char) (M : List Char → Prop := (· <+: prompt))
    (hM : ∀ s, s <+: prompt → M s := by exact fun _ h => h) :
    Frame t (readPrompt t prompt).2 ∧ (readPrompt t prompt).2.tty = t.tty ∧ (readPrompt t prompt).1 ≠ .panic ∧
      (∃ pre, t.stdin = pre ++ (readPrompt t prompt).2.stdin ∧ Input.byte 10 ∉ pre.dropLast) ∧
      ∃ acts, (readPrompt t prompt).2.log = t.log ++ acts ∧ ReadsWith (· = t.echo) M acts := by
  unfold readPrompt
  split
  · exact ⟨.refl t, rfl, by simp, ⟨[], by simp, by simp⟩, [], by simp, by intro e h; simp at h⟩
  · have hw := writeAll_wrote t prompt
    have hnp := writeAll_no_panic t prompt
    split
    · rename_i t1 h1
      rw [h1] at hw
      obtain ⟨acts, ha, ha'⟩ := hw.log
      obtain ⟨pre, h2, h3, h4⟩ := readLine_reads t1.echo t1.stdin [] [] t1.log incomplete_nil
      refine ⟨⟨hw.hasInput, hw.inputIsTty, hw.outputIsTty, hw.verbosity, hw.writes, hw.tcs, hw.tty⟩, hw.same, readLine_no_panic _ _ _ _ _,
        ⟨pre, ?_, h3⟩, acts ++ reads t1.echo pre, ?_, ?_⟩
      · rw [← hw.stdin]; exact h2
      · simp only [] at ha ⊢
        rw [h4, ha, List.append_assoc]
      · exact (readsWith_of_wrote hM ha').append (hw.echo ▸ readsWith_reads t1.echo M pre)
    · rename_i e t1 h1
      rw [h1] at hw
      obtain ⟨acts, ha, ha'⟩ := hw.log
      exact ⟨hw.toFrame, hw.same, by simp, ⟨[], hw.stdin.symm, by simp⟩, acts, ha, readsWith_of_wrote hM ha'⟩
    · rename_i t1 h1
      rw [h1] at hnp
      exact absurd rfl hnp

theorem readPrompt_of_line {t : Term} (prompt : List Char) (hc : CanPrompt t) (hw : WritesWork t) {s : List Char}
    {l rest : List Input} (hl : LineOf s l) (h : t.stdin = l ++ rest) :
    ∃ t', readPrompt t prompt = (.ok s, t') ∧ t'.stdin = rest := by
  unfold readPrompt
  rw [if_neg (by simp [(canRead_iff t).2 hc])]
  have h1 := writeAll_ok hw prompt
  have h2 := writeAll_wrote t prompt
  generalize writeAll t prompt = r at h1 h2
  obtain ⟨r, t1⟩ := r
  simp only at h1 h2
  subst h1
  have h3 : t1.stdin = l ++ rest := h2.stdin.trans h
  simp only [h3, readLine_of_line _ _ _ _ _ hl]
  exact ⟨_, rfl, rfl⟩

theorem line_of_readPrompt {t t' : Term} {prompt s : List Char} (h : readPrompt t prompt = (.ok s, t')) :
    CanPrompt t ∧ ∃ l, LineOf s l ∧ t.stdin = l ++ t'.stdin := by
  unfold readPrompt at h
  split at h
  · cases h
  · rename_i hc
    refine ⟨(canRead_iff t).1 (by simpa using hc), ?_⟩
    split at h
    · rename_i t1 h1
      have hw := writeAll_wrote t prompt
      rw [h1] at hw
      generalize hr : readLine t1.echo t1.stdin [] [] t1.log = r at h
      obtain ⟨r1, r2, r3⟩ := r
      simp only [Prod.mk.injEq] at h
      obtain ⟨rfl, rfl⟩ := h
      obtain ⟨l, hl, h2, -⟩ := line_of_readLine _ _ _ hr
      exact ⟨l, hl, by rw [← hw.stdin]; exact h2⟩
    · cases h
    · cases h

/-- The echo is off if the terminal obeys. -/
def Hidden (t : Term) (b : Bool) : Prop := Obeys t → b = false

theorem Hidden.mono {t t' : Term} (h : Frame t t') {b : Bool} (hb : Hidden t' b) : Hidden t b := fun ho => hb (h.obeys ho)

theorem readPassword_frame (t : Term) (prompt : List Char)
    (M : List Char → Prop := fun s => s <+: prompt ∨ s <+: ['\n'])
    (hM : ∀ s, s <+: prompt → M s := by exact fun _ h => .inl h) (hM2 : ∀ s, s <+: ['\n'] → M s := by exact fun _ h => .inr h) :
    Frame t (readPassword t prompt).2 ∧ (readPassword t prompt).1 ≠ .panic ∧
      (Obeys t → CanPrompt t → EchoOn t.tty (readPassword t prompt).2.tty) ∧ (¬ CanPrompt t → (readPassword t prompt).2 = t) ∧
      (∃ pre, t.stdin = pre ++ (readPassword t prompt).2.stdin ∧ Input.byte 10 ∉ pre.dropLast) ∧
      ∃ acts, (readPassword t prompt).2.log = t.log ++ acts ∧ ReadsWith (Hidden t) M acts := by
  unfold readPassword
  split
  · rename_i hc
    exact ⟨.refl t, by simp, fun _ h => absurd ((canRead_iff t).2 h) (by simpa using hc), fun _ => rfl,
      ⟨[], by simp, by simp⟩, [], by simp, by intro e h; simp at h⟩
  · rename_i hc
    have hc : CanPrompt t := (canRead_iff t).1 (by simpa using hc)
    obtain ⟨hf, he, hnp, ⟨pre, hpre, hpre'⟩, acts, ha, ha'⟩ := readPrompt_frame (setStdinEcho t false) prompt M hM
    obtain ⟨k1, k2, k3, k4, k5, k6, k7, k8⟩ := setStdinEcho_keeps t false
    generalize readPrompt (setStdinEcho t false) prompt = r at *
    obtain ⟨r, t1⟩ := r
    simp only at *
    obtain ⟨l1, l2, l3, l4, l5, l6, l7, l8⟩ := setStdinEcho_keeps t1 true
    have hw := printlnInteractive_wrote (setStdinEcho t1 true) []
    have hnp2 := printlnInteractive_no_panic (setStdinEcho t1 true) []
    have hon : Obeys t → EchoOn t.tty (setStdinEcho t1 true).tty := fun ho => by
      have ho1 : Obeys t1 := ho.of_suffix (hf.tcs.trans k8)
      rw [setStdinEcho_tty ho1, he, setStdinEcho_tty ho]
      exact (change_false _).on (change_true _)
    have hoff : ∀ b, b = (setStdinEcho t false).echo → Hidden t b := fun b hb ho => by
      rw [hb, Term.echo, setStdinEcho_tty ho]; exact (change_false _).echoes
    generalize printlnInteractive (setStdinEcho t1 true) [] = q at *
    obtain ⟨q, t2⟩ := q
    simp only at *
    obtain ⟨acts2, ha2, ha2'⟩ := hw.log
    have hon2 : Obeys t → EchoOn t.tty t2.tty := fun ho => by rw [hw.same]; exact hon ho
    have hfr : Frame t t2 :=
      ⟨hw.hasInput.trans (l2.trans (hf.hasInput.trans k2)), hw.inputIsTty.trans (l3.trans (hf.inputIsTty.trans k3)),
        hw.outputIsTty.trans (l4.trans (hf.outputIsTty.trans k4)), hw.verbosity.trans (l5.trans (hf.verbosity.trans k5)),
        k6 ▸ (hw.writes.trans (l6 ▸ hf.writes)), hw.tcs.trans (l8.trans (hf.tcs.trans k8)), fun ho => .inr (hon2 ho)⟩
    have hlog : t2.log = t.log ++ (acts ++ acts2) := by
      rw [ha2, l7, ha, k7, List.append_assoc]
    have hst : t.stdin = pre ++ t2.stdin := by rw [hw.stdin, l1, ← hpre, k1]
    have hre : ReadsWith (Hidden t) M (acts ++ acts2) := ReadsWith.append (ha'.mono hoff) (readsWith_of_wrote hM2 ha2')
    cases q with
    | ok u => exact ⟨hfr, hnp, fun ho _ => hon2 ho, fun h => absurd hc h, ⟨pre, hst, hpre'⟩, _, hlog, hre⟩
    | err e => exact ⟨hfr, by simp, fun ho _ => hon2 ho, fun h => absurd hc h, ⟨pre, hst, hpre'⟩, _, hlog, hre⟩
    | panic => exact absurd rfl hnp2

theorem readPassword_of_line {t : Term} (prompt : List Char) (hc : CanPrompt t) (hw : WritesWork t) {s : List Char}
    {l rest : List Input} (hl : LineOf s l) (h : t.stdin = l ++ rest) :
    ∃ t', readPassword t prompt = (.ok s, t') ∧ t'.stdin = rest := by
  unfold readPassword
  rw [if_neg (by simp [(canRead_iff t).2 hc])]
  obtain ⟨k1, k2, k3, k4, k5, k6, k7, k8⟩ := setStdinEcho_keeps t false
  obtain ⟨t1, h1, h2⟩ := readPrompt_of_line (t := setStdinEcho t false) prompt
    (by unfold CanPrompt; rw [k2, k3, k4, k5]; exact hc) (by unfold WritesWork; rw [k6]; exact hw) hl (k1.trans h)
  have hf := (readPrompt_frame (setStdinEcho t false) prompt).1
  rw [h1] at hf ⊢
  simp only at hf ⊢
  obtain ⟨l1, l2, l3, l4, l5, l6, l7, l8⟩ := setStdinEcho_keeps t1 true
  have hw1 : WritesWork (setStdinEcho t1 true) := by
    unfold WritesWork
    rw [l6]
    exact fun w hw' => hw w (k6 ▸ hf.writes.subset hw')
  have h3 := printlnInteractive_ok hw1 []
  have h4 := printlnInteractive_wrote (setStdinEcho t1 true) []
  generalize printlnInteractive (setStdinEcho t1 true) [] = q at *
  obtain ⟨q, t2⟩ := q
  simp only at h3 h4
  subst h3
  exact ⟨t2, rfl, h4.stdin.trans (l1.trans h2)⟩

theorem line_of_readPassword {t t' : Term} {prompt s : List Char} (h : readPassword t prompt = (.ok s, t')) :
    CanPrompt t ∧ ∃ l, LineOf s l ∧ t.stdin = l ++ t'.stdin := by
  unfold readPassword at h
  split at h
  · cases h
  · rename_i hc
    refine ⟨(canRead_iff t).1 (by simpa using hc), ?_⟩
    split at h
    rename_i res t1 hr
    have hw := printlnInteractive_wrote (setStdinEcho t1 true) []
    split at h
    · rename_i t2 hp
      cases h
      obtain ⟨-, l, hl, h2⟩ := line_of_readPrompt hr
      rw [hp] at hw
      exact ⟨l, hl, by rw [hw.stdin, (setStdinEcho_keeps t1 true).1, ← h2, (setStdinEcho_keeps t false).1]⟩
    · cases h
    · cases h

end Rypt.UI

namespace Rypt.UI

open Text Spec

theorem lower_eq (c d : Char) (hd : 97 ≤ d.toNat ∧ d.toNat ≤ 122) :
    toAsciiLowercase c = d ↔ c = d ∨ c.toNat + 32 = d.toNat := by
  unfold toAsciiLowercase
  have h1 : ∀ n, n < 1000 → n.isValidChar := fun n hn => Or.inl (by omega)
  split
  · rename_i h
    constructor
    · intro he
      right
      have := congrArg Char.toNat he
      rw [char_toNat_ofNat (h1 _ (by omega))] at this
      exact this
    · rintro (rfl | he)
      · omega
      · apply char_ext
        rw [char_toNat_ofNat (h1 _ (by omega)), he]
  · rename_i h
    constructor
    · exact Or.inl
    · rintro (rfl | he)
      · rfl
      · omega

theorem lower_y (c : Char) : toAsciiLowercase c = 'y' ↔ c = 'y' ∨ c = 'Y' := by
  rw [lower_eq c 'y' (by decide)]
  exact or_congr Iff.rfl ⟨fun h => char_ext (by have : ('y' : Char).toNat = 121 := rfl; have : ('Y' : Char).toNat = 89 := rfl; omega), by rintro rfl; rfl⟩

theorem lower_e (c : Char) : toAsciiLowercase c = 'e' ↔ c = 'e' ∨ c = 'E' := by
  rw [lower_eq c 'e' (by decide)]
  exact or_congr Iff.rfl ⟨fun h => char_ext (by have : ('e' : Char).toNat = 101 := rfl; have : ('E' : Char).toNat = 69 := rfl; omega), by rintro rfl; rfl⟩

theorem lower_s (c : Char) : toAsciiLowercase c = 's' ↔ c = 's' ∨ c = 'S' := by
  rw [lower_eq c 's' (by decide)]
  exact or_congr Iff.rfl ⟨fun h => char_ext (by have : ('s' : Char).toNat = 115 := rfl; have : ('S' : Char).toNat = 83 := rfl; omega), by rintro rfl; rfl⟩

theorem lower_n (c : Char) : toAsciiLowercase c = 'n' ↔ c = 'n' ∨ c = 'N' := by
  rw [lower_eq c 'n' (by decide)]
  exact or_congr Iff.rfl ⟨fun h => char_ext (by have : ('n' : Char).toNat = 110 := rfl; have : ('N' : Char).toNat = 78 := rfl; omega), by rintro rfl; rfl⟩

theorem lower_o (c : Char) : toAsciiLowercase c = 'o' ↔ c = 'o' ∨ c = 'O' := by
  rw [lower_eq c 'o' (by decide)]
  exact or_congr Iff.rfl ⟨fun h => char_ext (by have : ('o' : Char).toNat = 111 := rfl; have : ('O' : Char).toNat = 79 := rfl; omega), by rintro rfl; rfl⟩

theorem yes_iff (s : List Char) :
    (s.map toAsciiLowercase = ['y'] ∨ s.map toAsciiLowercase = ['y', 'e', 's']) ↔ Yes s := by
  unfold Yes
  match s with
  | [] => simp
  | [a] => simp [lower_y]
  | [a, b] => simp
  | [a, b, c] => simp [lower_y, lower_e, lower_s]; constructor
                 · rintro ⟨h1, h2, h3⟩; exact ⟨a, b, c, ⟨rfl, rfl, rfl⟩, h1, h2, h3⟩
                 · rintro ⟨_, _, _, ⟨rfl, rfl, rfl⟩, h⟩; exact h
  | a :: b :: c :: d :: s => simp

theorem no_iff (s : List Char) :
    (s.map toAsciiLowercase = ['n'] ∨ s.map toAsciiLowercase = ['n', 'o']) ↔ No s := by
  unfold No
  match s with
  | [] => simp
  | [a] => simp [lower_n]
  | [a, b] => simp [lower_n, lower_o]; constructor
              · rintro ⟨h1, h2⟩; exact ⟨a, b, ⟨rfl, rfl⟩, h1, h2⟩
              · rintro ⟨_, _, ⟨rfl, rfl⟩, h⟩; exact h
  | a :: b :: c :: s => simp

/-- An answer of the loop. -/
theorem readPromptBoolLoop_ok (t : Term) (prompt : List Char) (dflt : Bool) {r : Option Bool} {t' : Term}
    (h : readPromptBoolLoop t prompt dflt = (.ok r, t')) :
    ∃ b pre s l, r = some b ∧ t.stdin = pre ++ l ++ t'.stdin ∧ LineOf s l ∧ Means dflt s b ∧
      Lines (fun s => ∀ b, ¬ Means dflt s b) pre := by
  fun_induction readPromptBoolLoop t prompt dflt with
  | case1 t s t1 hr s' hy =>
    cases h
    obtain ⟨-, l, hl, hst⟩ := line_of_readPrompt hr
    exact ⟨true, [], s, l, rfl, by simpa using hst, hl, Or.inl ⟨(yes_iff s).1 hy, rfl⟩, .nil⟩
  | case2 t s t1 hr s' hy hn =>
    cases h
    obtain ⟨-, l, hl, hst⟩ := line_of_readPrompt hr
    exact ⟨false, [], s, l, rfl, by simpa using hst, hl, Or.inr (Or.inl ⟨(no_iff s).1 hn, rfl⟩), .nil⟩
  | case3 t s t1 hr s' hy hn he =>
    cases h
    obtain ⟨-, l, hl, hst⟩ := line_of_readPrompt hr
    exact ⟨dflt, [], s, l, rfl, by simpa using hst, hl, Or.inr (Or.inr ⟨by simpa [s'] using he, rfl⟩), .nil⟩
  | case4 t s t1 hr s' hy hn he t2 hp ih =>
    obtain ⟨-, l0, hl0, hst⟩ := line_of_readPrompt hr
    obtain ⟨b, pre, s2, l, rfl, h1, h2, h3, h4⟩ := ih h
    have hw := printlnInteractive_wrote t1 "Invalid input, please enter 'y' or 'n'.".toList
    rw [hp] at hw
    refine ⟨b, l0 ++ pre, s2, l, rfl, ?_, h2, h3, .cons s l0 pre hl0 ?_ h4⟩
    · have := hw.stdin
      simp only at this
      rw [hst, ← this, h1]; simp
    · rintro b' (⟨hb, -⟩ | ⟨hb, -⟩ | ⟨hb, -⟩)
      · exact hy ((yes_iff s).2 hb)
      · exact hn ((no_iff s).2 hb)
      · exact he (by simp [s', hb])
  | case5 => cases h
  | case6 => cases h
  | case7 => cases h
  | case8 => cases h

/-- The answer is found. -/
theorem readPromptBoolLoop_of_lines (prompt : List Char) (dflt : Bool) {pre : List Input}
    (hpre : Lines (fun s => ∀ b, ¬ Means dflt s b) pre) {s : List Char} {l rest : List Input} {b : Bool} (hl : LineOf s l)
    (hm : Means dflt s b) : ∀ (t : Term), CanPrompt t → WritesWork t → t.stdin = pre ++ l ++ rest →
    ∃ t', readPromptBoolLoop t prompt dflt = (.ok (some b), t') ∧ t'.stdin = rest := by
  induction hpre with
  | nil =>
    intro t hc hw hst
    obtain ⟨t1, h1, h2⟩ := readPrompt_of_line (t := t) prompt hc hw (l := l) (rest := rest) hl (by simpa using hst)
    refine ⟨t1, ?_, h2⟩
    rw [readPromptBoolLoop.eq_def]
    split
    · rename_i s0 t0 h0
      rw [h1] at h0; cases h0
      simp only
      have hny : Yes s → ¬ No s := by
        rintro (⟨a, rfl, ha⟩ | ⟨a, b, c, rfl, ha, hb, hc⟩) (⟨a', h, ha'⟩ | ⟨a', b', h, ha', hb'⟩)
        · simp only [List.cons.injEq, and_true] at h
          subst h
          rcases ha with rfl | rfl <;> simp at ha'
        all_goals simp at h
      have hey : ¬ Yes [] := by rintro (⟨a, h, -⟩ | ⟨a, b, c, h, -⟩) <;> cases h
      have hen : ¬ No [] := by rintro (⟨a, h, -⟩ | ⟨a, b, h, -⟩) <;> cases h
      rcases hm with ⟨hs, rfl⟩ | ⟨hs, rfl⟩ | ⟨hs, rfl⟩
      · rw [if_pos ((yes_iff s).2 hs)]
      · rw [if_neg (fun h => hny ((yes_iff s).1 h) hs), if_pos ((no_iff s).2 hs)]
      · subst hs
        rw [if_neg (fun h => hey ((yes_iff _).1 h)), if_neg (fun h => hen ((no_iff _).1 h)), if_pos (by simp)]
    · rename_i h0; rw [h1] at h0; cases h0
    · rename_i h0; rw [h1] at h0; cases h0
  | cons s0 l0 pre hl0 hs0 hpre ih =>
    intro t hc hw hst
    obtain ⟨t1, h1, h2⟩ := readPrompt_of_line (t := t) prompt hc hw (l := l0) (rest := pre ++ l ++ rest) hl0
      (by simpa using hst)
    have hf1 := (readPrompt_frame t prompt).1
    rw [h1] at hf1
    have hw1 := hf1.writesWork hw
    have hok := printlnInteractive_ok hw1 "Invalid input, please enter 'y' or 'n'.".toList
    have hwr := printlnInteractive_wrote t1 "Invalid input, please enter 'y' or 'n'.".toList
    generalize hq : printlnInteractive t1 "Invalid input, please enter 'y' or 'n'.".toList = q at *
    obtain ⟨q, t2⟩ := q
    simp only at hok hwr hf1
    subst hok
    have hf2 : Frame t t2 := hf1.trans hwr.toFrame
    have hc2 : CanPrompt t2 := by rw [← canRead_iff, hf2.canRead, canRead_iff]; exact hc
    obtain ⟨t', h3, h4⟩ := ih t2 hc2 (hf2.writesWork hw) (hwr.stdin.trans h2)
    refine ⟨t', ?_, h4⟩
    rw [readPromptBoolLoop.eq_def]
    split
    · rename_i s1 t0 h0
      rw [h1] at h0; cases h0
      simp only
      rw [if_neg (fun h => hs0 true (Or.inl ⟨(yes_iff _).1 h, rfl⟩)),
        if_neg (fun h => hs0 false (Or.inr (Or.inl ⟨(no_iff _).1 h, rfl⟩))),
        if_neg (fun h => hs0 dflt (Or.inr (Or.inr ⟨by simpa using h, rfl⟩)))]
      split
      · rename_i t0 h0; rw [hq] at h0; cases h0; exact h3
      · rename_i h0; rw [hq] at h0; cases h0
      · rename_i h0; rw [hq] at h0; cases h0
    · rename_i h0; rw [h1] at h0; cases h0
    · rename_i h0; rw [h1] at h0; cases h0

/-- The loop: what does not depend on the answer. -/
theorem readPromptBoolLoop_frame (t : Term) (prompt : List Char) (dflt : Bool) :
    Frame t (readPromptBoolLoop t prompt dflt).2 ∧ (readPromptBoolLoop t prompt dflt).1 ≠ .panic := by
  fun_induction readPromptBoolLoop t prompt dflt with
  | case1 t s t1 hr | case2 t s t1 hr | case3 t s t1 hr =>
    have := (readPrompt_frame t prompt).1; rw [hr] at this; exact ⟨this, by simp⟩
  | case4 t s t1 hr s' hy hn he t2 hp ih =>
    have h1 := (readPrompt_frame t prompt).1
    rw [hr] at h1
    have hw := printlnInteractive_wrote t1 "Invalid input, please enter 'y' or 'n'.".toList
    rw [hp] at hw
    exact ⟨(h1.trans hw.toFrame).trans ih.1, ih.2⟩
  | case5 t s t1 hr s' hy hn he e t2 hp =>
    have h1 := (readPrompt_frame t prompt).1
    rw [hr] at h1
    have hw := printlnInteractive_wrote t1 "Invalid input, please enter 'y' or 'n'.".toList
    rw [hp] at hw
    exact ⟨h1.trans hw.toFrame, by simp⟩
  | case6 t s t1 hr s' hy hn he t2 hp =>
    have := printlnInteractive_no_panic t1 "Invalid input, please enter 'y' or 'n'.".toList
    rw [hp] at this
    exact absurd rfl this
  | case7 t e t1 hr =>
    have := (readPrompt_frame t prompt).1; rw [hr] at this; exact ⟨this, by simp⟩
  | case8 t t1 hr =>
    have := (readPrompt_frame t prompt).2.2.1; rw [hr] at this; exact absurd rfl this

theorem readPromptBoolLoop_tty (t : Term) (prompt : List Char) (dflt : Bool) : (readPromptBoolLoop t prompt dflt).2.tty = t.tty := by
  fun_induction readPromptBoolLoop t prompt dflt with
  | case1 t s t1 hr | case2 t s t1 hr | case3 t s t1 hr =>
    have := (readPrompt_frame t prompt).2.1; rw [hr] at this; exact this
  | case4 t s t1 hr s' hy hn he t2 hp ih =>
    have h1 := (readPrompt_frame t prompt).2.1
    rw [hr] at h1
    have hw := printlnInteractive_wrote t1 "Invalid input, please enter 'y' or 'n'.".toList
    rw [hp] at hw
    exact ih.trans (hw.same.trans h1)
  | case5 t s t1 hr s' hy hn he e t2 hp | case6 t s t1 hr s' hy hn he t2 hp =>
    have h1 := (readPrompt_frame t prompt).2.1
    rw [hr] at h1
    have hw := printlnInteractive_wrote t1 "Invalid input, please enter 'y' or 'n'.".toList
    rw [hp] at hw
    exact hw.same.trans h1
  | case7 t e t1 hr | case8 t t1 hr =>
    have := (readPrompt_frame t prompt).2.1; rw [hr] at this; exact this

end Rypt.UI

namespace Rypt.UI

open Spec

theorem Lines.imp {P Q : List Char → Prop} (h : ∀ s, P s → Q s) {l : List Input} (hl : Lines P l) : Lines Q l := by
  induction hl with
  | nil => exact .nil
  | cons s l rest h1 h2 _ ih => exact .cons s l rest h1 (h s h2) ih

/-- The questions that can be asked. -/
theorem readPromptBool_some {t t' : Term} {v : Int} {prompt : List Char} {dflt b : Bool}
    (h : readPromptBool t v prompt dflt = (.ok (some b), t')) :
    CanPrompt t ∧ v ≤ t.verbosity ∧ ∃ pre s l, t.stdin = pre ++ l ++ t'.stdin ∧ LineOf s l ∧ Means dflt s b ∧
      Lines (fun s => ∀ b, ¬ Means dflt s b) pre := by
  unfold readPromptBool at h
  split at h
  · cases h
  · rename_i hc
    simp only [Bool.or_eq_true, Bool.not_eq_true', not_or, Bool.not_eq_false] at hc
    obtain ⟨b', pre, s, l, hb, h1, h2, h3, h4⟩ := readPromptBoolLoop_ok _ _ _ h
    cases hb
    exact ⟨(canRead_iff t).1 hc.1, of_decide_eq_true hc.2, pre, s, l, h1, h2, h3, h4⟩

end Rypt.UI

namespace Rypt.CryptStreams

open Spec

theorem typedYes_of_answer {t t' : UI.Term} {prompt : List Char} (h : UI.readPromptBool t 0 prompt false = (.ok (some true), t')) :
    TypedYes t t' := by
  obtain ⟨h1, h2, pre, s, l, h3, h4, h5, h6⟩ := UI.readPromptBool_some h
  refine ⟨h1, h2, pre, s, l, h3, h4, ?_, UI.Lines.imp ?_ h6⟩
  · rcases h5 with ⟨hy, -⟩ | ⟨-, hb⟩ | ⟨-, hb⟩
    · exact hy
    · cases hb
    · cases hb
  · intro s hs
    exact ⟨fun h => hs true (.inl ⟨h, rfl⟩), fun h => hs false (.inr (.inl ⟨h, rfl⟩)), fun h => hs false (.inr (.inr ⟨h, rfl⟩))⟩

end Rypt.CryptStreams
