import Verif.Proofs.Progress

/-! Properties of the progress display. -/

namespace Rypt.Props

open Progress Spec

/-- C57, in part: the display does not crash if the size of the file is unknown, or if every update reports at least one byte
per second since the one before. Missing: it does crash in other cases, see `first_update_panics_iff`. -/
theorem progress_no_panic_partial (start : Nat) (f : Option Nat) (calls : List (Nat × Nat)) (hs : Plausible start f calls)
    (h : f = none ∨ OneBytePerSecond start calls) : session start f calls ≠ .panic := by
  intro he
  rcases session_spec start f calls hs with ⟨ls, last, he', _⟩ | ⟨_, h1, h2⟩
  · rw [he] at he'
    cases he'
  · rcases h with h | h
    · exact h1 h
    · exact slow_not_oneByte h2 h

/-- C57: when the display crashes, then the size of the file is known, and some stretch of updates reports less than a byte per
second. The stretch begins at the start or is long. -/
theorem progress_panic_cause (start : Nat) (f : Option Nat) (calls : List (Nat × Nat)) (hs : Plausible start f calls)
    (h : session start f calls = .panic) : f ≠ none ∧ SlowStretch start calls := by
  rcases session_spec start f calls hs with ⟨ls, last, he', _⟩ | ⟨_, h1⟩
  · rw [h] at he'
    cases he'
  · exact h1

example : Plausible 5 (some 0) [(0, 1001000005)] ∧ session 5 (some 0) [(0, 1001000005)] = .panic :=
  ⟨⟨by simp [ClockForward], by decide, by decide, by rintro size ⟨⟩; decide⟩, by decide +kernel⟩

/-- Three updates of a file of 300 bytes: after 0.05, 1.5 and 2 s. -/
def sampleCalls : List (Nat × Nat) := [(100, 50000000), (100, 1500000000), (100, 2000000000)]

example : Plausible 0 (some 300) sampleCalls ∧ OneBytePerSecond 0 sampleCalls :=
  ⟨⟨by simp [sampleCalls, ClockForward], by decide, by decide, by rintro size ⟨⟩; decide⟩, by
    simp [sampleCalls, OneBytePerSecond]⟩

example : session 0 (some 300) sampleCalls =
    .ok ([⟨100, none, none⟩, ⟨200, some 133, some 1⟩, ⟨300, some 150, some 0⟩], some ⟨300, some 150, some 0⟩) := by
  decide +kernel

/-- C57, the other side: for a file of known size whose first update comes `d` ns after the start with `b` bytes, the display
crashes exactly if the update comes after more than a second, and after more than `b` seconds. -/
theorem first_update_panics_iff (start size b d : Nat) (hb : b * 1000 < 2 ^ 64) (hd : d / 1000000 < 2 ^ 64) (hs : size < 2 ^ 63) :
    session start (some size) [(b, start + d)] = .panic ↔ 1000 < d / 1000000 ∧ 1000 * b < d / 1000000 := by
  have hp : Plausible start (some size) [(b, start + d)] :=
    ⟨by simp [ClockForward], by simp only [totalBytes, Nat.add_zero]; exact hb, by simpa [lastInstant] using hd,
      by rintro s ⟨⟩; exact hs⟩
  have hm := measured_ok start (some size) [] [(b, start + d)] hp
  simp only [List.nil_append, lastInstant, totalBytes, Nat.add_zero, Nat.add_sub_cancel_left] at hm
  have hw : wrap64 b = b := Nat.mod_eq_of_lt (by omega)
  have key : ∀ s : Printer, s.filesize = some size → s.stamps = [(start, 0), (start + d, b)] →
      (s.printProgressLine = .panic ↔ 1000 < d / 1000000 ∧ 1000 * b < d / 1000000) := by
    intro s h1 h2
    rw [Printer.printProgressLine, h1, h2]
    simp only [List.head?_cons, List.getLast?_cons_cons, List.getLast?_singleton, hm, Res.bind_ok]
    by_cases hgt : 1000 < d / 1000000
    · simp only [if_pos hgt, remainingSecs]
      by_cases hz : b * 1000 / (d / 1000000) = 0
      · simp only [if_pos hz, Res.bind_panic, true_iff]
        rw [Nat.div_eq_zero_iff] at hz
        omega
      · simp only [if_neg hz, Res.bind_ok, Res.pure_def, reduceCtorEq, false_iff]
        rintro ⟨_, h3⟩
        exact hz (Nat.div_eq_of_lt (by omega))
    · simp only [if_neg hgt, remainingSecs, Res.bind_ok, Res.pure_def, reduceCtorEq, false_iff]
      omega
  have h0 : wrap64 (0 + b) = b := by rw [Nat.zero_add]; exact hw
  rw [session, Printer.run, Printer.printProgress, millisBetween,
    if_neg (show ¬ start + d < ((Printer.new start).setFilesize (some size)).start by simp [Printer.new, Printer.setFilesize]),
    Res.bind_ok, if_neg (by simp [Printer.new, Printer.setFilesize])]
  have hk1 := key { (Printer.new start).setFilesize (some size) with
    written := b
    lastPeriod := some ((start + d - start) / 1000000 / printPeriod)
    stamps := [(start, 0), (start + d, b)] } rfl rfl
  simp only [Printer.new, Printer.setFilesize, h0, List.cons_append, List.nil_append, List.length_cons, List.length_nil,
    keepStampsCount, show ¬ (0 + 1 + 1 > 10000 / 100) by decide, if_false] at hk1 ⊢
  by_cases hc : 1000 < d / 1000000 ∧ 1000 * b < d / 1000000
  · simp only [hk1.2 hc, Res.bind_panic, hc, and_self]
  · have hn : ¬ Printer.printProgressLine _ = .panic := fun h => hc (hk1.1 h)
    have hinv : Inv start (some size) [(b, start + d)] ⟨start, [(start, 0), (start + d, b)],
        some ((start + d - start) / 1000000 / printPeriod), false, some size, b⟩ :=
      ⟨rfl, rfl, by simp [marks], by simp [lastInstant, totalBytes], by simp [totalBytes],
        by simp [keepStampsCount]⟩
    have hspc : Spaced start ⟨start, [(start, 0), (start + d, b)],
        some ((start + d - start) / 1000000 / printPeriod), false, some size, b⟩ :=
      ⟨by simp, .inl rfl, by rintro p ⟨⟩; exact ⟨by simp, by rintro m ⟨⟩; rfl⟩, by rintro ⟨⟩⟩
    rcases printLine_spec _ _ _ _ hinv hspc hp with ⟨l, hl, _⟩ | ⟨hl, _⟩
    · have hk2 := key ⟨start, [(start, 0), (start + d, b)], some ((start + d - start) / 1000000 / printPeriod), true, some size, b⟩
        rfl rfl
      simp only [hl, Res.bind_ok, Res.pure_def, Printer.run, Printer.drop, if_true, hc, iff_false]
      cases hd2 : Printer.printProgressLine ⟨start, [(start, 0), (start + d, b)],
        some ((start + d - start) / 1000000 / printPeriod), true, some size, b⟩ with
      | ok a => simp
      | err e => simp
      | panic => exact absurd (hk2.1 hd2) hc
    · exact absurd hl hn

/-- C57: encrypting an empty file crashes when its first chunk comes more than a second after the start: when the password hashing
for the header takes that long, for example. -/
theorem empty_file_slow_start_panics (start d : Nat) (h1 : 1000 < d / 1000000) (h2 : d / 1000000 < 2 ^ 64) :
    session start (some 0) [(0, start + d)] = .panic :=
  (first_update_panics_iff start 0 0 d (by decide) h2 (by decide)).2 ⟨h1, by omega⟩

example : session 5 (some 0) [(0, 1001000005)] = .panic := by decide +kernel

/-- C75: every line that is printed says what it should, the bytes never go backwards, the final line counts
all bytes, and it is printed exactly if others were. -/
theorem progress_lines_right (start : Nat) (f : Option Nat) (calls : List (Nat × Nat)) (hs : Plausible start f calls)
    (ls : List Line) (last : Option Line) (h : session start f calls = .ok (ls, last)) :
    (∀ l ∈ ls, ∃ q r, calls = q ++ r ∧ q ≠ [] ∧ LineRight start f q l) ∧ ls.Pairwise (fun a b => a.written ≤ b.written) ∧
      (calls ≠ [] → ls ≠ [] ∧ ∃ l, last = some l ∧ LineRight start f calls l) ∧ (calls = [] → ls = [] ∧ last = none) := by
  rcases session_spec start f calls hs with ⟨ls', last', he', h1, h2, h3, h4⟩ | ⟨he', _⟩
  · rw [h] at he'
    cases he'
    refine ⟨h1, h2, fun hne => ?_, fun he => ?_⟩
    · rcases h4 with ⟨_, h4, _⟩ | ⟨l, h4, _, h5, h6⟩
      · exact absurd h4 hne
      · exact ⟨h5, l, h4, h6⟩
    · rcases h4 with ⟨h4, _, h5⟩ | ⟨l, h4, h5, _⟩
      · exact ⟨h5, h4⟩
      · exact absurd he h5
  · rw [h] at he'
    cases he'

/-- C75: at the end of a file that was read in full, the final line shows its whole size, with nothing to go. -/
theorem final_line_complete (start size : Nat) (calls : List (Nat × Nat)) (hs : Plausible start (some size) calls)
    (hne : calls ≠ []) (hall : size ≤ totalBytes calls) (ls : List Line) (last : Option Line)
    (h : session start (some size) calls = .ok (ls, last)) :
    ∃ l, last = some l ∧ l.written = size ∧ ∀ e, l.eta = some e → e = 0 := by
  obtain ⟨-, l, h1, h2⟩ := (progress_lines_right start (some size) calls hs ls last h).2.2.1 hne
  have hw : l.written = size := by
    rw [h2.written]
    simp only [atMost]
    omega
  refine ⟨l, h1, hw, fun e he => ?_⟩
  obtain ⟨v, size', _, ⟨⟩, h3, h4⟩ := h2.eta e he
  rw [hw, Nat.sub_self, Nat.zero_add] at h4
  by_contra hne'
  have : v * 1 ≤ v * e := Nat.mul_le_mul_left _ (by omega)
  omega

/-- C75: at most one line is printed per tenth of a second (apart from the final one). -/
theorem progress_rate (start : Nat) (f : Option Nat) (calls : List (Nat × Nat)) (hs : Plausible start f calls)
    (ls : List Line) (last : Option Line) (h : session start f calls = .ok (ls, last)) :
    ls.length ≤ (lastInstant start calls - start) / 1000000 / 100 + 1 := by
  rcases session_spec start f calls hs with ⟨ls', last', he', h1, h2, h3, h4⟩ | ⟨he', _⟩
  · rw [h] at he'
    cases he'
    exact h3
  · rw [h] at he'
    cases he'

end Rypt.Props
