import Verif.Proofs.ProgressText
import Verif.Props.Human
import Verif.Props.Progress

/-! Property C100: what a progress line says. -/

namespace Rypt.Props

open Progress Human Spec

/-- C58: a size is shown as it should be. -/
theorem size_shown (n : Nat) (h : n < 2 ^ 64) : ∃ t, humanFileSize n = .ok t ∧ SizeShown n t := by
  by_cases hs : n < 1024
  · obtain ⟨t, h1, h2⟩ := size_text_small n hs
    exact ⟨_, h2, .exact t hs h1⟩
  · obtain ⟨k, a, b, ta, tb, h1, h2, h3, h4, h5, h6, h7, h8, h9, -⟩ := size_text n (by omega) h
    exact ⟨_, h7, .scaled k a b ta tb h1 h2 h3 h4 h5 h6 h8 h9⟩

/-- C100: the text of a line has the percentage, the bytes, the speed and the time to go in their columns, and none of them is
wrong; it consists of visible characters and spaces. -/
theorem progress_text (f : Option Nat) (l : Line) (hw : l.written < 2 ^ 64) (hv : ∀ v, l.speed = some v → v < 2 ^ 64)
    (hf : ∀ n, f = some n → l.written ≤ n) :
    ∃ pct size speed eta text, formatLine f l = .ok text ∧ LineShown f l pct size speed eta text ∧
      ∀ c ∈ text, 32 ≤ c.toNat ∧ c.toNat ≤ 126 := by
  obtain ⟨size, hs, hs'⟩ := size_shown l.written hw
  obtain ⟨speed, hsp, hsp1, hsp2⟩ : ∃ speed, optText (fun s => do
      let t ← humanFileSize s
      pure (t ++ ['/', 's'])) l.speed = .ok speed ∧ (l.speed = none → speed = []) ∧
      (∀ v, l.speed = some v → ∃ t, SizeShown v t ∧ speed = t ++ "/s".toList) := by
    cases hsv : l.speed with
    | none => exact ⟨[], rfl, fun _ => rfl, by rintro v ⟨⟩⟩
    | some v =>
      obtain ⟨t, h1, h2⟩ := size_shown v (hv v hsv)
      exact ⟨t ++ ['/', 's'], by simp only [optText, h1, Res.bind_ok, Res.pure_def], nofun, by rintro _ ⟨⟩; exact ⟨t, h2, rfl⟩⟩
  obtain ⟨eta, het, het1, het2⟩ : ∃ eta, optText (fun d => pure (['E', 'T', 'A', ' ', ' '] ++ humanDuration d ++ ['s'])) l.eta = .ok eta ∧
      (l.eta = none → eta = []) ∧ (∀ e, l.eta = some e → ∃ t, Clock e t ∧ eta = "ETA  ".toList ++ t ++ "s".toList) := by
    cases hev : l.eta with
    | none => exact ⟨[], rfl, fun _ => rfl, by rintro v ⟨⟩⟩
    | some e => exact ⟨_, rfl, nofun, by rintro _ ⟨⟩; exact ⟨_, duration_text e, rfl⟩⟩
  have hline : LineShown f l (percent f l.written) size speed eta ([' ', ' ', ' '] ++ padLeft 5 (percent f l.written) ++ [' ', '%', ' '] ++ padLeft 14 size ++ [' ']
    ++ padLeft 16 speed ++ [' ', ' ', ' '] ++ eta) :=
    { layout := ⟨_, _, _, padLeft_column _ _, padLeft_column _ _, padLeft_column _ _, rfl⟩
      unknown := by rintro rfl; rfl
      percent := by rintro n rfl; exact percent_shown _ _ (by have := hf n rfl; omega)
      size := hs'
      no_speed := hsp1
      speed := hsp2
      no_eta := het1
      eta := het2 }
  refine ⟨_, size, speed, eta, _, ?_, hline, plain_line hline⟩
  rw [formatLine, hs, Res.bind_ok, hsp, Res.bind_ok, het, Res.bind_ok, Res.pure_def]

/-- C100: the whole file is 100.0 %, nothing is 0.0 %. (An empty file stays at 0.0 %.) -/
theorem percent_ends (n : Nat) : percent (some n) 0 = "0.0".toList ∧ (n ≠ 0 → percent (some n) n = "100.0".toList) :=
  ⟨percent_none n, fun h => percent_all n n (by omega)⟩

example : formatLine (some 300000) ⟨200000, some 133000, some 3661⟩ =
    .ok "    66.7 %     195.31 KiB     129.88 KiB/s   ETA  1:01:01s".toList := by decide +kernel
example : formatLine none ⟨1023, none, none⟩ = .ok "     --- %         1023 B                    ".toList := by decide +kernel
example : formatLine (some 1000000) ⟨999499, none, none⟩ = .ok "    99.9 %     976.07 KiB                    ".toList := by
  decide +kernel
/-- 100.0 % may be shown before the end. -/
example : percent (some 1000000) 999999 = "100.0".toList := by decide +kernel
example : PercentShown 2 3 "66.7".toList :=
  ⟨66, 7, "66".toList, "7".toList, rfl, ⟨by decide, by decide, by decide, by decide⟩, ⟨by decide, by decide, by decide, by decide⟩,
    by decide, by decide, by decide, by decide⟩
example : ¬ PercentShown 1 2 "50.1".toList := by
  rintro ⟨a, b, ta, tb, h, ha, hb, h10, -, h1, -⟩
  obtain ⟨rfl, rfl⟩ : ta = "50".toList ∧ tb = "1".toList := by
    have hd : '.' ∉ ta := fun hm => absurd (ha.digits _ hm) (by decide)
    match ta, h, hd with
    | [], h, _ => simp at h
    | [_], h, _ => simp at h
    | [_, _], h, _ => simp at h; simp [← h.1, ← h.2.1, ← h.2.2]
    | [_, _, _], h, _ => simp at h
    | _ :: _ :: _ :: _ :: rest, h, _ =>
      have := congrArg List.length h
      simp at this
  have h1' := ha.value
  have h2' := hb.value
  simp [digitsValue] at h1' h2'
  omega

/-- C100: every line of a session can be printed: its text is as it should be. -/
theorem session_text (start : Nat) (f : Option Nat) (calls : List (Nat × Nat)) (ls : List Line) (last : Option Line)
    (h : session start f calls = .ok (ls, last)) (l : Line) (hl : l ∈ ls ∨ last = some l) :
    ∃ pct size speed eta text, formatLine f l = .ok text ∧ LineShown f l pct size speed eta text ∧
      ∀ c ∈ text, 32 ≤ c.toNat ∧ c.toNat ≤ 126 := by
  suffices hfit : Fits f l from progress_text f l hfit.1 hfit.2.1 hfit.2.2
  unfold session at h
  obtain ⟨⟨s', ls'⟩, h1, h⟩ := Res.bind_eq_ok.1 h
  obtain ⟨last', h2, h⟩ := Res.bind_eq_ok.1 h
  cases h
  obtain ⟨h3, h4, h5⟩ := run_fits calls _ _ _ (by simp [Printer.new, Printer.setFilesize]) h1
  have hf : s'.filesize = f := h5
  rcases hl with hl | rfl
  · exact h3 l hl
  · unfold Printer.drop at h2
    split at h2
    · obtain ⟨⟨s2, l2⟩, h6, h2⟩ := Res.bind_eq_ok.1 h2
      cases h2
      rw [← hf]
      exact (printProgressLine_fits h4 h6).1
    · cases h2

end Rypt.Props
