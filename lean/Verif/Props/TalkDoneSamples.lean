import Verif.Props.TalkDone
import Verif.Props.TalkSamples

/-! Cases for C106, and a progress display that is wrong. -/

namespace Rypt.Props.ProgramSample

open Cli UI Filesystem CryptStreams HeaderCrypto Program
open Spec (WritesWork)

/-- A file `f` and a link `l` to it. -/
def linkFs : FS where
  loc p := if p = "f".toList then 0 else if p = "l".toList then 1 else 2
  entry n := match n with
    | 0 => some (.file 0)
    | 1 => some (.symlink 0)
    | _ => none
  content _ := [1, 2, 3]
  nlink _ := 1
  nextIno := 1
  linkSize _ := 1

theorem linkFs_wf : linkFs.WF := by
  intro n ino h
  match n with
  | 0 => cases h; decide
  | 1 => cases h
  | n + 2 => cases h

/-- `rypt -s -k f` (or `l`). -/
def doneConfig (p : Path) : Config :=
  ⟨Toy.lib, [⟨.fileStream p, some .stdout⟩], .keepFiles, false, .encrypt (ownOpts false), [], fun start calls => Spec.Plausible start none calls⟩

/-- The file: the display shows three bytes. -/
theorem file_size_shown : ∃ ls ts, TRun (doneConfig "f".toList) "rypt".toList (TState.start (doneConfig "f".toList) linkFs (failUi 0)) ls ts ∧
    ts.st.pc = .done true ∧
    Label.converted ⟨.fileStream "f".toList, some .stdout⟩ (.encrypt (ownOpts false) 5 Sample.tape) [1, 2, 3] (ownFile false) ∈ ls ∧
    ts.ui.term.log = [.wrote "f -> (stdout) (1/1)\n".toList,
      .wrote ("\x1b[2K".toList ++ "   100.0 %            3 B                    ".toList ++ "\r".toList),
      .wrote ("\x1b[2K".toList ++ "   100.0 %            3 B                    ".toList ++ "\n".toList), .wrote "\n".toList] := by
  have r0 : TRun (doneConfig "f".toList) "rypt".toList (TState.start (doneConfig "f".toList) linkFs (failUi 0)) [] _ := .refl
  have r1 := TRun.step _ _ _ _ r0 (.beginOpen _ _ [] .stdout (.file 0) (some 3) 0 _ _ rfl rfl
    (.openInput _ _ _ _ _ (some 3) rfl rfl rfl rfl) rfl rfl (by with_unfolding_all rfl))
  have r2 := TRun.step _ _ _ _ r1 (.work _ _ _ _ _ _ _ _ (.openOutput _ _ _ _ _ _ (.encrypt (ownOpts false) 5 Sample.tape) [1, 2, 3] rfl
    (by with_unfolding_all rfl) ⟨rfl, by omega⟩ (by rintro _ ⟨⟩ _; rfl) (by rintro ⟨⟩)) rfl)
  obtain ⟨f, ht⟩ := own_told_before
  have r2 := TRun.step _ _ _ _ r2 (.work _ _ _ _ _ _ (ownFile false) _ (.write _ _ _ _ _ _ _ _ f rfl List.nil_prefix ht.conversion) rfl)
  have r3 := TRun.step _ _ _ _ r2 (.progress _ _ _ _ _ _ _ _ _ 3 7 _ (ownFile false) f rfl rfl (List.prefix_refl _) ht
    ⟨by simp [Spec.ClockForward], by decide, by decide, by simp⟩ (.line _ ⟨3, none, none⟩ "   100.0 %            3 B                    ".toList (by rfl) (by decide +kernel)))
  have r4 := TRun.step _ _ _ _ r3 (.finish _ _ _ _ _ _ _ _ false (.success _ _ _ _ _ _ _ (ownFile false) false rfl (List.prefix_refl _)
    own_told.conversion (by rintro ⟨⟩)) rfl own_told (.line ⟨3, none, none⟩ "   100.0 %            3 B                    ".toList (by rfl) (by decide +kernel)))
  have r5 := TRun.step _ _ _ _ r4 (.endOfFile _ _ _ rfl (.endOfFile _ rfl) (by with_unfolding_all rfl))
  have r6 := TRun.step _ _ _ _ r5 (.closing _ _ (.noCleanups _ rfl rfl rfl) (.inr (.inr ⟨true, rfl⟩)))
  exact ⟨_, _, r6, rfl, by simp, by with_unfolding_all rfl⟩

/-- C106 cannot be proved for links: in stream mode the display takes the length of the text in the link for the size of the input.
Three bytes were converted, and `100.0 %` of one byte is shown. -/
theorem link_size_shown : ∃ ls ts, TRun (doneConfig "l".toList) "rypt".toList (TState.start (doneConfig "l".toList) linkFs (failUi 0)) ls ts ∧
    ts.st.pc = .done true ∧
    Label.converted ⟨.fileStream "l".toList, some .stdout⟩ (.encrypt (ownOpts false) 5 Sample.tape) [1, 2, 3] (ownFile false) ∈ ls ∧
    ts.ui.term.log = [.wrote "l -> (stdout) (1/1)\n".toList,
      .wrote ("\x1b[2K".toList ++ "   100.0 %            1 B                    ".toList ++ "\r".toList),
      .wrote ("\x1b[2K".toList ++ "   100.0 %            1 B                    ".toList ++ "\n".toList), .wrote "\n".toList] := by
  have r0 : TRun (doneConfig "l".toList) "rypt".toList (TState.start (doneConfig "l".toList) linkFs (failUi 0)) [] _ := .refl
  have r1 := TRun.step _ _ _ _ r0 (.beginOpen _ _ [] .stdout (.file 0) (some 1) 0 _ _ rfl rfl
    (.openInput _ _ _ _ _ (some 1) rfl rfl rfl rfl) rfl rfl (by with_unfolding_all rfl))
  have r2 := TRun.step _ _ _ _ r1 (.work _ _ _ _ _ _ _ _ (.openOutput _ _ _ _ _ _ (.encrypt (ownOpts false) 5 Sample.tape) [1, 2, 3] rfl
    (by with_unfolding_all rfl) ⟨rfl, by omega⟩ (by rintro _ ⟨⟩ _; rfl) (by rintro ⟨⟩)) rfl)
  obtain ⟨f, ht⟩ := own_told_before
  have r2 := TRun.step _ _ _ _ r2 (.work _ _ _ _ _ _ (ownFile false) _ (.write _ _ _ _ _ _ _ _ f rfl List.nil_prefix ht.conversion) rfl)
  have r3 := TRun.step _ _ _ _ r2 (.progress _ _ _ _ _ _ _ _ _ 3 7 _ (ownFile false) f rfl rfl (List.prefix_refl _) ht
    ⟨by simp [Spec.ClockForward], by decide, by decide, by simp⟩ (.line _ ⟨1, none, none⟩ "   100.0 %            1 B                    ".toList (by rfl) (by decide +kernel)))
  have r4 := TRun.step _ _ _ _ r3 (.finish _ _ _ _ _ _ _ _ false (.success _ _ _ _ _ _ _ (ownFile false) false rfl (List.prefix_refl _)
    own_told.conversion (by rintro ⟨⟩)) rfl own_told (.line ⟨1, none, none⟩ "   100.0 %            1 B                    ".toList (by rfl) (by decide +kernel)))
  have r5 := TRun.step _ _ _ _ r4 (.endOfFile _ _ _ rfl (.endOfFile _ rfl) (by with_unfolding_all rfl))
  have r6 := TRun.step _ _ _ _ r5 (.closing _ _ (.noCleanups _ rfl rfl rfl) (.inr (.inr ⟨true, rfl⟩)))
  exact ⟨_, _, r6, rfl, by simp, by with_unfolding_all rfl⟩

/-- That line does not show all of the input. -/
theorem link_size_wrong (size : Option Nat) : ¬ Spec.ShowsAll size 3 "   100.0 %            1 B                    ".toList := by
  rintro ⟨l, pct, sz, speed, eta, h, hw, -, -⟩
  have hsz : '3' ∈ sz := by
    have hs := h.size
    rw [hw] at hs
    cases hs with
    | exact t h1 h2 =>
      rw [decimal_unique h2 (show Spec.Decimal "3".toList 3 from ⟨by decide, by decide, by decide, by decide⟩)]
      decide
    | scaled k a b ta tb h1 _ h3 =>
      have : 1024 ^ 1 ≤ 1024 ^ k := Nat.pow_le_pow_right (by decide) h1
      omega
  obtain ⟨c1, c2, c3, -, ⟨pad, hc2, -, -⟩, -, ht⟩ := h.layout
  have : '3' ∈ "   100.0 %            1 B                    ".toList := by
    rw [ht, hc2]
    simp [hsz]
  exact absurd this (by decide)

theorem doneClock (p : Path) : ClockWorks (doneConfig p).histories := fun _ _ h => ⟨h.forward, h.time⟩

/-- C106 for the file. -/
example : ∃ text, Spec.ShowsAll (some 3) 3 text ∧ ∃ ls ts, TRun (doneConfig "f".toList) "rypt".toList (TState.start (doneConfig "f".toList) linkFs (failUi 0)) ls ts ∧
    [.wrote ("\x1b[2K".toList ++ text ++ "\n".toList), .wrote "\n".toList] <:+: ts.ui.term.log := by
  obtain ⟨ls, ts, h1, h2, h3, -⟩ := file_size_shown
  obtain ⟨text, h4, h5⟩ := finished_file_shown_partial (failUi_works 0) Toy.lib_lawful (doneClock _) linkFs_wf rfl (by decide) rfl h1 h2 h3
    (by decide) (.stream _ 0 rfl (by decide))
  exact ⟨text, h4, ls, ts, h1, h5⟩

/-- C106: all lines about the file. -/
example : ∃ ls ts k lines texts, TRun (doneConfig "f".toList) "rypt".toList (TState.start (doneConfig "f".toList) linkFs (failUi 0)) ls ts ∧
    List.Forall₂ (Spec.Utter.Says "rypt".toList) (.header ⟨.fileStream "f".toList, some .stdout⟩ (k + 1) 1 :: lines ++ [.blank]) texts ∧
    texts.map .wrote <:+: ts.ui.term.log := by
  obtain ⟨ls, ts, h1, h2, h3, -⟩ := file_size_shown
  obtain ⟨k, lines, texts, -, -, h6, h7⟩ := converted_file_lines_partial (failUi_works 0) Toy.lib_lawful (doneClock _) linkFs_wf rfl
    (by decide) rfl h1 h2 h3 (by decide) (.stream _ 0 rfl (by decide))
  exact ⟨ls, ts, k, lines, texts, h1, h6, h7⟩

/-- C106 for the lines of `shown_display`. -/
example := shown_is_done (cfg := shownConfig) Toy.lib_lawful (fun _ _ h => ⟨h.forward, h.time⟩) (by decide) (by simp) shown_display

end Rypt.Props.ProgramSample
