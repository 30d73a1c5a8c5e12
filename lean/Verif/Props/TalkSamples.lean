import Verif.Props.Talk
import Verif.Props.StreamSamples

/-! Cases that meet the hypotheses of the theorems about what conversions say (C101 to C104). -/

namespace Rypt.Props.ProgramSample

open Getopts Cli UI Filesystem CryptStreams HeaderCrypto Program
open Spec (WritesWork)

/-! ### `rypt f` at a terminal; the user says "maybe", then "Yes" -/

def talkStart : Start := start encArgs (Spec.typed "pw\npw\nmaybe\nYes\n".toList) (fs (some [1, 2, 3]) none none none)

def talkStream : Stream := ⟨.file "f".toList, some (.file "f.rypt".toList)⟩

def talkConfig : Config := talkStart.config [talkStream] .promptUser false (.encrypt ⟨[(1, pw)], 1, 1⟩ false) talkStart.parse.2

theorem talkParse : talkStart.parse =
    (.ok (.cryptStreams [talkStream] .promptUser false (.encrypt ⟨[(1, pw)], 1, 1⟩ false)), talkStart.parse.2) :=
  Prod.ext (by with_unfolding_all rfl) rfl

/-- What is on the terminal when the command line has been read. -/
def enterLog : List Act :=
  [.wrote "Enter password: ".toList] ++ (Spec.typed "pw\n".toList).map (.read · false) ++ [.wrote "\n".toList] ++
  [.wrote "Confirm password: ".toList] ++ (Spec.typed "pw\n".toList).map (.read · false) ++ [.wrote "\n".toList, .wrote "\n".toList]

def talkUi : Ui := ⟨⟨Spec.typed "maybe\nYes\n".toList, true, true, true, 1, Spec.sampleTty, [], [], enterLog⟩, true⟩

theorem talkUi_eq : talkStart.parse.2 = talkUi := by with_unfolding_all rfl

/-- What is on the terminal afterwards. -/
def talkLog : List Act :=
  enterLog ++ [
    .wrote "f -> f.rypt (1/1)\n".toList,
    .wrote "\x1b[2K   100.0 %            3 B                    \r".toList,
    .wrote "\x1b[2K   100.0 %            3 B                    \n".toList,
    .wrote "\n".toList,
    .wrote "Remove original file(s)? [y/N]: ".toList] ++ (Spec.typed "maybe\n".toList).map (.read · true) ++ [
    .wrote "Invalid input, please enter 'y' or 'n'.\n".toList,
    .wrote "Remove original file(s)? [y/N]: ".toList] ++ (Spec.typed "Yes\n".toList).map (.read · true)

/-- What is on the terminal before the question. -/
def fileLog : List Act :=
  enterLog ++ [
    .wrote "f -> f.rypt (1/1)\n".toList,
    .wrote "\x1b[2K   100.0 %            3 B                    \r".toList,
    .wrote "\x1b[2K   100.0 %            3 B                    \n".toList,
    .wrote "\n".toList]

def talkTerm (stdin : List UI.Input) (log : List Act) : Term := ⟨stdin, true, true, true, 1, Spec.sampleTty, [], [], log⟩

deriving instance DecidableEq for TcFate, Termios, Term, Res

theorem talkAnswer : readPromptBool (talkTerm (Spec.typed "maybe\nYes\n".toList) fileLog) 0 "Remove original file(s)?".toList false =
    (.ok (some true), talkTerm [] talkLog) := by decide +kernel

theorem talkConverses {ls : List Label} {ts : TState}
    (h : TRun talkConfig "rypt".toList (TState.start talkConfig talkStart.fs talkUi) ls ts) : Converses talkStart ls ts := by
  rw [← talkUi_eq] at h
  exact .run _ _ _ _ _ _ _ talkParse h

theorem own_told : CryptFile.Told Toy.lib [1, 2, 3] (.encrypt (ownOpts false) 5 Sample.tape) ⟨ownFile false, some (.ok ()), false⟩ [3] := by
  obtain ⟨reports, h⟩ := told_iff.2 (encryption_can_finish (plain := [1, 2, 3]) Toy.lib_lawful (by omega) (own_ok false) (own_max false))
  have hne := (reports_add_up Toy.lib_lawful (by rintro _ _ _ ⟨⟩; omega) h).2 rfl
  rcases encryption_reports Toy.lib_lawful (by omega) (own_ok false) h with h0 | ⟨k, h1, -⟩
  · exact absurd h0 hne.1
  · generalize hcs : Spec.chunks _ _ = cs at h1
    have hc : cs.map (·.buffer.length) = [3] := by rw [← hcs]; decide +kernel
    rw [List.map_take, hc] at h1
    match k with
    | 0 => exact absurd (by simpa using h1) hne.1
    | k + 1 => rw [h1] at h; simpa [ownFile] using h

theorem own_told_before : ∃ f, CryptFile.Told Toy.lib [1, 2, 3] (.encrypt (ownOpts false) 5 Sample.tape) ⟨ownFile false, none, f⟩ [3] :=
  own_told.before_success rfl

/-- C98, C107: `rypt f` crashes if it takes more than three seconds to encrypt the three bytes. -/
theorem slow_crash : ∃ m, Reaches talkStart m ∧ m.exit = some 101 := by
  obtain ⟨f, ht⟩ := own_told_before
  have r0 : Run talkConfig (State.start talkConfig talkStart.fs) [] _ := .refl
  have r1 := Run.step _ _ _ _ r0 (.openInput _ _ _ _ (.file 0) (some 3) rfl rfl rfl rfl)
  have r2 := Run.step _ _ _ _ r1 (.openOutput _ _ _ _ _ _ (.encrypt (ownOpts false) 5 Sample.tape) [1, 2, 3] rfl
    (by with_unfolding_all rfl) ⟨rfl, by omega⟩ (by rintro _ ⟨⟩ _; rfl) (by rintro ⟨⟩))
  have r3 := Run.step _ _ _ _ r2 (.progressPanic _ _ _ _ _ _ _ (ownFile false) f 0 (some 3) [(3, 3001000000)] rfl List.nil_prefix
    ht.conversion trivial (by rintro ⟨⟩) (by rintro _ ⟨⟩; decide) (by decide +kernel) ⟨_, f, List.prefix_refl _, ht⟩)
  exact ⟨_, .crypt _ _ _ _ _ _ _ talkParse r3, rfl⟩

theorem talk_run : ∃ ls ts, Converses talkStart ls ts ∧ ts.st.pc = .done true ∧ Label.inputDeleted "f".toList ∈ ls ∧
    ts.st.fs.entry 0 = none ∧ ts.ui.term.log = talkLog := by
  have r0 : TRun talkConfig "rypt".toList (TState.start talkConfig talkStart.fs talkUi) [] _ := .refl
  have r1 := TRun.step _ _ _ _ r0 (.beginOpen _ talkStream [] (.file "f.rypt".toList) (.file 0) (some 3) 0 _ _ rfl rfl
    (.openInput _ _ _ _ _ (some 3) rfl rfl rfl rfl) rfl rfl (by with_unfolding_all rfl))
  have r2 := TRun.step _ _ _ _ r1 (.work _ _ _ _ _ _ _ _ (.openOutput _ _ _ _ _ _ (.encrypt (ownOpts false) 5 Sample.tape) [1, 2, 3] rfl
    (by with_unfolding_all rfl) ⟨rfl, by omega⟩ (by rintro _ ⟨⟩ _; rfl) (by rintro ⟨⟩)) rfl)
  obtain ⟨f, ht⟩ := own_told_before
  have r2 := TRun.step _ _ _ _ r2 (.work _ _ _ _ _ _ (ownFile false) _ (.write _ _ _ _ _ _ _ _ f rfl List.nil_prefix ht.conversion) rfl)
  have r3 := TRun.step _ _ _ _ r2 (.progress _ _ _ _ _ _ _ _ _ 3 7 _ (ownFile false) f rfl rfl (List.prefix_refl _) ht trivial
    (.line _ ⟨3, none, none⟩ "   100.0 %            3 B                    ".toList (by rfl) (by decide +kernel)))
  have r4 := TRun.step _ _ _ _ r3 (.finish _ _ _ _ _ _ _ _ false (.success _ _ _ _ _ _ _ (ownFile false) false rfl (List.prefix_refl _)
    own_told.conversion (by rintro ⟨⟩)) rfl own_told
    (.line ⟨3, none, none⟩ "   100.0 %            3 B                    ".toList (by rfl) (by decide +kernel)))
  have r5 := TRun.step _ _ _ _ r4 (.endOfFile _ _ _ rfl (.endOfFile _ rfl) (by with_unfolding_all rfl))
  have r6 := TRun.step _ _ _ _ r5 (.closing _ _ (.cleanups _ rfl rfl (by simp [inputCleanup, talkStream])) (.inl rfl))
  generalize hts : TState.mk _ _ _ _ = ts at r6
  have hui : ts.ui = ⟨talkTerm (Spec.typed "maybe\nYes\n".toList) fileLog, true⟩ := by subst hts; with_unfolding_all rfl
  have r7 := TRun.step _ _ _ _ r6 (.prompt _ (some true) (talkTerm [] talkLog) _ (.prompt _ _ _ _ (by rw [← hts]) rfl (by rw [hui]; exact talkAnswer)))
  subst hts
  have r8 := TRun.step _ _ _ _ r7 (.deleted _ "f".toList _ (.deleteInput _ _ [] _ rfl (by with_unfolding_all rfl)))
  have r9 := TRun.step _ _ _ _ r8 (.closing _ _ (.allDeleted _ rfl) (.inr (.inr ⟨true, rfl⟩)))
  exact ⟨_, _, talkConverses r9, rfl, by simp, by with_unfolding_all rfl, by with_unfolding_all rfl⟩

/-- C104 for it. -/
example : ∃ t', TypedYes talkStart.parse.2.term t' := by
  obtain ⟨ls, ts, h, -, hd, -⟩ := talk_run
  rcases program_asks_before_deletion talkStart [] encArgs encTyped.1 h _ hd with h | ⟨-, -, h⟩
  · simp [Given] at h
  · exact h

/-- C104: the entry of `f` is gone. -/
example : ∃ t', TypedYes talkStart.parse.2.term t' := by
  obtain ⟨ls, ts, h, -, -, hd, -⟩ := talk_run
  rcases files_deleted_only_if_asked talkStart (fs_wf _ _ _ _) [] encArgs encTyped.1 (by simp [Given]) h 0 (.file 0) rfl with h | ⟨-, -, h⟩
  · rw [hd] at h; cases h
  · rcases h with h | ⟨-, -, h⟩
    · simp [Given] at h
    · exact h

/-! ### Two files that cannot be opened, at verbosity `v` -/

def failConfig : Config := ⟨Toy.lib, [⟨.stdin, none⟩, talkStream], .keepFiles, false, .decrypt [pw], [], fun start calls => Spec.Plausible start none calls⟩

def failUi (v : Int) : Ui := ⟨⟨[], true, true, true, v, Spec.sampleTty, [], [], []⟩, true⟩

/-- What is on the terminal afterwards. -/
def failLog : List Act := [
  .wrote "(stdin) -> (error) (1/2)\n".toList, .wrote "rypt: no name\n".toList, .wrote "\n".toList,
  .wrote "f -> f.rypt (2/2)\n".toList, .wrote "rypt: no file\n".toList, .wrote "\n".toList]

/-- The same with `-q`. -/
def quietFailLog : List Act := [.wrote "rypt: no name\n".toList, .wrote "rypt: no file\n".toList]

theorem fail_run (v : Int) (log : List Act) (hv : v = 0 ∧ log = failLog ∨ v = -1 ∧ log = quietFailLog ∨ v = -2 ∧ log = []) :
    ∃ ls ts, TRun failConfig "rypt".toList (TState.start failConfig talkStart.fs (failUi v)) ls ts ∧
    ts.st.pc = .done false ∧ (∀ t a t', Label.answer t a t' ∉ ls) ∧ Label.uiFailed ∉ ls ∧ ts.ui.term.log = log := by
  rcases hv with ⟨rfl, rfl⟩ | ⟨rfl, rfl⟩ | ⟨rfl, rfl⟩
  all_goals
    generalize hv : failUi _ = ui
    have r0 : TRun failConfig "rypt".toList (TState.start failConfig talkStart.fs ui) [] _ := .refl
    subst hv
    have r1 := TRun.step _ _ _ _ r0 (.beginFails _ ⟨.stdin, none⟩ [talkStream] _ "no name".toList rfl rfl (.noOutput _ _ _ rfl rfl rfl) rfl)
    have r2 := TRun.step _ _ _ _ r1 (.failed _ _ _ (.failedNoOutput _ _ rfl))
    have r3 := TRun.step _ _ _ _ r2 (.endOfFile _ _ _ rfl (.endOfFile _ rfl) (by with_unfolding_all rfl))
    have r4 := TRun.step _ _ _ _ r3 (.beginFails _ talkStream [] _ "no file".toList rfl rfl (.openInputFails _ _ _ _ rfl rfl rfl) rfl)
    have r5 := TRun.step _ _ _ _ r4 (.failed _ _ _ (.failedNoOutput _ _ rfl))
    have r6 := TRun.step _ _ _ _ r5 (.endOfFile _ _ _ rfl (.endOfFile _ rfl) (by with_unfolding_all rfl))
    have r7 := TRun.step _ _ _ _ r6 (.closing _ _ (.noCleanups _ rfl rfl rfl) (.inr (.inr ⟨false, rfl⟩)))
    exact ⟨_, _, r7, rfl, by simp, by simp, by with_unfolding_all rfl⟩

theorem failUi_works (v : Int) : WritesWork (failUi v).term := by intro w hw; cases hw

/-- C101 for it. -/
example : ∃ rs, rs.map (·.stream) = [⟨.stdin, none⟩, talkStream] ∧ Spec.Reported failConfig talkStart.fs rs ∧
    Spec.Heard "rypt".toList 0 true (rs.flatMap (·.said)) failLog := by
  obtain ⟨ls, ts, h, hd, hno, hnf, hl⟩ := fail_run 0 _ (.inl ⟨rfl, rfl⟩)
  obtain ⟨rs, said, t, ls', acts, h1, h2, h3, h4, -, -, h5, h6⟩ := conversion_says (failUi_works 0) h hd
  have ha : acts = [] := by
    cases h5 with
    | silent => rfl
    | deletes _ _ _ hp => cases hp
    | nobody hp => cases hp
    | refused _ _ _ hp => cases hp
    | agreed _ _ _ _ _ _ hp => cases hp
    | failed _ _ _ _ hp => cases hp
  subst ha
  rw [hl] at h6
  simp only [failUi, List.nil_append, List.append_nil] at h6
  exact ⟨rs, h1, h2, h6 ▸ h4⟩

/-- C103 for it, with `-q`. -/
example : quietFailLog = [] ++ .wrote ("rypt".toList ++ ": ".toList ++ "no name".toList ++ "\n".toList) :: [.wrote "rypt: no file\n".toList] ∧
    ∃ pre msg post, quietFailLog = pre ++ .wrote ("rypt".toList ++ ": ".toList ++ msg ++ "\n".toList) :: post := by
  obtain ⟨ls, ts, h, hd, hno, hnf, hl⟩ := fail_run (-1) _ (.inr (.inl ⟨rfl, rfl⟩))
  obtain ⟨pre, msg, post, he⟩ := failure_is_reported (failUi_works (-1)) (by decide) h hd
  exact ⟨rfl, pre, msg, post, by rw [← hl]; exact he⟩

/-- C102 for it, with `-qq`. -/
example : ∃ ls ts, TRun failConfig "rypt".toList (TState.start failConfig talkStart.fs (failUi (-2))) ls ts ∧ ts.st.pc = .done false ∧
    ts.ui.term.log = [] := by
  obtain ⟨ls, ts, h, hd, -⟩ := fail_run (-2) _ (.inr (.inr ⟨rfl, rfl⟩))
  exact ⟨ls, ts, h, hd, silent_conversion h (by decide)⟩

/-- C101: on fresh lines. -/
example : ∃ texts : List (List Char), failLog = texts.map .wrote ∧
    ∀ pre a b post, texts = pre ++ a :: b :: post → "\n".toList <:+ a ∨ "\r".toList <:+ a ∧ "\x1b[2K".toList <+: b := by
  obtain ⟨ls, ts, h, hd, hno, hnf, hl⟩ := fail_run 0 _ (.inl ⟨rfl, rfl⟩)
  obtain ⟨texts, h1, h2⟩ := messages_on_fresh_lines (failUi_works 0) h hno hnf
  exact ⟨texts, by rw [← hl, h1]; rfl, h2⟩

theorem allText : Spec.RightText (some 3) ⟨3, none, none⟩ "   100.0 %            3 B                    ".toList := by
  obtain ⟨pct, size, speed, eta, text, h1, h2, -⟩ := progress_text (some 3) ⟨3, none, none⟩ (by simp) (by simp) (by simp)
  have : Progress.formatLine (some 3) ⟨3, none, none⟩ = .ok "   100.0 %            3 B                    ".toList := by decide +kernel
  rw [this] at h1
  cases h1
  exact ⟨_, _, _, _, h2⟩

/-- With a clock that does not run backwards. -/
def shownConfig : Config := ⟨Toy.lib, [talkStream], .keepFiles, false, .encrypt (ownOpts false), [], fun start calls => Spec.Plausible start none calls⟩

/-- C101: a progress line that is replaced and one that stays. -/
theorem shown_display : Spec.Display shownConfig talkStream (.encrypt (ownOpts false) 5 Sample.tape) [1, 2, 3] (some 3) [3]
    [.progress "   100.0 %            3 B                    ".toList, .final "   100.0 %            3 B                    ".toList] :=
  .shown 0 (some 3) [(3, 7)] [⟨3, none, none⟩] (some ⟨3, none, none⟩) [_] [_]
    (.inr ⟨⟨by simp [Spec.ClockForward], by decide, by decide, by simp⟩, rfl, by omega⟩)
    (fun p hp hne => by
      obtain ⟨f, ht⟩ := own_told_before
      rcases List.prefix_concat_iff.1 (show p <+: [] ++ [3] from hp) with rfl | h
      · exact ⟨_, f, ht⟩
      · exact absurd (List.prefix_nil.1 h) hne)
    (by rintro ⟨⟩) (fun _ _ => .inl (by simp)) (by rfl) (.cons allText .nil) (.cons allText .nil)

/-- C101 for it. -/
example := display_right shown_display (fun _ _ h => h)

/-! ### C102: `rypt -qq --password-file k f` -/

def quietArgs : List Arg := ["-qq".toList, "--password-file".toList, "k".toList, "f".toList]

def quietStart : Start := start quietArgs [] (fs (some [1, 2, 3]) none (some [112, 119]) none)

def quietOccs : List Occ := [⟨.quiet, 0, none⟩, ⟨.quiet, 0, none⟩, ⟨.passwordFile, 1, some "k".toList⟩]

theorem quietTyped : Typed 0 quietStart.args quietOccs ["f".toList] ∧ NoDuplicates quietOccs := by
  have h : parse quietArgs = .ok ⟨quietOccs, ["f".toList]⟩ := by decide +kernel
  exact (Getopts.parse_iff _ _).mp h

theorem quietParse : quietStart.parse =
    (.ok (.cryptStreams [talkStream] .promptUser false (.encrypt ⟨[(1, pw)], 1, 1⟩ false)), quietStart.parse.2) :=
  Prod.ext (by with_unfolding_all rfl) rfl

/-- The file is converted, silently. -/
theorem quiet_run : ∃ ls ts, Converses quietStart ls ts ∧ ts.st.pc = .done true ∧ ts.st.fs.holds "f.rypt".toList (ownFile false) ∧
    ts.ui.term.log = [] := by
  generalize hcfg : quietStart.config [talkStream] .promptUser false (.encrypt ⟨[(1, pw)], 1, 1⟩ false) quietStart.parse.2 = cfg
  have r0 : TRun cfg quietStart.name (TState.start cfg quietStart.fs quietStart.parse.2) [] _ := .refl
  subst hcfg
  have r1 := TRun.step _ _ _ _ r0 (.beginOpen _ talkStream [] (.file "f.rypt".toList) (.file 0) (some 3) 0 _ _ rfl rfl
    (.openInput _ _ _ _ _ (some 3) rfl rfl rfl rfl) rfl rfl (by with_unfolding_all rfl))
  have r2 := TRun.step _ _ _ _ r1 (.work _ _ _ _ _ _ _ _ (.openOutput _ _ _ _ _ _ (.encrypt (ownOpts false) 5 Sample.tape) [1, 2, 3] rfl
    (by with_unfolding_all rfl) ⟨rfl, by omega⟩ (by rintro _ ⟨⟩ _; rfl) (by rintro ⟨⟩)) rfl)
  obtain ⟨f, ht⟩ := own_told_before
  have r2 := TRun.step _ _ _ _ r2 (.work _ _ _ _ _ _ (ownFile false) _ (.write _ _ _ _ _ _ _ _ f rfl List.nil_prefix ht.conversion) rfl)
  have r2 := TRun.step _ _ _ _ r2 (.progress _ _ _ _ _ _ _ _ _ 3 7 _ (ownFile false) f rfl rfl (List.prefix_refl _) ht trivial
    (.line _ ⟨3, none, none⟩ "   100.0 %            3 B                    ".toList (by rfl) (by decide +kernel)))
  have r3 := TRun.step _ _ _ _ r2 (.finish _ _ _ _ _ _ _ _ false (.success _ _ _ _ _ _ _ (ownFile false) false rfl (List.prefix_refl _)
    own_told.conversion (by rintro ⟨⟩)) rfl own_told
    (.line ⟨3, none, none⟩ "   100.0 %            3 B                    ".toList (by rfl) (by decide +kernel)))
  have r4 := TRun.step _ _ _ _ r3 (.endOfFile _ _ _ rfl (.endOfFile _ rfl) (by with_unfolding_all rfl))
  have r5 := TRun.step _ _ _ _ r4 (.closing _ _ (.cleanups _ rfl rfl (by simp [inputCleanup, talkStream])) (.inl rfl))
  have r6 := TRun.step _ _ _ _ r5 (.prompt _ none _ _ (.prompt _ _ _ _ rfl rfl (by with_unfolding_all rfl)))
  have hc := Converses.run _ _ _ _ _ _ _ quietParse r6
  exact ⟨_, _, hc, rfl, ⟨4, rfl, rfl⟩, (silence quietStart quietOccs _ quietTyped.1 quietTyped.2 (by decide)).2 _ _ hc⟩

end Rypt.Props.ProgramSample
