import Verif.Model.ProgramTalk
import Verif.Proofs.TalkLift
import Verif.Proofs.TalkLines
import Verif.Proofs.TalkSizes
import Verif.Props.CryptStreams
import Verif.Props.Program
import Verif.Props.Reports

/-! Properties C101 to C104: what a conversion says, and whom it asks. -/

namespace Rypt.Props

open CryptStreams UI Cli Filesystem Spec Program Getopts

variable {cfg : Config} {name : List Char} {fs0 : FS} {ui : Ui} {ls : List Label} {ts : TState}

/-- C101: an execution with its messages is an execution of the kind C31 to C36 are about; verbosity and progress display stay as they
were set. -/
theorem talking_is_running (h : TRun cfg name (TState.start cfg fs0 ui) ls ts) :
    Run cfg (State.start cfg fs0) ls ts.st ∧ ts.ui.progress = ui.progress ∧ ts.ui.term.verbosity = ui.term.verbosity :=
  ⟨h.project, (trun_quiet h).1, (trun_quiet h).2.1⟩

/-- C101: conversely every execution that asks nothing is possible with messages, if the clock may stand still. -/
theorem running_is_talking (hw : WritesWork ui.term) (hi : ui.term.hasInput = true)
    (hs : (cfg.streams.filter (fun s => decide (s.input = .stdin))).length ≤ 1) {st : State}
    (h : Run cfg (State.start cfg fs0) ls st) (hno : ∀ t a t', Label.answer t a t' ∉ ls) (hnf : Label.uiFailed ∉ ls)
    (hL : cfg.lib.Lawful) (hh : ∀ s dir i o, Label.converted s dir i o ∈ ls → ∀ bytes : List Nat, bytes.sum ≤ i.length →
      cfg.histories 0 (bytes.map (·, 0))) :
    ∃ ls' ts, ls'.filter Seen = ls.filter Seen ∧ TRun cfg name (TState.start cfg fs0 ui) ls' ts ∧ ts.st = st := by
  obtain ⟨ls', ts, h0, h1, h2, -⟩ := lift_run name hw hi hs h hno hnf fun s dir i o hm bs f w ht =>
    hh s dir i o hm bs (reports_add_up hL (fun opts draw tape hd => by
      have := (converted_allowed h).2 s dir i o hm
      rw [hd] at this
      cases hc : cfg.direction with
      | encrypt o => rw [hc] at this; exact this.2
      | decrypt S => rw [hc] at this; exact this.elim) ht).1
  exact ⟨ls', ts, h0, h1, h2⟩

/-- C101: what a conversion has said at its end. For every file, in order: its name and the name of the output with its number and the
number of files; the progress lines; the error if it failed, and another if the incomplete output could not be deleted; an empty line.
Then the question, if there is somebody to answer it, and the inputs that could not be deleted. -/
theorem conversion_says (hw : WritesWork ui.term) (h : TRun cfg name (TState.start cfg fs0 ui) ls ts) {ok : Bool}
    (hd : ts.st.pc = .done ok) :
    ∃ rs said t ls' acts, rs.map (·.stream) = cfg.streams ∧ Reported cfg fs0 rs ∧ ls.filter Seen = rs.flatMap (·.events) ++ ls' ∧
      Heard name ui.term.verbosity ui.progress (rs.flatMap (·.said)) said ∧
      SameTerm cfg ui.term t ∧ t.log = ui.term.log ++ said ∧ Closing cfg name ui.progress t ls' acts ∧
      ts.ui.term.log = ui.term.log ++ said ++ acts := by
  have hp := phase_run hw h
  rw [hd] at hp
  generalize ls.filter Seen = L at hp ⊢
  generalize ts.st.todo = todo at hp
  generalize ts.begun = begun at hp
  generalize ts.live = live at hp
  generalize ts.ui = ui' at hp ⊢
  cases hp with
  | done rs ui1 ls' acts _ _ e1 e2 e3 e4 e5 =>
    obtain ⟨p, said, s, hh⟩ := e3
    rw [p] at e4
    exact ⟨rs, said, ui1.term, ls', acts, e1.symm, e2, rfl, hh, ⟨s.inputIsTty, s.outputIsTty, s.verbosity, s.tty, s.given⟩, s.log, e4,
      by rw [e5, s.log]⟩

/-- C101: each progress line shows a number of bytes that had been converted at some moment, in the sense of C75 (for files below 2^63
bytes), and its text is right in the sense of C100. The one that stays shows the last. -/
theorem display_right {s : Stream} {dir : CryptFile.Direction} {input : Bytes} {size : Option Nat} {reports : List Nat} {us : List Utter}
    (h : Display cfg s dir input size reports us)
    (hh : ∀ start calls, cfg.histories start calls → Plausible start none calls) :
    ∀ u ∈ us, ∃ start q r l text, (u = .progress text ∨ u = .final text) ∧ cfg.histories start (q ++ r) ∧
      (u = .final text → r = []) ∧ ((∀ n, size = some n → n < 2 ^ 63) → LineRight start size q l) ∧ RightText size l text := by
  cases h with
  | shown start size calls lines last texts stays h1 h0 h2 h3 h4 h5 h6 =>
    intro u hu
    have hnil : calls = [] → lines = [] ∧ last = none := by
      rintro rfl
      cases h4
      exact ⟨rfl, rfl⟩
    have hne : calls ≠ [] := by
      intro he
      obtain ⟨rfl, rfl⟩ := hnil he
      cases h5
      cases h6
      simp at hu
    have hcalls := (h1.resolve_left hne).1
    obtain ⟨p1, p2, p3, -⟩ := hh _ _ hcalls
    have hpl : (∀ n, size = some n → n < 2 ^ 63) → Plausible start size calls := fun hs => ⟨p1, p2, p3, hs⟩
    by_cases hs : ∀ n, size = some n → n < 2 ^ 63
    · obtain ⟨r1, -, r3, -⟩ := progress_lines_right start size calls (hpl hs) lines last h4
      rcases List.mem_append.mp hu with hu | hu
      · obtain ⟨text, ht, rfl⟩ := List.mem_map.mp hu
        obtain ⟨l, hl, hr⟩ := forall₂_mem_right h5 ht
        obtain ⟨q, r, rfl, hq, hlr⟩ := r1 l hl
        exact ⟨start, q, r, l, text, .inl rfl, hcalls, nofun, fun _ => hlr, hr⟩
      · obtain ⟨text, ht, rfl⟩ := List.mem_map.mp hu
        obtain ⟨l, hl, hr⟩ := forall₂_mem_right h6 ht
        obtain ⟨-, l', hl', hlr⟩ := r3 hne
        rw [hl'] at hl
        simp only [Option.toList_some, List.mem_singleton] at hl
        subst hl
        exact ⟨start, calls, [], l, text, .inr rfl, by simpa using hcalls, fun _ => rfl, fun _ => hlr, hr⟩
    · rcases List.mem_append.mp hu with hu | hu
      · obtain ⟨text, ht, rfl⟩ := List.mem_map.mp hu
        obtain ⟨l, hl, hr⟩ := forall₂_mem_right h5 ht
        exact ⟨start, calls, [], l, text, .inl rfl, by simpa using hcalls, fun _ => rfl, fun h => absurd h hs, hr⟩
      · obtain ⟨text, ht, rfl⟩ := List.mem_map.mp hu
        obtain ⟨l, hl, hr⟩ := forall₂_mem_right h6 ht
        exact ⟨start, calls, [], l, text, .inr rfl, by simpa using hcalls, fun _ => rfl, fun h => absurd h hs, hr⟩

/-- C102: at verbosity -2 a conversion writes nothing, whatever happens. -/
theorem silent_conversion (h : TRun cfg name (TState.start cfg fs0 ui) ls ts) (hv : ui.term.verbosity ≤ -2) :
    ts.ui.term.log = ui.term.log :=
  (trun_quiet h).2.2 hv

/-- C102: at verbosity -1 a conversion without failures writes nothing. -/
theorem quiet_success (hw : WritesWork ui.term) (hv : ui.term.verbosity = -1) (h : TRun cfg name (TState.start cfg fs0 ui) ls ts)
    (hd : ts.st.pc = .done true) (hk : ∀ p, Label.inputNotDeleted p ∉ ls) : ts.ui.term.log = ui.term.log := by
  obtain ⟨hf, hu⟩ := (exit_status h.project hd).1 rfl
  obtain ⟨rs, said, t, ls', acts, h1, h2, h3, h4, h5, h6, h7, h8⟩ := conversion_says hw h hd
  have hseen : ∀ l, l ∈ rs.flatMap (·.events) ++ ls' → l ∈ ls := fun l hl => by
    rw [← h3] at hl
    exact (List.mem_filter.mp hl).1
  have hsaid : said = [] := by
    obtain ⟨texts, h9, rfl⟩ := h4
    have hn : (rs.flatMap (·.said)).filter (Utter.visible ui.term.verbosity ui.progress) = [] := by
      rw [List.filter_eq_nil_iff]
      intro u hu'
      obtain ⟨r, hr, hu'⟩ := List.mem_flatMap.mp hu'
      obtain ⟨i, hi⟩ := List.getElem?_of_mem hr
      have hvis : ∀ u : Utter, (∀ m, u ≠ .error m) → ¬ u.visible ui.term.verbosity ui.progress = true := by
        intro u hne
        cases u with
        | error m => exact absurd rfl (hne m)
        | _ => simp [Utter.visible, hv]
      have hev : ∀ l ∈ r.events, l ∈ ls := fun l hl => hseen l (List.mem_append_left _ (List.mem_flatMap.mpr ⟨r, hr, hl⟩))
      refine hvis u fun m hm => ?_
      subst hm
      have hft := h2 i r hi
      obtain ⟨s, evs, us⟩ := r
      dsimp only at hft
      cases hft with
      | converted dir input output size reports f lines hdis =>
        cases hdis with
        | shown => simp at hu'
      | failed => exact hf s (hev _ (by simp))
      | failedKept => exact hf s (hev _ (by simp))
      | failedKeptForced => exact hf s (hev _ (by simp))
    rw [hn] at h9
    cases h9
    rfl
  have hrem : ∀ {force : Bool} {ls'' : List Label} {us : List Utter}, RemovalTalk force ls'' us → (∀ l ∈ ls'', l ∈ ls) → us = [] := by
    intro force ls'' us hr
    induction hr with
    | nil => exact fun _ => rfl
    | deleted _ _ _ _ ih => exact fun h => ih fun l hl => h l (by simp [hl])
    | kept _ _ p _ _ _ ih => exact fun h => absurd (h (.inputNotDeleted p) (by simp)) (hk p)
    | keptForced _ _ _ _ _ ih => exact fun h => ih fun l hl => h l (by simp [hl])
  have hacts : acts = [] := by
    cases h7 with
    | silent => rfl
    | deletes _ us _ e1 e2 e3 =>
      obtain rfl := hrem e2 fun l hl => hseen l (List.mem_append_right _ hl)
      obtain ⟨texts, e4, rfl⟩ := e3
      cases e4
      rfl
    | nobody => rfl
    | refused _ _ _ _ _ e => rw [h5.verbosity, hv] at e; omega
    | agreed _ _ _ _ _ _ _ _ e => rw [h5.verbosity, hv] at e; omega
    | failed _ _ _ _ _ _ e => rw [h5.verbosity, hv] at e; omega
  rw [h8, hsaid, hacts]
  simp

/-- C102: with `-qq`, from the moment the command line can be read, nothing is written to standard error. -/
theorem silence (p : Start) (occs : List Occ) (free : List Arg) (ht : Typed 0 p.args occs free) (hd : NoDuplicates occs)
    (hq : askedVerbosity occs = -2) :
    (∀ m t, Reaches p m → m.term = some t → t.log = []) ∧ ∀ ls ts, Converses p ls ts → ts.ui.term.log = [] := by
  have hparse : p.parse.2.term.verbosity = -2 ∧ p.parse.2.term.log = [] := by
    obtain ⟨v, hf, hv⟩ := parseCommandLine_frame p.env p.args p.ttys p.ui
    have hm : parse p.args = .ok ⟨occs, free⟩ := (Getopts.parse_iff p.args ⟨occs, free⟩).mpr ⟨ht, hd⟩
    have hv2 : v = -2 := by
      rcases hv with ⟨-, hn⟩ | ⟨m, hm', -, hv⟩
      · exact absurd ⟨by rw [hq], by rw [hq]; decide⟩ (hn _ hm)
      · rw [hm] at hm'
        cases hm'
        rw [hq] at hv
        rcases hv with hv | ⟨h0, -⟩
        · exact hv
        · cases h0
    subst hv2
    refine ⟨hf.verbosity, ?_⟩
    have := hf.quiet (fun hc => by have := hc.2.2.2; simp at this)
    rw [show p.parse = parseCommandLine p.env p.args p.ttys p.ui from rfl, this]
    rfl
  have herr : ∀ {t : Term} (e : List Char), t.verbosity = -2 → t.log = [] → (printError t p.name e).2.log = [] := by
    intro t e h1 h2
    rw [(GenKeys.printError_printed t p.name e).quiet (by rw [h1])]
    exact h2
  have hprints : ∀ {ui : Ui} {text : Bytes} {m : Moment} {t : Term}, ui.term.verbosity = -2 → ui.term.log = [] → Prints p ui text m →
      m.term = some t → t.log = [] := by
    intro ui text m t h1 h2 hpr ht
    cases hpr with
    | all => cases ht; exact h2
    | part => cases ht; exact herr _ h1 h2
  constructor
  · intro m t hr ht
    cases hr with
    | start => cases ht
    | refused e ui hp => rw [hp] at hparse; cases ht; exact herr _ hparse.1 hparse.2
    | parsePanic ui hp => rw [hp] at hparse; cases ht; exact hparse.2
    | crypt => cases ht
    | keygen streams force ui C seeds hp hi hs =>
      rw [hp] at hparse
      have h1 := GenKeys.genPairs_hush p.sha512 force (streams.zip (seeds.map C.keypair)).length (streams.zip (seeds.map C.keypair)) 0
        ⟨ui.term, p.fs, [], p.fates, []⟩ (by rw [hparse.1])
      rw [GenKeys.generateKeyPairFiles] at ht
      generalize GenKeys.genPairs p.sha512 force _ 0 (streams.zip (seeds.map C.keypair)) ⟨ui.term, p.fs, [], p.fates, []⟩ = r at h1 ht
      obtain ⟨r, w⟩ := r
      dsimp only at h1
      unfold keygenEnd at ht
      split at ht <;> rename_i heq <;> cases heq <;> cases ht
      · rw [h1]; exact hparse.2
      · rw [h1]; exact hparse.2
      · rw [h1]; exact herr _ hparse.1 hparse.2
      · rw [h1]; exact hparse.2
    | keygenDuring => cases ht
    | keygenFails streams force ui e hp => rw [hp] at hparse; cases ht; exact herr _ hparse.1 hparse.2
    | help ui m hp hpr => rw [hp] at hparse; exact hprints hparse.1 hparse.2 hpr ht
    | version ui m hp hpr => rw [hp] at hparse; exact hprints hparse.1 hparse.2 hpr ht
  · intro ls ts hc
    cases hc with
    | run streams policy force d ui ls ts hp hr =>
      rw [hp] at hparse
      rw [silent_conversion hr (by rw [hparse.1])]
      exact hparse.2

/-- C103: no failure is silent. Unless `-qq` is given, whenever the conversion of a file fails, or the question cannot be asked, an
error message is written, beginning with the name of the program. -/
theorem failure_is_reported (hw : WritesWork ui.term) (hv : -1 ≤ ui.term.verbosity) (h : TRun cfg name (TState.start cfg fs0 ui) ls ts)
    (hd : ts.st.pc = .done false) :
    ∃ pre msg post, ts.ui.term.log = ui.term.log ++ pre ++ .wrote (name ++ ": ".toList ++ msg ++ "\n".toList) :: post := by
  obtain ⟨rs, said, t, ls', acts, h1, h2, h3, h4, h5, h6, h7, h8⟩ := conversion_says hw h hd
  have hfail : (∃ s, Label.failed s ∈ ls) ∨ Label.uiFailed ∈ ls := by
    by_contra hc
    rw [not_or, not_exists] at hc
    have := (exit_status h.project hd).2 hc
    cases this
  have hheard : ∀ {us : List Utter} {acts : List Act} {m : List Char}, Heard name ui.term.verbosity ui.progress us acts → .error m ∈ us →
      .wrote (name ++ ": ".toList ++ m ++ "\n".toList) ∈ acts := by
    rintro us acts m ⟨texts, h9, rfl⟩ hm
    obtain ⟨t, ht, hs⟩ := forall₂_mem_left h9 (List.mem_filter.mpr ⟨hm, by simpa [Utter.visible] using hv⟩)
    cases hs
    exact List.mem_map.mpr ⟨_, ht, rfl⟩
  suffices ∃ msg, Act.wrote (name ++ ": ".toList ++ msg ++ "\n".toList) ∈ said ++ acts by
    obtain ⟨msg, hm⟩ := this
    obtain ⟨pre, post, hpp⟩ := List.append_of_mem hm
    exact ⟨pre, msg, post, by rw [h8, List.append_assoc, hpp, ← List.append_assoc]⟩
  have hin : (∃ s, Label.failed s ∈ rs.flatMap (·.events) ++ ls') ∨ Label.uiFailed ∈ rs.flatMap (·.events) ++ ls' := by
    rw [← h3]
    rcases hfail with ⟨s, hs⟩ | hu
    · exact .inl ⟨s, List.mem_filter.mpr ⟨hs, rfl⟩⟩
    · exact .inr (List.mem_filter.mpr ⟨hu, rfl⟩)
  have hrem : ∀ {force : Bool} {ls'' : List Label} {us : List Utter}, RemovalTalk force ls'' us → Label.uiFailed ∉ ls'' ∧ ∀ s, Label.failed s ∉ ls'' := by
    intro force ls'' us hr
    induction hr with
    | nil => simp
    | deleted _ _ _ _ ih => simpa using ih
    | kept _ _ _ _ _ _ ih => simpa using ih
    | keptForced _ _ _ _ _ ih => simpa using ih
  have hfiles : ∀ r ∈ rs, (Label.uiFailed ∉ r.events) ∧ ((∃ s, Label.failed s ∈ r.events) → ∃ m, Utter.error m ∈ r.said) := by
    intro r hr
    obtain ⟨i, hi⟩ := List.getElem?_of_mem hr
    have hft := h2 i r hi
    obtain ⟨s, evs, us⟩ := r
    dsimp only at hft
    cases hft with
    | converted => exact ⟨by simp, by rintro ⟨s', hs'⟩; simp at hs'⟩
    | failed _ _ _ _ msg lines => exact ⟨by simp, fun _ => ⟨msg, by simp⟩⟩
    | failedKept _ _ _ _ p msg reason lines => exact ⟨by simp, fun _ => ⟨msg, by simp⟩⟩
    | failedKeptForced _ _ _ _ msg lines => exact ⟨by simp, fun _ => ⟨msg, by simp⟩⟩
  have hreport : (∃ r ∈ rs, ∃ s, Label.failed s ∈ r.events) → ∃ msg, Act.wrote (name ++ ": ".toList ++ msg ++ "\n".toList) ∈ said ++ acts := by
    rintro ⟨r, hr, hs⟩
    obtain ⟨m, hm⟩ := (hfiles r hr).2 hs
    exact ⟨m, List.mem_append_left _ (hheard h4 (List.mem_flatMap.mpr ⟨r, hr, hm⟩))⟩
  have hclose : ((∃ s, Label.failed s ∈ ls') ∨ Label.uiFailed ∈ ls') → ∃ msg, Act.wrote (name ++ ": ".toList ++ msg ++ "\n".toList) ∈ acts := by
    intro hl
    cases h7 with
    | silent => simp at hl
    | deletes _ us _ e1 e2 e3 => rcases hl with ⟨s, hs⟩ | hs; exacts [absurd hs ((hrem e2).2 s), absurd hs (hrem e2).1]
    | nobody => simp at hl
    | refused => simp at hl
    | agreed evs talk t' ls'' us acts' _ _ _ _ _ _ e2 =>
      rcases hl with ⟨s, hs⟩ | hs
      · exact absurd (by simpa using hs) ((hrem e2).2 s)
      · exact absurd (by simpa using hs) (hrem e2).1
    | failed evs talk msg acts' _ _ _ _ _ e3 =>
      rw [h5.verbosity] at e3
      exact ⟨msg, List.mem_append_right _ (hheard e3 (by simp))⟩
  rcases hin with ⟨s, hs⟩ | hs
  · rcases List.mem_append.mp hs with hs | hs
    · obtain ⟨r, hr, hs⟩ := List.mem_flatMap.mp hs
      exact hreport ⟨r, hr, s, hs⟩
    · obtain ⟨m, hm⟩ := hclose (.inl ⟨s, hs⟩)
      exact ⟨m, List.mem_append_right _ hm⟩
  · rcases List.mem_append.mp hs with hs | hs
    · obtain ⟨r, hr, hs⟩ := List.mem_flatMap.mp hs
      exact absurd hs (hfiles r hr).1
    · obtain ⟨m, hm⟩ := hclose (.inr hs)
      exact ⟨m, List.mem_append_right _ hm⟩

/-- C101: at every moment until the question, messages do not run into each other: each one ends its line, or is a progress line and the
next message clears it. -/
theorem messages_on_fresh_lines (hw : WritesWork ui.term) (h : TRun cfg name (TState.start cfg fs0 ui) ls ts)
    (hno : ∀ t a t', Label.answer t a t' ∉ ls) (hnf : Label.uiFailed ∉ ls) :
    ∃ texts : List (List Char), ts.ui.term.log = ui.term.log ++ texts.map .wrote ∧
      ∀ pre a b post, texts = pre ++ a :: b :: post → "\n".toList <:+ a ∨ "\r".toList <:+ a ∧ "\x1b[2K".toList <+: b := by
  obtain ⟨us, acts, h1, ⟨texts, h2, rfl⟩, h3⟩ := phase_tidy (phase_run hw h)
    (fun t a t' hm => hno t a t' (List.mem_filter.mp hm).1) (fun hm => hnf (List.mem_filter.mp hm).1)
  exact ⟨texts, h3, tidy_texts (tidy_filter h1 _ _) h2⟩

/-- C104: if the user is to be asked, an input is deleted only after somebody at the terminal said yes: in what is left of standard input
after the command line was read, some lines are neither yes nor no nor empty, and the next line is yes. -/
theorem asked_before_deletion (h : TRun cfg name (TState.start cfg fs0 ui) ls ts) (hp : cfg.policy = .promptUser) (q : Path)
    (hq : Label.inputDeleted q ∈ ls) : ∃ t', TypedYes ui.term t' := by
  obtain ⟨hcon, -⟩ := (touches_run h.project).deleted q hq
  rcases hcon with hc | ⟨-, t, t', hm, hc, hv, pre, s, l, hin, hl, hy, hpre⟩
  · rw [hp] at hc; cases hc
  · have hs := (asked_terminal h).2 _ _ _ hm
    obtain ⟨c1, c2, c3, c4⟩ := hc
    obtain ⟨g1, g2⟩ : t.hasInput = ui.term.hasInput ∧ t.stdin = ui.term.stdin := by
      rcases hs.given with hg | ⟨hg, -⟩
      · exact hg
      · rw [hg] at c1; cases c1
    refine ⟨t', ⟨g1 ▸ c1, hs.inputIsTty ▸ c2, hs.outputIsTty ▸ c3, hs.verbosity ▸ c4⟩, hs.verbosity ▸ hv, pre, s, l, g2 ▸ hin, hl, hy, hpre⟩

/-- C104: for the whole program. An input is deleted only with `--discard-inputs`, or if neither this nor `--keep-inputs` is given and the
user said yes at the terminal, after everything that the command line made them type. -/
theorem program_asks_before_deletion (p : Start) (occs : List Occ) (free : List Arg) (ht : Typed 0 p.args occs free)
    (hc : Converses p ls ts) (q : Path) (hq : Label.inputDeleted q ∈ ls) :
    Given occs .discardInputs ∨
      ¬ Given occs .discardInputs ∧ ¬ Given occs .keepInputs ∧ ∃ t', TypedYes p.parse.2.term t' := by
  cases hc with
  | run streams policy force d ui ls ts hp hr =>
    obtain ⟨-, h2, h3, -⟩ := flags_reach_command p.env p.args p.ttys p.ui ui occs free ht streams policy force d hp
    obtain ⟨hcon, -⟩ := (touches_run hr.project).deleted q hq
    rcases hcon with hc | ⟨hc, -⟩
    · exact .inl (h3.1 hc)
    · refine .inr ⟨fun h => ?_, fun h => ?_, ?_⟩
      · cases hc.symm.trans (h3.2 h)
      · cases hc.symm.trans (h2.2 h)
      · rw [hp]; exact asked_before_deletion hr hc q hq

/-- C104: what this means for files. Without `--force`, at every moment of a conversion, an entry of a directory is as it was; or it was
the place of an input, which was converted, and which is deleted under the conditions above. -/
theorem files_deleted_only_if_asked (p : Start) (hwf : p.fs.WF) (occs : List Occ) (free : List Arg) (ht : Typed 0 p.args occs free)
    (hf : ¬ Given occs .force) (hc : Converses p ls ts) (n : Filesystem.Name) (node : Node) (hn : p.fs.entry n = some node) :
    ts.st.fs.entry n = some node ∨
      ts.st.fs.entry n = none ∧ (∃ q s dir i o, p.fs.loc q = n ∧ s.input = .file q ∧ Label.converted s dir i o ∈ ls) ∧
        (Given occs .discardInputs ∨
          ¬ Given occs .discardInputs ∧ ¬ Given occs .keepInputs ∧ ∃ t', TypedYes p.parse.2.term t') := by
  have hask := program_asks_before_deletion p occs free ht hc
  cases hc with
  | run streams policy force d ui ls ts hp hr =>
    obtain ⟨h1, -⟩ := flags_reach_command p.env p.args p.ttys p.ui ui occs free ht streams policy force d hp
    have hforce : force = false := by
      by_contra h
      exact hf (h1.1 (by simpa using h))
    subst hforce
    rcases (existing_files_untouched (cfg := p.config streams policy false d ui) rfl hwf hr.project).1 n node hn with h | ⟨h, q, s, dir, i, o, hq, hl, hcv, hs, -⟩
    · exact .inl h
    · exact .inr ⟨h, ⟨q, s, dir, i, o, hl, hs, hcv⟩, hask q hq⟩

/-- The moments of conversions with messages are moments of the program. -/
theorem conversing_is_reaching (p : Start) (hc : Converses p ls ts) : Reaches p ⟨ts.st.fs, ts.st.stdout, exitOf ts.st.pc, none⟩ := by
  cases hc with
  | run streams policy force d ui ls ts hp hr => exact .crypt streams policy force d ui ls ts.st hp hr.project

end Rypt.Props
