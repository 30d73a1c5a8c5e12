import Verif.Proofs.TalkPhases
import Verif.Props.UI

/-! What the steps do to the terminal, whether or not it can be written to. -/

namespace Rypt.CryptStreams

open Rypt.Progress UI Cli Filesystem Spec

/-- The terminal after messages. -/
structure Kept (t t' : Term) : Prop where
  inputIsTty : t'.inputIsTty = t.inputIsTty
  outputIsTty : t'.outputIsTty = t.outputIsTty
  verbosity : t'.verbosity = t.verbosity
  tty : t'.tty = t.tty
  hasInput : t'.hasInput = t.hasInput
  stdin : t'.stdin = t.stdin
  quiet : t.verbosity ≤ -2 → t'.log = t.log

theorem Kept.refl (t : Term) : Kept t t := ⟨rfl, rfl, rfl, rfl, rfl, rfl, fun _ => rfl⟩

theorem Kept.trans {a b c : Term} (h1 : Kept a b) (h2 : Kept b c) : Kept a c :=
  ⟨h2.inputIsTty.trans h1.inputIsTty, h2.outputIsTty.trans h1.outputIsTty, h2.verbosity.trans h1.verbosity, h2.tty.trans h1.tty,
    h2.hasInput.trans h1.hasInput, h2.stdin.trans h1.stdin, fun h => (h2.quiet (by rw [h1.verbosity]; exact h)).trans (h1.quiet h)⟩

theorem print_kept (t : Term) {v : Int} (hv : -1 ≤ v) (m : List Char) : Kept t (print t v m).2 := by
  unfold print
  split
  · rename_i h
    have hq : ¬ t.verbosity ≤ -2 := by
      have : v ≤ t.verbosity := of_decide_eq_true h
      omega
    unfold writeAll
    split <;> exact ⟨rfl, rfl, rfl, rfl, rfl, rfl, fun h => absurd h hq⟩
  · exact .refl t

theorem sayHeader_kept (ui : Ui) (s : Stream) (i n : Nat) : Kept ui.term (sayHeader ui s i n).term := print_kept _ (by decide) _

theorem sayError_kept (ui : Ui) (name m : List Char) : Kept ui.term (sayError ui name m).term :=
  print_kept _ (v := errorVerbosity) (by decide) _

theorem sayNotDeleted_kept (ui : Ui) (force : Bool) (name p r : List Char) : Kept ui.term (sayNotDeleted ui force name p r).term := by
  unfold sayNotDeleted
  split
  · exact .refl _
  · exact sayError_kept _ _ _

theorem sayLine_kept (ui : Ui) (m : List Char) (f : Bool) : Kept ui.term (sayLine ui m f).term := by
  unfold sayLine printlnProgress
  split
  · exact print_kept _ (by decide) _
  · exact .refl _

theorem update_kept {lv lv' : Live} {ui ui' : Ui} {b n : Nat} (h : Update lv ui b n lv' ui') : Kept ui.term ui'.term ∧ ui'.progress = ui.progress := by
  cases h with
  | quiet => exact ⟨.refl _, rfl⟩
  | line => exact ⟨sayLine_kept _ _ _, rfl⟩

theorem dropped_kept {lv : Live} {ui ui' : Ui} (h : Dropped lv ui ui') : Kept ui.term ui'.term ∧ ui'.progress = ui.progress := by
  cases h with
  | quiet => exact ⟨.refl _, rfl⟩
  | line => exact ⟨sayLine_kept _ _ _, rfl⟩

theorem takesStdin_taken {s : Stream} {ui ui' : Ui} (h : takesStdin s ui = .ok ui') :
    ui'.term.verbosity = ui.term.verbosity ∧ ui'.term.log = ui.term.log ∧ ui'.progress = ui.progress ∧ ui'.term.writes = ui.term.writes ∧
      ui'.term.inputIsTty = ui.term.inputIsTty ∧ ui'.term.outputIsTty = ui.term.outputIsTty ∧ ui'.term.tty = ui.term.tty ∧
      (ui' = ui ∨ s.input = .stdin ∧ ui'.term.hasInput = false) := by
  unfold takesStdin at h
  split at h
  · rename_i hi
    unfold extractInput at h
    split at h
    · rename_i heq
      split at heq
      · cases heq
        cases h
        exact ⟨rfl, rfl, rfl, rfl, rfl, rfl, rfl, .inr ⟨hi, rfl⟩⟩
      · cases heq
    · cases h
    · cases h
  · cases h
    exact ⟨rfl, rfl, rfl, rfl, rfl, rfl, rfl, .inl rfl⟩

/-- The question has been answered, or need not be asked. -/
def Pc.late : Pc → Bool
  | .deleting _ | .done _ => true
  | _ => false

theorem _root_.Rypt.Spec.SameTerm.kept {cfg : Config} {t0 t t' : Term} (h : SameTerm cfg t0 t) (hk : Kept t t') : SameTerm cfg t0 t' where
  inputIsTty := hk.inputIsTty.trans h.inputIsTty
  outputIsTty := hk.outputIsTty.trans h.outputIsTty
  verbosity := hk.verbosity.trans h.verbosity
  tty := hk.tty.trans h.tty
  given := by rw [hk.hasInput, hk.stdin]; exact h.given

/-- The terminal and the display after a step; `s` is the file that is begun, if one is. -/
theorem tstep_term {cfg : Config} {name : List Char} {ts ts' : TState} {l : Option Label} (h : TStep cfg name ts l ts') :
    ts'.ui.progress = ts.ui.progress ∧ ts'.ui.term.verbosity = ts.ui.term.verbosity ∧
    (ts.ui.term.verbosity ≤ -2 → ts'.ui.term.log = ts.ui.term.log) ∧
    (Kept ts.ui.term ts'.ui.term ∨
      (∃ s rest ui, ts.st.todo = s :: rest ∧ takesStdin s ui = .ok ts'.ui ∧ Kept ts.ui.term ui.term) ∨
      (∃ a t', l = some (.answer ts.ui.term a t')) ∨ ts.st.pc = .asking ∧ ts'.st.pc.late = true) := by
  have key : ∀ {ui' : Ui}, Kept ts.ui.term ui'.term → ui'.progress = ts.ui.progress → ui'.progress = ts.ui.progress ∧
      ui'.term.verbosity = ts.ui.term.verbosity ∧ (ts.ui.term.verbosity ≤ -2 → ui'.term.log = ts.ui.term.log) :=
    fun h1 h2 => ⟨h2, h1.verbosity, h1.quiet⟩
  have both : ∀ {ui' : Ui}, Kept ts.ui.term ui'.term → ui'.progress = ts.ui.progress → ui'.progress = ts.ui.progress ∧
      ui'.term.verbosity = ts.ui.term.verbosity ∧ (ts.ui.term.verbosity ≤ -2 → ui'.term.log = ts.ui.term.log) ∧
      (Kept ts.ui.term ui'.term ∨ (∃ s rest ui, ts.st.todo = s :: rest ∧ takesStdin s ui = .ok ui' ∧ Kept ts.ui.term ui.term) ∨
        (∃ a t', l = some (.answer ts.ui.term a t')) ∨ ts.st.pc = .asking ∧ ts'.st.pc.late = true) :=
    fun h1 h2 => ⟨h2, h1.verbosity, h1.quiet, .inl h1⟩
  have hq : ∀ {r t'}, readPromptBool ts.ui.term 0 "Remove original file(s)?".toList false = (r, t') →
      t'.verbosity = ts.ui.term.verbosity ∧ (ts.ui.term.verbosity ≤ -2 → t'.log = ts.ui.term.log) := by
    intro r t' h
    have hv : (readPromptBool ts.ui.term 0 "Remove original file(s)?".toList false).2.verbosity = ts.ui.term.verbosity := by
      unfold readPromptBool
      split
      · rfl
      · exact (readPromptBoolLoop_frame _ _ _).1.verbosity
    rw [h] at hv
    refine ⟨hv, fun hq => ?_⟩
    have := (Props.no_prompt_no_effect ts.ui.term (fun hc => by have := hc.2.2.2; omega) "Remove original file(s)?".toList 0 false .encrypt none).2.1
    rw [h] at this
    cases this
    rfl
  cases h with
  | beginFails s rest st' msg h1 h2 h3 h4 => exact both ((sayHeader_kept _ _ _ _).trans (sayError_kept _ _ _)) rfl
  | beginOpen s rest out hd size start st' ui' h1 h2 h3 h4 h5 h6 =>
    have hk := sayHeader_kept ts.ui s ts.begun cfg.streams.length
    obtain ⟨e1, e2, e3, -, -, -, -, -⟩ := takesStdin_taken h6
    exact ⟨e3, e1.trans hk.verbosity, fun h => e2.trans (hk.quiet h), .inr (.inl ⟨s, rest, _, h2, h6, hk⟩)⟩
  | work s out sink dir input written st' h1 h2 => exact both (.refl _) rfl
  | progress s out sink dir input written lv lv' bytes now ui' w f h1 h2 h5 h6 h3 h4 => exact both (update_kept h4).1 (update_kept h4).2
  | finish s dir input output lv st' ui' f h1 h2 h4 h3 => exact both (dropped_kept h3).1 (dropped_kept h3).2
  | giveUp s cleanup lv st' ui' msg h1 h2 h3 h4 h5 => exact both ((dropped_kept h5).1.trans (sayError_kept _ _ _)) (dropped_kept h5).2
  | crash lv st' ui' h1 h2 h3 h4 =>
    rcases h4 with rfl | h4
    · exact both (.refl _) rfl
    · exact both (dropped_kept h4).1 (dropped_kept h4).2
  | outputNotDeleted s p st' reason h1 h2 =>
    refine both (sayNotDeleted_kept _ _ _ _ _) ?_
    simp only [sayNotDeleted]; split <;> rfl
  | failed s st' h1 => exact both (.refl _) rfl
  | endOfFile st' t h1 h2 h3 =>
    have := print_kept ts.ui.term (v := 0) (by decide) ([] ++ ['\n'])
    rw [show print ts.ui.term 0 ([] ++ ['\n']) = _ from h3] at this
    exact both this rfl
  | endOfFileFails st' e t msg h1 h2 h3 =>
    have := print_kept ts.ui.term (v := 0) (by decide) ([] ++ ['\n'])
    rw [show print ts.ui.term 0 ([] ++ ['\n']) = _ from h3] at this
    exact both (this.trans (sayError_kept { ts.ui with term := t } _ _)) rfl
  | closing st' h1 h2 => exact both (.refl _) rfl
  | prompt a t' st' h1 =>
    have hread : ∃ r, readPromptBool ts.ui.term 0 "Remove original file(s)?".toList false = (r, t') := by
      have hf := h1.flow
      generalize hl : Label.answer ts.ui.term a t' = l at hf
      generalize st'.pc = pc' at hf
      generalize st'.todo = todo' at hf
      generalize ts.st.pc = pc at hf
      generalize ts.st.todo = todo at hf
      cases hf with
      | agreed _ _ _ _ _ h3 => cases hl; exact ⟨_, h3⟩
      | refused _ _ _ _ _ _ _ h3 => cases hl; exact ⟨_, h3⟩
      | _ => cases hl
    obtain ⟨r, hr⟩ := hread
    exact ⟨rfl, (hq hr).1, (hq hr).2, .inr (.inr (.inl ⟨_, _, rfl⟩))⟩
  | promptFails e t' st' msg h1 h2 h3 =>
    have hk := sayError_kept { ts.ui with term := t' } name msg
    have hlate : st'.pc.late = true := by
      have hf := h2.flow
      rw [h1] at hf
      generalize hl : Label.uiFailed = l at hf
      generalize st'.pc = pc' at hf ⊢
      generalize st'.todo = todo' at hf
      generalize ts.st.todo = todo at hf
      cases hf <;> first | rfl | cases hl
    exact ⟨rfl, hk.verbosity.trans (hq h3).1, fun h => (hk.quiet (by rw [(hq h3).1]; exact h)).trans ((hq h3).2 h), .inr (.inr (.inr ⟨h1, hlate⟩))⟩
  | deleted p st' h1 => exact both (.refl _) rfl
  | notDeleted p st' reason h1 =>
    refine both (sayNotDeleted_kept _ _ _ _ _) ?_
    simp only [sayNotDeleted]; split <;> rfl

theorem trun_quiet {cfg : Config} {name : List Char} {ts0 ts : TState} {ls : List Label} (h : TRun cfg name ts0 ls ts) :
    ts.ui.progress = ts0.ui.progress ∧ ts.ui.term.verbosity = ts0.ui.term.verbosity ∧
      (ts0.ui.term.verbosity ≤ -2 → ts.ui.term.log = ts0.ui.term.log) := by
  induction h with
  | refl => exact ⟨rfl, rfl, fun _ => rfl⟩
  | step ls t l u _ hs ih =>
    obtain ⟨h1, h2, h3, -⟩ := tstep_term hs
    exact ⟨h1.trans ih.1, h2.trans ih.2.1, fun h => (h3 (by rw [ih.2.1]; exact h)).trans (ih.2.2 h)⟩

/-- The files to come are among those given. -/
theorem flow_todo {cfg : Config} {pc pc' : Pc} {a b : List Stream} {l : Label} (h : Flow cfg pc a l pc' b) : b <:+ a := by
  cases h with
  | noOpen s | opened s => exact List.suffix_cons _ _
  | _ => exact List.suffix_refl _

theorem flow_late {cfg : Config} {pc pc' : Pc} {a b : List Stream} {l : Label} (h : Flow cfg pc a l pc' b) (hl : pc'.late = false) :
    pc.late = false := by
  cases h <;> first | rfl | cases hl

theorem trun_todo {cfg : Config} {name : List Char} {ts0 ts : TState} {ls : List Label} (h : TRun cfg name ts0 ls ts) :
    ts.st.todo <:+ ts0.st.todo := by
  induction h with
  | refl => exact List.suffix_refl _
  | step ls t l u _ hs ih =>
    rcases hs.project with ⟨-, h⟩ | ⟨l', -, h⟩
    · rw [h]; exact ih
    · exact (flow_todo h.flow).trans ih

/-- The terminal that is asked is the one the program was started with. -/
theorem asked_terminal {cfg : Config} {name : List Char} {fs : FS} {ui : Ui} {ls : List Label} {ts : TState}
    (h : TRun cfg name (TState.start cfg fs ui) ls ts) :
    (ts.st.pc.late = false → SameTerm cfg ui.term ts.ui.term) ∧ ∀ t a t', Label.answer t a t' ∈ ls → SameTerm cfg ui.term t := by
  induction h with
  | refl => exact ⟨fun _ => ⟨rfl, rfl, rfl, rfl, .inl ⟨rfl, rfl⟩⟩, by simp⟩
  | step ls t l u hr hs ih =>
    have htodo := trun_todo hr
    obtain ⟨-, -, -, h4⟩ := tstep_term hs
    constructor
    · intro hl
      have hl' : t.st.pc.late = false := by
        rcases hs.project with ⟨-, h⟩ | ⟨l', -, h⟩
        · rw [← h]; exact hl
        · exact flow_late h.flow hl
      have hsame := ih.1 hl'
      rcases h4 with hk | ⟨s, rest, ui', h5, h6, h7⟩ | ⟨a, t', rfl⟩ | ⟨-, hl2⟩
      · exact hsame.kept hk
      · obtain ⟨e1, -, -, -, e4, e5, e6, e7⟩ := takesStdin_taken h6
        have hs2 := hsame.kept h7
        refine ⟨e4.trans hs2.inputIsTty, e5.trans hs2.outputIsTty, e1.trans hs2.verbosity, e6.trans hs2.tty, ?_⟩
        rcases e7 with rfl | ⟨e7, e8⟩
        · exact hs2.given
        · exact .inr ⟨e8, s, htodo.subset (by rw [h5]; simp), e7⟩
      · rcases hs.project with ⟨h, -⟩ | ⟨l', h, hst⟩
        · cases h
        · cases h
          have hf := hst.flow
          exfalso
          generalize hlab : Label.answer t.ui.term a t' = l at hf
          generalize u.st.pc = pc' at hf hl
          generalize u.st.todo = todo' at hf
          generalize t.st.pc = pc at hf
          generalize t.st.todo = todo at hf
          cases hf <;> first | cases hlab; done | cases hl
      · rw [hl] at hl2; cases hl2
    · intro t1 a t2 hm
      rcases List.mem_append.mp hm with hm | hm
      · exact ih.2 _ _ _ hm
      · have hl : l = some (.answer t1 a t2) := by
          cases l with
          | none => simp at hm
          | some l => simp at hm; rw [hm]
        subst hl
        cases hs with
        | prompt _ _ st' h1 =>
          refine ih.1 ?_
          have hf := h1.flow
          generalize hlab : Label.answer t.ui.term a t2 = l at hf
          generalize st'.pc = pc' at hf
          generalize st'.todo = todo' at hf
          generalize t.st.pc = pc at hf ⊢
          generalize t.st.todo = todo at hf
          cases hf <;> first | rfl | cases hlab

end Rypt.CryptStreams
