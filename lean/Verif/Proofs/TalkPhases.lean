import Verif.Proofs.Talk

/-! The phases of a conversion with what has been said so far. -/

namespace Rypt.CryptStreams

open Rypt.Progress UI Cli Filesystem Spec

/-- The steps, as far as the place in the program and the files to come are concerned. -/
inductive Flow (cfg : Config) : Pc → List Stream → Label → Pc → List Stream → Prop where
  | noOpen (s rest) : Flow cfg .next (s :: rest) .tau (.failing s none) rest
  | opened (s rest out h) : s.output = some out → Flow cfg .next (s :: rest) .tau (.inputOpen s out h) rest
  | openOut (s rest out h sink dir i w) : cfg.direction.allows dir →
      Flow cfg (.inputOpen s out h) rest .tau (.converting s out sink dir i w) rest
  | openOutFails (s rest out h) : Flow cfg (.inputOpen s out h) rest .tau (.failing s none) rest
  | write (s rest out sink dir i w w') : Flow cfg (.converting s out sink dir i w) rest .tau (.converting s out sink dir i w') rest
  | success (s rest out sink dir i w w') : Flow cfg (.converting s out sink dir i w) rest (.converted s dir i w') .endOfFile rest
  | failure (s rest out sink dir i w) : Flow cfg (.converting s out sink dir i w) rest .tau (.failing s (outputCleanup out)) rest
  | panic (s rest out sink dir i w) : Flow cfg (.converting s out sink dir i w) rest .tau .panicked rest
  | failed (s rest c) : Flow cfg (.failing s c) rest (.failed s) .endOfFile rest
  | notDeleted (s rest p) : Flow cfg (.failing s (some p)) rest (.outputNotDeleted s) (.failing s none) rest
  | endOfFile (rest) : Flow cfg .endOfFile rest .tau .next rest
  | endOfFileFails (rest) : Flow cfg .endOfFile rest .uiFailed (.done false) rest
  | noCleanups (ok) : Flow cfg .next [] .tau (.done ok) []
  | cleanups : Flow cfg .next [] .tau .asking []
  | keep (rest ok) : Flow cfg .asking rest .tau (.done ok) rest
  | delete (rest ps) : cfg.policy = .deleteFiles → Flow cfg .asking rest .tau (.deleting ps) rest
  | agreed (rest ps t t') : cfg.policy = .promptUser →
      readPromptBool t 0 "Remove original file(s)?".toList false = (.ok (some true), t') →
      Flow cfg .asking rest (.answer t (some true) t') (.deleting ps) rest
  | refused (rest t a t' ok) : cfg.policy = .promptUser → a ≠ some true →
      readPromptBool t 0 "Remove original file(s)?".toList false = (.ok a, t') →
      Flow cfg .asking rest (.answer t a t') (.done ok) rest
  | promptFails (rest) : cfg.policy = .promptUser → Flow cfg .asking rest .uiFailed (.done false) rest
  | deleteInput (rest p ps) : Flow cfg (.deleting (p :: ps)) rest (.inputDeleted p) (.deleting ps) rest
  | deleteInputFails (rest p ps) : Flow cfg (.deleting (p :: ps)) rest (.inputNotDeleted p) (.deleting ps) rest
  | allDeleted (rest ok) : Flow cfg (.deleting []) rest .tau (.done ok) rest

theorem Step.flow {cfg : Config} {st st' : State} {l : Label} (h : Step cfg st l st') : Flow cfg st.pc st.todo l st'.pc st'.todo := by
  cases h with
  | noOutput s rest h1 h2 h3 => rw [h1, h2]; exact .noOpen _ _
  | openInput s rest out h size h1 h2 h3 h4 => rw [h1, h2]; exact .opened _ _ _ _ h3
  | openInputFails s rest out h1 h2 h3 => rw [h1, h2]; exact .noOpen _ _
  | openOutput s out h fs sink dir input h1 h2 h3 => rw [h1]; exact .openOut _ _ _ _ _ _ _ _ h3
  | openOutputFails s out h h1 => rw [h1]; exact .openOutFails _ _ _ _
  | write s out sink dir input w w' f h1 => simp only [(write_fields st sink w w').1]; rw [h1]; exact .write _ _ _ _ _ _ _ _
  | success s out sink dir input w w' f h1 => simp only [(write_fields st sink w w').1]; rw [h1]; exact .success _ _ _ _ _ _ _ _
  | failure s out sink dir input w w' e f h1 => simp only [(write_fields st sink w w').1]; rw [h1]; exact .failure _ _ _ _ _ _ _
  | panic s out sink dir input w w' f h1 => simp only [(write_fields st sink w w').1]; rw [h1]; exact .panic _ _ _ _ _ _ _
  | progressPanic s out sink dir input w w' f _ _ _ h1 => simp only [(write_fields st sink w w').1]; rw [h1]; exact .panic _ _ _ _ _ _ _
  | failedNoOutput s h1 => rw [h1]; exact .failed _ _ _
  | failedDelete s p fs h1 => rw [h1]; exact .failed _ _ _
  | failedNotDeleted s p h1 => rw [h1]; exact .notDeleted _ _ _
  | endOfFile h1 => rw [h1]; exact .endOfFile _
  | endOfFileFails h1 => rw [h1]; exact .endOfFileFails _
  | noCleanups h1 h2 => simp only [h2]; rw [h1]; exact .noCleanups _
  | cleanups h1 h2 => simp only [h2]; rw [h1]; exact .cleanups
  | keep h1 => rw [h1]; exact .keep _ _
  | delete h1 h2 => rw [h1]; exact .delete _ _ h2
  | prompt t t' a h1 h2 h3 =>
    rw [h1]
    rcases a with _ | _ | _
    · exact .refused _ _ _ _ _ h2 (by simp) h3
    · exact .refused _ _ _ _ _ h2 (by simp) h3
    · exact .agreed _ _ _ _ h2 h3
  | promptFails h1 h2 => rw [h1]; exact .promptFails _ h2
  | deleteInput p rest fs h1 => rw [h1]; exact .deleteInput _ _ _
  | deleteInputFails p rest h1 => rw [h1]; exact .deleteInputFails _ _ _
  | allDeleted h1 => rw [h1]; exact .allDeleted _ _

/-- Standard input is to be converted. -/
def Config.UsesStdin (cfg : Config) : Prop := ∃ s ∈ cfg.streams, s.input = .stdin

/-- The events seen, the place, the files to come, the number of files begun, the display and the terminal. -/
inductive Phase (cfg : Config) (fs0 : FS) (name : List Char) (ui0 : Ui) : List Label → Pc → List Stream → Nat → Option Live → Ui → Prop where
  | next (rs : List Report) (todo : List Stream) (ui : Ui) : cfg.streams = rs.map (·.stream) ++ todo → Reported cfg fs0 rs →
      Speaks cfg.UsesStdin name ui0 (rs.flatMap (·.said)) ui →
      Phase cfg fs0 name ui0 (rs.flatMap (·.events)) .next todo rs.length none ui
  | inputOpen (rs : List Report) (todo : List Stream) (s : Stream) (out : Output) (h : Handle) (lv : Live) (texts : List (List Char)) (ui : Ui) :
      s.output = some out → cfg.streams = rs.map (·.stream) ++ s :: todo → Reported cfg fs0 rs → (∀ dir i, LiveInv cfg s dir i lv texts) →
      Speaks cfg.UsesStdin name ui0 (rs.flatMap (·.said) ++ .header s (rs.length + 1) cfg.streams.length :: texts.map .progress) ui →
      Phase cfg fs0 name ui0 (rs.flatMap (·.events)) (.inputOpen s out h) todo (rs.length + 1) (some lv) ui
  | converting (rs : List Report) (todo : List Stream) (s : Stream) (out : Output) (sink : Sink) (dir : CryptFile.Direction) (i w : Bytes)
      (lv : Live) (texts : List (List Char)) (ui : Ui) :
      cfg.direction.allows dir → s.output = some out → cfg.streams = rs.map (·.stream) ++ s :: todo → Reported cfg fs0 rs → LiveInv cfg s dir i lv texts →
      Speaks cfg.UsesStdin name ui0 (rs.flatMap (·.said) ++ .header s (rs.length + 1) cfg.streams.length :: texts.map .progress) ui →
      Phase cfg fs0 name ui0 (rs.flatMap (·.events)) (.converting s out sink dir i w) todo (rs.length + 1) (some lv) ui
  | failing (rs : List Report) (todo : List Stream) (s : Stream) (evs : List Label) (said : List Utter) (ui : Ui) :
      cfg.streams = rs.map (·.stream) ++ s :: todo → Reported cfg fs0 rs → FileTalk cfg fs0 (rs.length + 1) s (evs ++ [.failed s]) (said ++ [.blank]) →
      Speaks cfg.UsesStdin name ui0 (rs.flatMap (·.said) ++ said) ui →
      Phase cfg fs0 name ui0 (rs.flatMap (·.events) ++ evs) (.failing s none) todo (rs.length + 1) none ui
  | failingSome (rs : List Report) (todo : List Stream) (s : Stream) (p : Path) (msg : List Char) (lines : List Utter) (ui : Ui)
      (dir : CryptFile.Direction) (input : Bytes) (size : Option Nat) (reports : List Nat) :
      cfg.streams = rs.map (·.stream) ++ s :: todo → Reported cfg fs0 rs → s.output = some (.file p) → Display cfg s dir input size reports lines →
      Speaks cfg.UsesStdin name ui0 (rs.flatMap (·.said) ++ .header s (rs.length + 1) cfg.streams.length :: (lines ++ [.error msg])) ui →
      Phase cfg fs0 name ui0 (rs.flatMap (·.events)) (.failing s (some p)) todo (rs.length + 1) none ui
  | endOfFile (rs : List Report) (todo : List Stream) (s : Stream) (evs : List Label) (said : List Utter) (ui : Ui) :
      cfg.streams = rs.map (·.stream) ++ s :: todo → Reported cfg fs0 rs → FileTalk cfg fs0 (rs.length + 1) s evs (said ++ [.blank]) →
      Speaks cfg.UsesStdin name ui0 (rs.flatMap (·.said) ++ said) ui →
      Phase cfg fs0 name ui0 (rs.flatMap (·.events) ++ evs) .endOfFile todo (rs.length + 1) none ui
  | asking (rs : List Report) (ui : Ui) : cfg.streams = rs.map (·.stream) → Reported cfg fs0 rs →
      Speaks cfg.UsesStdin name ui0 (rs.flatMap (·.said)) ui →
      Phase cfg fs0 name ui0 (rs.flatMap (·.events)) .asking [] rs.length none ui
  | deletes (rs : List Report) (ui1 : Ui) (ls : List Label) (us : List Utter) (ps : List Path) (ui : Ui) :
      cfg.streams = rs.map (·.stream) → Reported cfg fs0 rs → Speaks cfg.UsesStdin name ui0 (rs.flatMap (·.said)) ui1 →
      cfg.policy = .deleteFiles → RemovalTalk cfg.force ls us → Speaks False name ui1 us ui →
      Phase cfg fs0 name ui0 (rs.flatMap (·.events) ++ ls) (.deleting ps) [] rs.length none ui
  | agreed (rs : List Report) (ui1 ui2 : Ui) (evs : List UI.Input) (talk : List Act) (ls : List Label) (us : List Utter) (ps : List Path)
      (ui : Ui) :
      cfg.streams = rs.map (·.stream) → Reported cfg fs0 rs → Speaks cfg.UsesStdin name ui0 (rs.flatMap (·.said)) ui1 →
      cfg.policy = .promptUser → CanPrompt ui1.term → 0 ≤ ui1.term.verbosity → Dialogue ui1.term.echo evs talk →
      ui1.term.stdin = evs ++ ui2.term.stdin → TypedYes ui1.term ui2.term → ui2.progress = ui1.progress →
      ui2.term.verbosity = ui1.term.verbosity → ui2.term.log = ui1.term.log ++ talk →
      RemovalTalk cfg.force ls us → Speaks False name ui2 us ui →
      Phase cfg fs0 name ui0 (rs.flatMap (·.events) ++ .answer ui1.term (some true) ui2.term :: ls) (.deleting ps) [] rs.length none ui
  | done (rs : List Report) (ui1 : Ui) (ls : List Label) (acts : List Act) (ok : Bool) (ui : Ui) :
      cfg.streams = rs.map (·.stream) → Reported cfg fs0 rs → Speaks cfg.UsesStdin name ui0 (rs.flatMap (·.said)) ui1 →
      Closing cfg name ui1.progress ui1.term ls acts → ui.term.log = ui1.term.log ++ acts →
      Phase cfg fs0 name ui0 (rs.flatMap (·.events) ++ ls) (.done ok) [] rs.length none ui
  | panicked (rs : List Report) (todo : List Stream) (s : Stream) (texts stays : List (List Char)) (ui : Ui) :
      cfg.streams = rs.map (·.stream) ++ s :: todo → Reported cfg fs0 rs →
      Speaks cfg.UsesStdin name ui0 (rs.flatMap (·.said) ++ .header s (rs.length + 1) cfg.streams.length ::
        (texts.map .progress ++ stays.map .final)) ui →
      Phase cfg fs0 name ui0 (rs.flatMap (·.events)) .panicked todo (rs.length + 1) none ui

theorem reported_snoc {cfg : Config} {fs0 : FS} {rs : List Report} {r : Report} (h : Reported cfg fs0 rs)
    (hr : FileTalk cfg fs0 (rs.length + 1) r.stream r.events r.said) : Reported cfg fs0 (rs ++ [r]) := by
  intro i r' hi
  rw [List.getElem?_append] at hi
  split at hi
  · exact h i r' hi
  · rename_i hn
    have : i - rs.length = 0 := by
      have := (List.getElem?_eq_some_iff.1 hi).1
      simp at this
      omega
    rw [this] at hi
    cases hi
    have : i = rs.length := by omega
    rw [this]
    exact hr

theorem phase_start {cfg : Config} {fs0 : FS} {name : List Char} {ui : Ui} (h : WritesWork ui.term) :
    Phase cfg fs0 name ui [] .next cfg.streams 0 none ui :=
  .next [] cfg.streams ui rfl (by intro i r h; simp at h) (.refl h)

theorem uses_of {cfg : Config} {a : List Stream} {s : Stream} {b : List Stream} (h : cfg.streams = a ++ s :: b) (hs : s.input = .stdin) :
    cfg.UsesStdin := ⟨s, by rw [h]; simp, hs⟩

/-- The size that the display of the conversion at hand is told is right. -/
def SizeRight (cfg : Config) (fs0 : FS) (ts : TState) : Prop :=
  ∀ s out sink dir i w lv, ts.st.pc = .converting s out sink dir i w → ts.live = some lv → RightSize cfg fs0 s i lv.printer.filesize

theorem phase_step {cfg : Config} {fs0 : FS} {name : List Char} {ui0 : Ui} {L : List Label} {ts ts' : TState} {l : Option Label}
    (h : Phase cfg fs0 name ui0 L ts.st.pc ts.st.todo ts.begun ts.live ts.ui) (hsz : SizeRight cfg fs0 ts) (hs : TStep cfg name ts l ts') :
    Phase cfg fs0 name ui0 (L ++ l.toList.filter Seen) ts'.st.pc ts'.st.todo ts'.begun ts'.live ts'.ui := by
  have hnil : [Label.tau].filter Seen = [] := rfl
  cases hs with
  | beginFails s rest st' msg h1 h2 h3 h4 =>
    have hf := h3.flow
    obtain ⟨st, begun, live, ui⟩ := ts
    simp only at *
    rw [h1, h2] at h
    rw [h1, h2, h4] at hf
    rw [h4, Option.toList_some, hnil, List.append_nil]
    generalize st'.todo = todo' at hf ⊢
    generalize (Label.tau) = l at hf
    cases hf with
    | noOpen =>
      cases h with
      | next rs _ _ e1 e2 e3 =>
        have e4 := sayHeader_speaks cfg.UsesStdin name e3.writes s rs.length cfg.streams.length
        have e5 := sayError_speaks cfg.UsesStdin name e4.writes msg
        have := Phase.failing rs rest s [] (.header s (rs.length + 1) cfg.streams.length :: ([] ++ [.error msg]))
          (sayError (sayHeader ui s rs.length cfg.streams.length) name msg) e1 e2
          (by simpa using FileTalk.failed (fs := fs0) (i := rs.length + 1) (.decrypt []) [] none [] msg [] (display_nil cfg s _ _)) (by simpa using e3.trans (e4.trans e5))
        simpa using this
  | beginOpen s rest out hd size start st' ui' h1 h2 h3 h4 h5 h6 =>
    have hf := h3.flow
    obtain ⟨st, begun, live, ui⟩ := ts
    simp only at *
    rw [h1, h2] at h
    rw [h1, h2, h4] at hf
    rw [h4, Option.toList_some, hnil, List.append_nil]
    generalize st'.todo = todo' at hf ⊢
    generalize (Label.tau) = l at hf
    cases hf with
    | opened _ _ _ _ ho =>
      cases h with
      | next rs _ _ e1 e2 e3 =>
        have e4 := sayHeader_speaks cfg.UsesStdin name e3.writes s rs.length cfg.streams.length
        have e5 := takesStdin_speaks (name := name) e4.writes h6 (uses_of e1)
        exact .inputOpen rs rest s out hd _ [] ui' ho e1 e2 (fun dir i => liveInv_new start dir i h5) (by simpa using e3.trans (e4.trans e5))
  | work s out sink dir input written st' h1 h2 =>
    have hf := h1.flow
    obtain ⟨st, begun, live, ui⟩ := ts
    simp only at *
    rw [h2] at hf ⊢
    rw [Option.toList_some, hnil, List.append_nil]
    generalize st'.todo = todo' at hf ⊢
    generalize st.pc = pc at hf h
    generalize st.todo = todo at hf h
    generalize (Label.tau) = l at hf
    cases hf with
    | openOut _ _ _ hd _ _ _ _ ha =>
      cases h with
      | inputOpen rs _ _ _ _ lv texts _ e1 e2 e3 e4 e5 => exact .converting _ _ _ _ _ _ _ _ _ texts _ ha e1 e2 e3 (e4 _ _) e5
    | write _ _ _ _ _ _ w =>
      cases h with
      | converting rs _ _ _ _ _ _ _ lv texts _ e0 e1 e2 e3 e4 e5 => exact .converting _ _ _ _ _ _ _ _ _ texts _ e0 e1 e2 e3 e4 e5
  | progress s out sink dir input written lv lv' bytes now ui' w f h1 h2 h5 h6 h3 h4 =>
    obtain ⟨st, begun, live, ui⟩ := ts
    simp only at *
    subst h2
    rw [h1] at h ⊢
    rw [Option.toList_none, List.filter_nil, List.append_nil]
    cases h with
    | converting rs _ _ _ _ _ _ _ _ texts _ e0 e1 e2 e3 e4 e5 =>
      obtain ⟨new, e6, e7⟩ := update_spec (G := cfg.UsesStdin) (name := name) e4 e5.writes e0 h6 h3 h4
      exact .converting rs _ _ _ _ _ _ _ _ _ _ e0 e1 e2 e3 e6 (by simpa using e5.trans e7)
  | finish s dir input output lv st' ui' f h1 h2 h4 h3 =>
    have hf := h1.flow
    have hsr : ∀ out sink w, ts.st.pc = .converting s out sink dir input w → RightSize cfg fs0 s input lv.printer.filesize :=
      fun out sink w hc => hsz s out sink dir input w lv hc h2
    obtain ⟨st, begun, live, ui⟩ := ts
    simp only at *
    subst h2
    generalize hl : Label.converted s dir input output = l at hf
    generalize st'.todo = todo' at hf ⊢
    generalize st'.pc = pc' at hf ⊢
    generalize st.pc = pc at hf h hsr
    generalize st.todo = todo at hf h
    cases hf with
    | success =>
      cases hl
      cases h with
      | converting rs _ _ _ _ _ _ _ _ texts _ e0 e1 e2 e3 e4 e5 =>
        obtain ⟨stays, e6, e7⟩ := dropped_spec (G := cfg.UsesStdin) (name := name) e4 e5.writes h3
        exact .endOfFile rs _ s [.converted s dir input output] (.header s (rs.length + 1) cfg.streams.length :: (texts.map .progress ++ stays.map .final)) _
          e2 e3 (by simpa using FileTalk.converted (i := rs.length + 1) dir input output _ _ f _ e6 h4 (hsr _ _ _ rfl)) (by simpa using e5.trans e7)
    | _ => cases hl
  | giveUp s cleanup lv st' ui' msg h1 h2 h3 h4 h5 =>
    have hf := h2.flow
    obtain ⟨st, begun, live, ui⟩ := ts
    simp only at *
    subst h4
    rw [h3] at hf ⊢
    rw [Option.toList_some, hnil, List.append_nil]
    generalize st'.todo = todo' at hf ⊢
    generalize st.pc = pc at hf h h1
    generalize st.todo = todo at hf h
    generalize hl : Label.tau = l at hf
    cases hf with
    | noOpen => exact absurd rfl h1
    | notDeleted => cases hl
    | openOutFails _ _ _ _ =>
      cases h with
      | inputOpen rs _ _ _ _ _ texts _ e1 e2 e3 e4 e5 =>
        obtain ⟨stays, e6, e7⟩ := dropped_spec (G := cfg.UsesStdin) (name := name) (e4 (.decrypt []) []) e5.writes h5
        have e8 := sayError_speaks cfg.UsesStdin name e7.writes msg
        have := Phase.failing rs _ s [] (.header s (rs.length + 1) cfg.streams.length :: ((texts.map .progress ++ stays.map .final) ++ [.error msg]))
          (sayError ui' name msg) e2 e3
          (by simpa using FileTalk.failed (fs := fs0) (i := rs.length + 1) _ _ _ _ msg _ e6) (by simpa using e5.trans (e7.trans e8))
        simpa using this
    | failure _ _ out sink dir i w =>
      cases h with
      | converting rs _ _ _ _ _ _ _ _ texts _ e0 e1 e2 e3 e4 e5 =>
        obtain ⟨stays, e6, e7⟩ := dropped_spec (G := cfg.UsesStdin) (name := name) e4 e5.writes h5
        have e8 := sayError_speaks cfg.UsesStdin name e7.writes msg
        cases out with
        | stdout =>
          have := Phase.failing rs _ s [] (.header s (rs.length + 1) cfg.streams.length :: ((texts.map .progress ++ stays.map .final) ++ [.error msg]))
            (sayError ui' name msg) e2 e3
            (by simpa using FileTalk.failed (fs := fs0) (i := rs.length + 1) _ _ _ _ msg _ e6) (by simpa using e5.trans (e7.trans e8))
          simpa [outputCleanup] using this
        | file p =>
          exact .failingSome rs _ s p msg (texts.map .progress ++ stays.map .final) _ _ _ _ _ e2 e3 e1 e6 (by simpa using e5.trans (e7.trans e8))
  | crash lv st' ui' h1 h2 h3 h4 =>
    have hf := h1.flow
    obtain ⟨st, begun, live, ui⟩ := ts
    simp only at *
    subst h3
    rw [h2] at hf ⊢
    rw [Option.toList_some, hnil, List.append_nil]
    generalize st'.todo = todo' at hf ⊢
    generalize st.pc = pc at hf h
    generalize st.todo = todo at hf h
    generalize (Label.tau) = l at hf
    cases hf with
    | panic s _ out sink dir i w =>
      cases h with
      | converting rs _ _ _ _ _ _ _ _ texts _ e0 e1 e2 e3 e4 e5 =>
        rcases h4 with rfl | h4
        · exact .panicked rs _ s texts [] _ e2 e3 (by simpa using e5)
        · obtain ⟨stays, e6, e7⟩ := dropped_spec (G := cfg.UsesStdin) (name := name) e4 e5.writes h4
          exact .panicked rs _ s texts stays _ e2 e3 (by simpa using e5.trans e7)
  | outputNotDeleted s p st' reason h1 h2 =>
    have hf := h2.flow
    obtain ⟨st, begun, live, ui⟩ := ts
    simp only at *
    rw [h1] at h hf
    generalize hl : Label.outputNotDeleted s = l at hf
    generalize st'.todo = todo' at hf ⊢
    generalize st'.pc = pc' at hf ⊢
    generalize st.todo = todo at hf h
    cases hf with
    | notDeleted =>
      cases hl
      cases h with
      | failingSome rs _ _ _ msg lines _ d i sz rp e1 e2 e3 e4 e5 =>
        have e6 := sayNotDeleted_speaks cfg.UsesStdin name e5.writes cfg.force p reason
        have e7 := e5.trans e6
        cases hforce : cfg.force with
        | false =>
          refine .failing rs _ s [.outputNotDeleted s] (.header s (rs.length + 1) cfg.streams.length :: (lines ++ [.error msg,
            .error ("Error deleting '".toList ++ p ++ "': ".toList ++ reason)])) _ e1 e2 ?_ ?_
          · simpa using FileTalk.failedKept (fs := fs0) (i := rs.length + 1) d i sz rp p msg reason lines e3 e4 hforce
          · rw [hforce] at e7; simpa using e7
        | true =>
          refine .failing rs _ s [.outputNotDeleted s] (.header s (rs.length + 1) cfg.streams.length :: (lines ++ [.error msg])) _ e1 e2 ?_ ?_
          · simpa using FileTalk.failedKeptForced (fs := fs0) (i := rs.length + 1) d i sz rp msg lines e4 hforce
          · rw [hforce] at e7; simpa using e7
    | _ => cases hl
  | failed s st' h1 =>
    have hf := h1.flow
    obtain ⟨st, begun, live, ui⟩ := ts
    simp only at *
    generalize hl : Label.failed s = l at hf
    generalize st'.todo = todo' at hf ⊢
    generalize st'.pc = pc' at hf ⊢
    generalize st.todo = todo at hf h
    generalize st.pc = pc at hf h
    cases hf with
    | failed _ _ c =>
      cases hl
      cases h with
      | failing rs _ _ evs said _ e1 e2 e3 e4 =>
        rw [List.append_assoc]
        exact .endOfFile rs _ s _ said _ e1 e2 e3 e4
      | failingSome rs _ _ p msg lines _ d i sz rp e1 e2 e3 e4 e5 =>
        exact .endOfFile rs _ s [.failed s] _ _ e1 e2 (by simpa using FileTalk.failed (fs := fs0) (i := rs.length + 1) d i sz rp msg lines e4) e5
    | _ => cases hl
  | endOfFile st' t h1 h2 h3 =>
    have hf := h2.flow
    obtain ⟨st, begun, live, ui⟩ := ts
    simp only at *
    rw [h1] at h hf
    rw [Option.toList_some, hnil, List.append_nil]
    generalize hl : Label.tau = l at hf
    generalize st'.todo = todo' at hf ⊢
    generalize st'.pc = pc' at hf ⊢
    generalize st.todo = todo at hf h
    cases hf with
    | endOfFile =>
      cases h with
      | endOfFile rs _ s evs said _ e1 e2 e3 e4 =>
        have e5 := blank_speaks cfg.UsesStdin name e4.writes
        rw [h3] at e5
        have := Phase.next (name := name) (ui0 := ui0) (rs ++ [⟨s, evs, said ++ [.blank]⟩]) _ _ (by simpa using e1) (reported_snoc e2 e3)
          (by simpa using e4.trans e5)
        simpa using this
    | _ => cases hl
  | endOfFileFails st' e t msg h1 h2 h3 =>
    obtain ⟨st, begun, live, ui⟩ := ts
    simp only at *
    rw [h1] at h
    cases h with
    | endOfFile rs _ s evs said _ e1 e2 e3 e4 =>
      have := println_ok e4.writes 0 []
      rw [h3] at this
      cases this
  | closing st' h1 h2 =>
    have hf := h1.flow
    obtain ⟨st, begun, live, ui⟩ := ts
    simp only at *
    rw [Option.toList_some, hnil, List.append_nil]
    generalize hl : Label.tau = l at hf
    generalize st'.todo = todo' at hf ⊢
    generalize st'.pc = pc' at hf h2 ⊢
    generalize st.todo = todo at hf h
    generalize st.pc = pc at hf h
    cases hf with
    | noOpen | opened | openOut | openOutFails | write | failure | panic | endOfFile => simp at h2
    | noCleanups ok =>
      cases h with
      | next rs _ _ e1 e2 e3 =>
        simpa using Phase.done rs ui [] [] ok ui (by simpa using e1) e2 e3 .silent (by simp)
    | cleanups =>
      cases h with
      | next rs _ _ e1 e2 e3 => exact .asking rs ui (by simpa using e1) e2 e3
    | keep _ ok =>
      cases h with
      | asking rs _ e1 e2 e3 => simpa using Phase.done rs ui [] [] ok ui e1 e2 e3 .silent (by simp)
    | delete _ ps hp =>
      cases h with
      | asking rs _ e1 e2 e3 => simpa using Phase.deletes rs ui [] [] ps ui e1 e2 e3 hp .nil (.refl e3.writes)
    | allDeleted _ ok =>
      cases h with
      | deletes rs ui1 ls us _ _ e1 e2 e3 e4 e5 e6 =>
        obtain ⟨p6, acts, s6, h6⟩ := e6
        exact .done rs ui1 ls acts ok ui e1 e2 e3 (.deletes ls us acts e4 e5 h6) s6.log
      | agreed rs ui1 ui2 evs talk ls us _ _ e1 e2 e3 e4 e5 e6 e7 e8 e9 e10 e11 e12 e13 e14 =>
        obtain ⟨p6, acts, s6, h6⟩ := e14
        rw [e11, e10] at h6
        refine .done rs ui1 _ (talk ++ acts) ok ui e1 e2 e3
          (.agreed evs talk _ ls us acts e4 e5 e6 e7 e8 e9 e13 h6) ?_
        rw [s6.log, e12, List.append_assoc]
    | _ => cases hl
  | prompt a t' st' h1 =>
    have hf := h1.flow
    obtain ⟨st, begun, live, ui⟩ := ts
    simp only at *
    generalize hl : Label.answer ui.term a t' = l at hf
    generalize st'.todo = todo' at hf ⊢
    generalize st'.pc = pc' at hf ⊢
    generalize st.todo = todo at hf h
    generalize st.pc = pc at hf h
    cases hf with
    | agreed _ ps _ _ hp hq =>
      cases hl
      cases h with
      | asking rs _ e1 e2 e3 =>
        rcases question_spec e3.writes hq with ⟨-, hn, -⟩ | ⟨h2, h3, -, h5, h6, evs, acts, h7, h8, h9⟩
        · cases hn
        · exact .agreed rs ui ⟨t', ui.progress⟩ evs acts [] [] ps _ e1 e2 e3 hp h2 h3 h7 h8 (typedYes_of_answer hq) rfl h5 h9 .nil (.refl h6)
    | refused _ _ _ _ ok hp ha hq =>
      cases hl
      cases h with
      | asking rs _ e1 e2 e3 =>
        rcases question_spec e3.writes hq with ⟨hn, h2, h3⟩ | ⟨h2, h3, h4, h5, h6, evs, acts, h7, h8, h9⟩
        · cases h2
          subst h3
          exact .done rs ui _ [] ok _ e1 e2 e3 (.nobody hp hn) (by simp)
        · rcases a with _ | _ | _
          · exact absurd rfl h4
          · exact .done rs ui _ acts ok _ e1 e2 e3 (.refused evs acts _ hp h2 h3 h7 h8) h9
          · exact absurd rfl ha
    | _ => cases hl
  | promptFails e t' st' msg h1 h2 h3 =>
    have hf := h2.flow
    obtain ⟨st, begun, live, ui⟩ := ts
    simp only at *
    rw [h1] at h hf
    generalize hl : Label.uiFailed = l at hf
    generalize st'.todo = todo' at hf ⊢
    generalize st'.pc = pc' at hf ⊢
    generalize st.todo = todo at hf h
    cases hf with
    | promptFails _ hp =>
      cases h with
      | asking rs _ e1 e2 e3 =>
        rcases question_spec e3.writes h3 with ⟨hn, hr, -⟩ | ⟨h4, h5, -, h6, h7, evs, acts, h8, h9, h10⟩
        · cases hr
        · obtain ⟨p6, acts', s6, h6'⟩ := sayError_speaks False name (ui := { ui with term := t' }) h7 msg
          simp only [h6] at h6'
          refine .done rs ui _ (acts ++ acts') false _ e1 e2 e3
            (.failed evs acts msg acts' hp h4 h5 h8 (by rw [h9]; exact List.prefix_append _ _) h6') ?_
          rw [s6.log, h10, List.append_assoc]
    | _ => cases hl
  | deleted p st' h1 =>
    have hf := h1.flow
    obtain ⟨st, begun, live, ui⟩ := ts
    simp only at *
    generalize hl : Label.inputDeleted p = l at hf
    generalize st'.todo = todo' at hf ⊢
    generalize st'.pc = pc' at hf ⊢
    generalize st.todo = todo at hf h
    generalize st.pc = pc at hf h
    cases hf with
    | deleteInput =>
      cases hl
      cases h with
      | deletes rs ui1 ls us _ _ e1 e2 e3 e4 e5 e6 =>
        rw [List.append_assoc]
        exact .deletes rs ui1 _ us _ _ e1 e2 e3 e4 (.deleted ls us p e5) e6
      | agreed rs ui1 ui2 evs talk ls us _ _ e1 e2 e3 e4 e5 e6 e7 e8 e9 e10 e11 e12 e13 e14 =>
        rw [List.append_assoc]
        exact .agreed rs ui1 ui2 evs talk _ us _ _ e1 e2 e3 e4 e5 e6 e7 e8 e9 e10 e11 e12 (.deleted ls us p e13) e14
    | _ => cases hl
  | notDeleted p st' reason h1 =>
    have hf := h1.flow
    obtain ⟨st, begun, live, ui⟩ := ts
    simp only at *
    generalize hl : Label.inputNotDeleted p = l at hf
    generalize st'.todo = todo' at hf ⊢
    generalize st'.pc = pc' at hf ⊢
    generalize st.todo = todo at hf h
    generalize st.pc = pc at hf h
    have hrem : ∀ {ls us} (ui1 : Ui), RemovalTalk cfg.force ls us → Speaks False name ui1 us ui →
        ∃ us', RemovalTalk cfg.force (ls ++ [.inputNotDeleted p]) us' ∧ Speaks False name ui1 us' (sayNotDeleted ui cfg.force name p reason) := by
      intro ls us ui1 hr hsp
      have h2 := hsp.trans (sayNotDeleted_speaks False name hsp.writes cfg.force p reason)
      cases hforce : cfg.force with
      | false => rw [hforce] at hr h2; exact ⟨_, .kept ls us p reason hr rfl, h2⟩
      | true => rw [hforce] at hr h2; exact ⟨_, .keptForced ls us p hr rfl, by simpa using h2⟩
    cases hf with
    | deleteInputFails =>
      cases hl
      cases h with
      | deletes rs ui1 ls us _ _ e1 e2 e3 e4 e5 e6 =>
        obtain ⟨us', e7, e8⟩ := hrem ui1 e5 e6
        rw [List.append_assoc]
        exact .deletes rs ui1 _ us' _ _ e1 e2 e3 e4 e7 e8
      | agreed rs ui1 ui2 evs talk ls us _ _ e1 e2 e3 e4 e5 e6 e7 e8 e9 e10 e11 e12 e13 e14 =>
        obtain ⟨us', e15, e16⟩ := hrem ui2 e13 e14
        rw [List.append_assoc]
        exact .agreed rs ui1 ui2 evs talk _ us' _ _ e1 e2 e3 e4 e5 e6 e7 e8 e9 e10 e11 e12 e15 e16
    | _ => cases hl

end Rypt.CryptStreams
