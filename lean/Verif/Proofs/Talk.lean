import Mathlib.Data.List.Forall2
import Verif.Spec.Talk
import Verif.Proofs.UI
import Verif.Proofs.Human
import Verif.Proofs.CryptStreamsEnd
import Verif.Props.ProgressText

/-! Lemmas about what is said during a conversion. -/

namespace Rypt.CryptStreams

open Rypt.Progress UI Cli Filesystem Spec

/-! ### Projection to the steps without words -/

theorem TStep.project {cfg : Config} {name : List Char} {ts ts' : TState} {l : Option Label} (h : TStep cfg name ts l ts') :
    (l = none ∧ ts'.st = ts.st) ∨ ∃ l', l = some l' ∧ Step cfg ts.st l' ts'.st := by
  cases h with
  | progress => exact .inl ⟨rfl, rfl⟩
  | _ => exact .inr ⟨_, rfl, by assumption⟩

theorem TRun.project {cfg : Config} {name : List Char} {ts ts' : TState} {ls : List Label} (h : TRun cfg name ts ls ts') :
    Run cfg ts.st ls ts'.st := by
  induction h with
  | refl => exact .refl
  | step ls t l u _ hs ih =>
    rcases hs.project with ⟨rfl, h1⟩ | ⟨l', rfl, h1⟩
    · rw [h1]; simpa using ih
    · exact .step _ _ _ _ ih h1

/-! ### Saying something -/

/-- `acts` was said on the terminal, and perhaps standard input handed over. -/
structure Spoke (G : Prop) (t t' : Term) (acts : List Act) : Prop where
  inputIsTty : t'.inputIsTty = t.inputIsTty
  outputIsTty : t'.outputIsTty = t.outputIsTty
  verbosity : t'.verbosity = t.verbosity
  tty : t'.tty = t.tty
  writes : WritesWork t'
  given : t'.hasInput = t.hasInput ∧ t'.stdin = t.stdin ∨ t'.hasInput = false ∧ G
  log : t'.log = t.log ++ acts

theorem Spoke.refl {G : Prop} {t : Term} (h : WritesWork t) : Spoke G t t [] := ⟨rfl, rfl, rfl, rfl, h, .inl ⟨rfl, rfl⟩, by simp⟩

theorem Spoke.trans {G : Prop} {a b c : Term} {x y : List Act} (h1 : Spoke G a b x) (h2 : Spoke G b c y) : Spoke G a c (x ++ y) :=
  ⟨h2.inputIsTty.trans h1.inputIsTty, h2.outputIsTty.trans h1.outputIsTty, h2.verbosity.trans h1.verbosity, h2.tty.trans h1.tty,
    h2.writes, by
      rcases h2.given with ⟨h3, h4⟩ | h3
      · rcases h1.given with ⟨h5, h6⟩ | ⟨h5, h6⟩
        · exact .inl ⟨h3.trans h5, h4.trans h6⟩
        · exact .inr ⟨h3.trans h5, h6⟩
      · exact .inr h3, by rw [h2.log, h1.log, List.append_assoc]⟩

theorem writeAll_spoke (G : Prop) {t : Term} (h : WritesWork t) (s : List Char) : Spoke G t (writeAll t s).2 [.wrote s] := by
  unfold writeAll
  split
  · exact ⟨rfl, rfl, rfl, rfl, h, .inl ⟨rfl, rfl⟩, rfl⟩
  · rename_i ws hw
    exact ⟨rfl, rfl, rfl, rfl, fun w hm => h w (by rw [hw]; exact List.mem_cons_of_mem _ hm), .inl ⟨rfl, rfl⟩, rfl⟩
  · rename_i n ws hw
    have := h (some n) (by rw [hw]; simp)
    cases this

/-- `us` is said. -/
def Speaks (G : Prop) (name : List Char) (ui : Ui) (us : List Utter) (ui' : Ui) : Prop :=
  ui'.progress = ui.progress ∧ ∃ acts, Spoke G ui.term ui'.term acts ∧ Heard name ui.term.verbosity ui.progress us acts

theorem heard_nil (name : List Char) (v : Int) (p : Bool) : Heard name v p [] [] := ⟨[], .nil, rfl⟩

theorem _root_.Rypt.Spec.Heard.append {name : List Char} {v : Int} {p : Bool} {us us' : List Utter} {a b : List Act} (h1 : Heard name v p us a)
    (h2 : Heard name v p us' b) : Heard name v p (us ++ us') (a ++ b) := by
  obtain ⟨t1, h3, rfl⟩ := h1
  obtain ⟨t2, h4, rfl⟩ := h2
  refine ⟨t1 ++ t2, ?_, by simp⟩
  rw [List.filter_append]
  exact List.rel_append h3 h4

theorem heard_one {name : List Char} {v : Int} {p : Bool} {u : Utter} {t : List Char} (hv : u.visible v p = true) (hs : u.Says name t) :
    Heard name v p [u] [.wrote t] := ⟨[t], by rw [List.filter_cons_of_pos hv]; exact .cons hs .nil, rfl⟩

theorem heard_hidden {name : List Char} {v : Int} {p : Bool} {u : Utter} (hv : ¬ u.visible v p = true) : Heard name v p [u] [] :=
  ⟨[], by rw [List.filter_cons_of_neg hv]; exact .nil, rfl⟩

theorem Speaks.refl {G : Prop} {name : List Char} {ui : Ui} (h : WritesWork ui.term) : Speaks G name ui [] ui :=
  ⟨rfl, [], .refl h, heard_nil _ _ _⟩

theorem Speaks.trans {G : Prop} {name : List Char} {a b c : Ui} {us us' : List Utter} (h1 : Speaks G name a us b)
    (h2 : Speaks G name b us' c) : Speaks G name a (us ++ us') c := by
  obtain ⟨p1, x, s1, e1⟩ := h1
  obtain ⟨p2, y, s2, e2⟩ := h2
  rw [s1.verbosity, p1] at e2
  exact ⟨p2.trans p1, x ++ y, s1.trans s2, e1.append e2⟩

theorem Speaks.writes {G : Prop} {name : List Char} {a b : Ui} {us : List Utter} (h : Speaks G name a us b) : WritesWork b.term := by
  obtain ⟨-, _, h, -⟩ := h
  exact h.writes

theorem inputPath_eq (i : Input) : inputPath i = inputName i := by cases i <;> rfl

theorem print_speaks (G : Prop) {name : List Char} {ui : Ui} (h : WritesWork ui.term) {v : Int} {m : List Char} {u : Utter}
    (hv : u.visible ui.term.verbosity ui.progress = true ↔ v ≤ ui.term.verbosity) (hs : u.Says name m) :
    Speaks G name ui [u] { ui with term := (print ui.term v m).2 } := by
  refine ⟨rfl, ?_⟩
  unfold print willPrint
  by_cases hd : v ≤ ui.term.verbosity
  · simp only [hd, decide_true, if_true]
    exact ⟨_, writeAll_spoke G h m, heard_one (by simp [hv, hd]) hs⟩
  · simp only [hd, decide_false, Bool.false_eq_true, if_false]
    exact ⟨_, .refl h, heard_hidden (by simp [hv, hd])⟩

theorem fileHeader_eq (s : Stream) (i n : Nat) : fileHeader s i n ++ ['\n'] =
    inputName s.input ++ " -> ".toList ++ outputName s.output ++ " (".toList ++ Human.decimal (i + 1) ++ "/".toList ++
      Human.decimal n ++ ")\n".toList := by
  unfold fileHeader
  rw [inputPath_eq]
  generalize Human.decimal (i + 1) = a, Human.decimal n = b, inputName s.input = d
  rcases s with ⟨_, _ | _ | _⟩
  all_goals
    rw [List.append_assoc (bs := ")".toList)]
    rfl

theorem sayHeader_speaks (G : Prop) (name : List Char) {ui : Ui} (h : WritesWork ui.term) (s : Stream) (i n : Nat) :
    Speaks G name ui [.header s (i + 1) n] (sayHeader ui s i n) := by
  have hs : Utter.Says name (.header s (i + 1) n) (fileHeader s i n ++ ['\n']) := by
    rw [fileHeader_eq]
    exact Utter.Says.header s (i + 1) n _ _ (Human.decimal_spec (i + 1)) (Human.decimal_spec n)
  generalize hm : fileHeader s i n = m at hs
  have := print_speaks G h (v := progressVerbosity) (by simp [Utter.visible, progressVerbosity]) hs
  unfold sayHeader println
  rw [hm]
  exact this

theorem sayError_speaks (G : Prop) (name : List Char) {ui : Ui} (h : WritesWork ui.term) (m : List Char) :
    Speaks G name ui [.error m] (sayError ui name m) :=
  print_speaks G h (v := errorVerbosity) (by simp [Utter.visible, errorVerbosity]) (Utter.Says.error m)

theorem sayLine_speaks (G : Prop) (name : List Char) {ui : Ui} (h : WritesWork ui.term) (m : List Char) (finish : Bool) :
    Speaks G name ui [if finish then .final m else .progress m] (sayLine ui m finish) := by
  unfold sayLine printlnProgress
  by_cases hp : ui.progress = true
  · rw [if_pos hp]
    refine print_speaks G h (v := progressVerbosity) (by cases finish <;> simp [Utter.visible, hp, progressVerbosity]) ?_
    cases finish
    · exact Utter.Says.progress m
    · exact Utter.Says.final m
  · rw [if_neg hp]
    exact ⟨rfl, [], .refl h, heard_hidden (by cases finish <;> simp [Utter.visible, hp])⟩

theorem blank_speaks (G : Prop) (name : List Char) {ui : Ui} (h : WritesWork ui.term) :
    Speaks G name ui [.blank] { ui with term := (println ui.term 0 []).2 } :=
  print_speaks G h (v := 0) (by simp [Utter.visible]) Utter.Says.blank

theorem println_ok {t : Term} (h : WritesWork t) (v : Int) (m : List Char) : (println t v m).1 = .ok () := by
  unfold println print
  split
  · exact writeAll_ok h _
  · rfl

theorem sayNotDeleted_speaks (G : Prop) (name : List Char) {ui : Ui} (h : WritesWork ui.term) (force : Bool) (p reason : List Char) :
    Speaks G name ui (if force then [] else [.error ("Error deleting '".toList ++ p ++ "': ".toList ++ reason)])
      (sayNotDeleted ui force name p reason) := by
  unfold sayNotDeleted
  cases force
  · exact sayError_speaks G name h _
  · exact .refl h

theorem takesStdin_speaks {G : Prop} {name : List Char} {ui ui' : Ui} (h : WritesWork ui.term) {s : Stream} (hs : takesStdin s ui = .ok ui')
    (hG : s.input = .stdin → G) : Speaks G name ui [] ui' := by
  unfold takesStdin at hs
  split at hs
  · rename_i hi
    unfold extractInput at hs
    split at hs
    · rename_i heq
      split at heq
      · cases heq
        cases hs
        exact ⟨rfl, [], ⟨rfl, rfl, rfl, rfl, h, .inr ⟨rfl, hG hi⟩, by simp⟩, heard_nil _ _ _⟩
      · cases heq
    · cases hs
    · cases hs
  · cases hs
    exact .refl h

/-! ### The progress display -/

/-- The display of `s` has shown `texts`. -/
structure LiveInv (cfg : Config) (s : Stream) (dir : CryptFile.Direction) (input : Bytes) (lv : Live) (texts : List (List Char)) : Prop where
  hist : lv.calls = [] ∨ cfg.histories lv.start lv.calls ∧ cfg.direction.allows dir
  told : ∀ p, p <+: lv.calls.map Prod.fst → p ≠ [] → ∃ w f, CryptFile.Told cfg.lib input dir ⟨w, none, f⟩ p
  stdin : s.input = .stdin → lv.printer.filesize = none
  file : ∀ p, s.input = .file p → lv.printer.filesize ≠ none
  run : ∃ lines, ((Printer.new lv.start).setFilesize lv.printer.filesize).run lv.calls = .ok (lv.printer, lines) ∧
    List.Forall₂ (RightText lv.printer.filesize) lines texts

theorem rightText_of {f : Option Nat} {l : Line} {text : List Char} (hl : Fits f l) (h : formatLine f l = .ok text) : RightText f l text := by
  obtain ⟨pct, size, speed, eta, text', h1, h2, -⟩ := Props.progress_text f l hl.1 hl.2.1 hl.2.2
  rw [h] at h1
  cases h1
  exact ⟨_, _, _, _, h2⟩

theorem LiveInv.stamps {cfg : Config} {s : Stream} {dir : CryptFile.Direction} {input : Bytes} {lv : Live} {texts : List (List Char)}
    (h : LiveInv cfg s dir input lv texts) :
    ∀ m ∈ lv.printer.stamps, m.2 < 2 ^ 64 := by
  obtain ⟨lines, h1, -⟩ := h.run
  exact (run_fits _ _ _ _ (by simp [Printer.new, Printer.setFilesize]) h1).2.1

theorem told_snoc {cfg : Config} {dir : CryptFile.Direction} {input : Bytes} {calls : List (Nat × Nat)} {b now : Nat} {w : Bytes} {f : Bool}
    (h : ∀ p, p <+: calls.map Prod.fst → p ≠ [] → ∃ w f, CryptFile.Told cfg.lib input dir ⟨w, none, f⟩ p)
    (ht : CryptFile.Told cfg.lib input dir ⟨w, none, f⟩ ((calls ++ [(b, now)]).map Prod.fst)) :
    ∀ p, p <+: (calls ++ [(b, now)]).map Prod.fst → p ≠ [] → ∃ w f, CryptFile.Told cfg.lib input dir ⟨w, none, f⟩ p := by
  intro p hp hne
  rw [List.map_append] at hp
  rcases List.prefix_concat_iff.1 hp with rfl | hp
  · exact ⟨w, f, by rw [List.map_append] at ht; exact ht⟩
  · exact h p hp hne

theorem update_spec {G : Prop} {cfg : Config} {name : List Char} {s : Stream} {dir : CryptFile.Direction} {input : Bytes} {lv lv' : Live}
    {ui ui' : Ui} {b now : Nat} {texts : List (List Char)} {w : Bytes} {f : Bool}
    (h : LiveInv cfg s dir input lv texts) (hw : WritesWork ui.term) (hd : cfg.direction.allows dir)
    (ht : CryptFile.Told cfg.lib input dir ⟨w, none, f⟩ ((lv.calls ++ [(b, now)]).map Prod.fst))
    (hh : cfg.histories lv.start (lv.calls ++ [(b, now)])) (hu : Update lv ui b now lv' ui') :
    ∃ new, LiveInv cfg s dir input lv' (texts ++ new) ∧ Speaks G name ui (new.map .progress) ui' := by
  have hto := told_snoc h.told ht
  obtain ⟨lines, h1, h2⟩ := h.run
  cases hu with
  | quiet pr hp =>
    have hf := (printProgress_fits h.stamps hp).2.2
    refine ⟨[], ⟨.inr ⟨hh, hd⟩, hto, ?_, ?_, lines, ?_, ?_⟩, .refl hw⟩
    · simpa only [hf] using h.stdin
    · simpa only [hf] using h.file
    · have := run_snoc h1 hp
      simpa only [hf, Option.toList_none, List.append_nil] using this
    · simpa only [hf, List.append_nil] using h2
  | line pr l text hp ht =>
    obtain ⟨hl, -, hf⟩ := printProgress_fits h.stamps hp
    refine ⟨[text], ⟨.inr ⟨hh, hd⟩, hto, ?_, ?_, lines ++ [l], ?_, ?_⟩, sayLine_speaks G name hw text false⟩
    · simpa only [hf] using h.stdin
    · simpa only [hf] using h.file
    · have := run_snoc h1 hp
      simpa only [hf, Option.toList_some] using this
    · simp only [hf]
      exact List.rel_append h2 (.cons (rightText_of (hl l rfl) ht) .nil)

theorem dropped_spec {G : Prop} {cfg : Config} {name : List Char} {s : Stream} {dir : CryptFile.Direction} {input : Bytes} {lv : Live}
    {ui ui' : Ui} {texts : List (List Char)} (h : LiveInv cfg s dir input lv texts) (hw : WritesWork ui.term) (hu : Dropped lv ui ui') :
    ∃ stays : List (List Char), Display cfg s dir input lv.printer.filesize (lv.calls.map Prod.fst) (texts.map .progress ++ stays.map .final) ∧
      Speaks G name ui (stays.map .final) ui' := by
  obtain ⟨lines, h1, h2⟩ := h.run
  have hfile : ∀ p, s.input = .file p → lv.printer.filesize ≠ none ∨ lv.calls = [] := fun p hp => .inl (h.file p hp)
  cases hu with
  | quiet hd =>
    refine ⟨[], .shown lv.start _ lv.calls lines none texts [] h.hist h.told h.stdin hfile ?_ h2 .nil, .refl hw⟩
    rw [session, h1, Res.bind_ok]
    simp only [hd, Res.bind_ok, Res.pure_def]
  | line l text hd ht =>
    have hl : Fits lv.printer.filesize l := by
      unfold Printer.drop at hd
      split at hd
      · obtain ⟨⟨s2, l2⟩, h6, h7⟩ := Res.bind_eq_ok.1 hd
        cases h7
        exact (printProgressLine_fits h.stamps h6).1
      · cases hd
    refine ⟨[text], .shown lv.start _ lv.calls lines (some l) texts [text] h.hist h.told h.stdin hfile ?_ h2 (.cons (rightText_of hl ht) .nil),
      sayLine_speaks G name hw text true⟩
    rw [session, h1, Res.bind_ok]
    simp only [hd, Res.bind_ok, Res.pure_def]

theorem display_nil (cfg : Config) (s : Stream) (dir : CryptFile.Direction) (input : Bytes) : Display cfg s dir input none [] [] :=
  .shown 0 none [] [] none [] [] (.inl rfl) (by simp) (fun _ => rfl) (fun _ _ => .inr rfl) (by rfl) .nil .nil

theorem liveInv_new {cfg : Config} {fs : FS} {s : Stream} {h : Handle} {size : Option Nat} (start : Nat)
    (dir : CryptFile.Direction) (input : Bytes) (ho : openInput fs cfg.force s.input = .ok h size) :
    LiveInv cfg s dir input ⟨start, [], (Printer.new start).setFilesize size⟩ [] := by
  refine ⟨.inl rfl, by simp, ?_, ?_, [], rfl, .nil⟩
  · intro hi
    rw [hi] at ho
    cases ho
    rfl
  · intro p hi
    rw [hi] at ho
    unfold openInput at ho
    simp only at ho
    split at ho
    · split at ho
      · cases ho
      · split at ho
        · cases ho
        · cases ho
          simp [Printer.setFilesize]
    · cases ho

/-! ### The question -/

theorem readPrompt_log {t : Term} (hw : WritesWork t) (hc : CanPrompt t) (prompt : List Char) :
    ∃ pre, t.stdin = pre ++ (readPrompt t prompt).2.stdin ∧
      (readPrompt t prompt).2.log = t.log ++ .wrote prompt :: pre.map (.read · t.echo) := by
  unfold readPrompt
  rw [if_neg (by simp [(canRead_iff t).2 hc])]
  have h1 := writeAll_ok hw prompt
  have h2 := writeAll_wrote t prompt
  have h3 := writeAll_spoke True hw prompt
  generalize writeAll t prompt = r at h1 h2 h3
  obtain ⟨r, t1⟩ := r
  simp only at h1 h2 h3
  subst h1
  obtain ⟨pre, h4, -, h5⟩ := readLine_reads t1.echo t1.stdin [] [] t1.log incomplete_nil
  refine ⟨pre, by rw [← h2.stdin]; exact h4, ?_⟩
  refine h5.trans ?_
  rw [h3.log, h2.echo]
  simp only [reads, List.append_assoc, List.cons_append, List.nil_append]

theorem loop_dialogue (t : Term) (prompt : List Char) (dflt : Bool) (hp : prompt = "Remove original file(s)? [y/N]: ".toList)
    (hw : WritesWork t) (hc : CanPrompt t) :
    ∃ evs acts, Dialogue t.echo evs acts ∧ t.stdin = evs ++ (readPromptBoolLoop t prompt dflt).2.stdin ∧
      (readPromptBoolLoop t prompt dflt).2.log = t.log ++ acts := by
  fun_induction readPromptBoolLoop t prompt dflt with
  | case1 t s t1 hr | case2 t s t1 hr | case3 t s t1 hr | case7 t s t1 hr =>
    obtain ⟨pre, h1, h2⟩ := readPrompt_log hw hc prompt
    rw [hr] at h1 h2
    exact ⟨pre, _, .once pre, h1, by rw [h2, hp]⟩
  | case8 t t1 hr =>
    have := (readPrompt_frame t prompt).2.2.1; rw [hr] at this; exact absurd rfl this
  | case4 t s t1 hr s' hy hn he t2 hp2 ih =>
    obtain ⟨pre, h1, h2⟩ := readPrompt_log hw hc prompt
    have hf := (readPrompt_frame t prompt).1
    have he' := (readPrompt_frame t prompt).2.1
    rw [hr] at h1 h2 hf he'
    have hw1 := hf.writesWork hw
    have hc1 : CanPrompt t1 := (canRead_iff t1).1 (hf.canRead.trans ((canRead_iff t).2 hc))
    have hm : (printlnInteractive t1 "Invalid input, please enter 'y' or 'n'.".toList).2 =
        (writeAll t1 ("Invalid input, please enter 'y' or 'n'.".toList ++ ['\n'])).2 := by
      unfold printlnInteractive
      rw [if_pos (show willPrint t1 interactiveVerbosity = true from decide_eq_true hc1.2.2.2)]
    have hsp := writeAll_spoke False hw1 ("Invalid input, please enter 'y' or 'n'.".toList ++ ['\n'])
    rw [← hm, hp2] at hsp
    have hc2 : CanPrompt t2 := by
      refine ⟨?_, hsp.inputIsTty.trans hc1.2.1, hsp.outputIsTty.trans hc1.2.2.1, by rw [hsp.verbosity]; exact hc1.2.2.2⟩
      rcases hsp.given with h | h
      · exact h.1.trans hc1.1
      · exact h.2.elim
    have hst : t2.stdin = t1.stdin := by
      rcases hsp.given with h | h
      · exact h.2
      · exact h.2.elim
    obtain ⟨evs, acts, h3, h4, h5⟩ := ih hsp.writes hc2
    have hecho : t2.echo = t.echo := by unfold Term.echo; rw [hsp.tty, he']
    rw [hecho] at h3
    refine ⟨pre ++ evs, _, .again pre evs acts h3, ?_, ?_⟩
    · rw [h1]; simp only []; rw [← hst, h4, List.append_assoc]
    · rw [h5, hsp.log, h2, hp]
      simp only [List.append_assoc, List.cons_append, List.nil_append]
      rfl
  | case5 t s t1 hr s' hy hn he e t2 hp2 =>
    have hf := (readPrompt_frame t prompt).1
    rw [hr] at hf
    have := printlnInteractive_ok (hf.writesWork hw) "Invalid input, please enter 'y' or 'n'.".toList
    rw [hp2] at this
    cases this
  | case6 t s t1 hr s' hy hn he t2 hp2 =>
    have := printlnInteractive_no_panic t1 "Invalid input, please enter 'y' or 'n'.".toList
    rw [hp2] at this
    exact absurd rfl this

/-- The question: nobody to ask, or a dialogue. -/
theorem question_spec {t t' : Term} {r : Res (Option Bool)} (hw : WritesWork t)
    (h : readPromptBool t 0 "Remove original file(s)?".toList false = (r, t')) :
    (¬ (CanPrompt t ∧ 0 ≤ t.verbosity) ∧ r = .ok none ∧ t' = t) ∨
      (CanPrompt t ∧ 0 ≤ t.verbosity ∧ r ≠ .ok none ∧ t'.verbosity = t.verbosity ∧ WritesWork t' ∧
        ∃ evs acts, Dialogue t.echo evs acts ∧ t.stdin = evs ++ t'.stdin ∧ t'.log = t.log ++ acts) := by
  unfold readPromptBool at h
  split at h
  · rename_i hc
    cases h
    refine .inl ⟨?_, rfl, rfl⟩
    rintro ⟨h1, h2⟩
    simp [(canRead_iff t).2 h1, willPrint, h2] at hc
  · rename_i hc
    simp only [Bool.or_eq_true, Bool.not_eq_true', not_or, Bool.not_eq_false] at hc
    have hcp := (canRead_iff t).1 hc.1
    obtain ⟨evs, acts, h1, h2, h3⟩ := loop_dialogue t _ false (by rfl) hw hcp
    obtain ⟨hf, -⟩ := readPromptBoolLoop_frame t ("Remove original file(s)? [y/N]: ".toList) false
    have hne : (readPromptBoolLoop t ("Remove original file(s)? [y/N]: ".toList) false).1 ≠ .ok none := by
      intro hn
      obtain ⟨b', pre, s, l, hb, -⟩ := readPromptBoolLoop_ok t _ false (r := none) (t' := (readPromptBoolLoop t ("Remove original file(s)? [y/N]: ".toList) false).2)
        (Prod.ext hn rfl)
      cases hb
    have he : readPromptBoolLoop t ("Remove original file(s)? [y/N]: ".toList) false = (r, t') := h
    rw [he] at h2 h3 hf hne
    exact .inr ⟨hcp, of_decide_eq_true hc.2, hne, hf.verbosity, hf.writesWork hw, evs, acts, h1, h2, h3⟩

end Rypt.CryptStreams
