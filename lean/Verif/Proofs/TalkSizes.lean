import Verif.Proofs.TalkPhases
import Verif.Proofs.CryptStreams

/-! The size that the progress display is told, and what has been said at every moment. -/

namespace Rypt.CryptStreams

open Rypt.Progress UI Cli Filesystem Spec

theorem printProgress_filesize {s s' : Printer} {b now : Nat} {l : Option Line} (h : s.printProgress b now = .ok (s', l)) :
    s'.filesize = s.filesize := by
  unfold Printer.printProgress at h
  obtain ⟨e, -, h⟩ := Res.bind_eq_ok.1 h
  split at h
  · split at h
    · cases h
    · cases h
      rfl
  · obtain ⟨⟨s2, l2⟩, h1, h2⟩ := Res.bind_eq_ok.1 h
    cases h2
    unfold Printer.printProgressLine at h1
    split at h1
    · obtain ⟨sp, -, h1⟩ := Res.bind_eq_ok.1 h1
      obtain ⟨eta, -, h1⟩ := Res.bind_eq_ok.1 h1
      cases h1
      rfl
    · cases h1

theorem Update.filesize {lv lv' : Live} {ui ui' : Ui} {b now : Nat} (h : Update lv ui b now lv' ui') :
    lv'.printer.filesize = lv.printer.filesize := by
  cases h with
  | quiet pr hp => exact printProgress_filesize hp
  | line pr l text hp => exact printProgress_filesize hp

theorem openInput_regular {fs : FS} {inp : Input} {p : Path} {h : Handle} {size : Option Nat} {ino : Nat}
    (he : fs.entry (fs.loc p) = some (.file ino)) (ho : openInput fs false inp = .ok h size) :
    (inp = .file p → h = .file ino ∧ size = some (fs.content ino).length) ∧
    (inp = .fileStream p → h = .file ino ∧ size = if fs.content ino = [] then none else some (fs.content ino).length) := by
  have hr : fs.openRead p = some (.file ino) := by simp [FS.openRead, FS.follow, he]
  have hm : fs.symlinkMetadata p = some ⟨.file ino, fs.nlink ino, (fs.content ino).length⟩ := by simp [FS.symlinkMetadata, he]
  constructor
  · rintro rfl
    unfold openInput at ho
    simp only [hr, hm] at ho
    split at ho
    · cases ho
    · split at ho
      · cases ho
      · cases ho
        exact ⟨rfl, rfl⟩
  · rintro rfl
    unfold openInput at ho
    simp only [hr, hm] at ho
    split at ho
    · cases ho
    · cases ho
      refine ⟨rfl, ?_⟩
      by_cases hc : fs.content ino = []
      · simp [hc]
      · have := List.length_pos_iff.2 hc
        simp only [hc, if_false, Option.filter, this, decide_true, if_true]

/-- An output that is created is a new file. -/
theorem openOutput_fresh {fs fs' : FS} {out : Output} {sink : Sink} {n : Name} {ino : Nat} (hwf : fs.WF)
    (he : fs.entry n = some (.file ino)) (ho : openOutput fs false out = some (fs', sink)) : sink ≠ .handle (.file ino) := by
  unfold openOutput at ho
  split at ho
  · rename_i p
    simp only [Bool.false_eq_true, if_false] at ho
    split at ho
    · rename_i fs2 h2 hc
      cases ho
      unfold FS.createNew at hc
      split at hc
      · cases hc
      · cases hc
        have := hwf n ino he
        rintro ⟨⟩
        omega
    · cases ho
  · cases ho
    rintro ⟨⟩

/-- The display of the file at hand was told what opening the input found. -/
structure SizeInv (cfg : Config) (fs0 : FS) (ts : TState) : Prop where
  opened : ∀ s out h, ts.st.pc = .inputOpen s out h →
    ∃ lv, ts.live = some lv ∧ openInput ts.st.fs cfg.force s.input = .ok h lv.printer.filesize
  right : SizeRight cfg fs0 ts

theorem SizeInv.trivial {cfg : Config} {fs0 : FS} {ts : TState} (h : ∀ s out h, ts.st.pc ≠ .inputOpen s out h)
    (h' : ∀ s out sink dir i w, ts.st.pc ≠ .converting s out sink dir i w) : SizeInv cfg fs0 ts :=
  ⟨fun _ _ _ hc => absurd hc (h _ _ _), fun _ _ _ _ _ _ _ hc => absurd hc (h' _ _ _ _ _ _)⟩

theorem openOutput_right {cfg : Config} {fs0 : FS} {ls : List Label} {st : State} {s : Stream} {out : Output} {h : Handle} {fs : FS}
    {sink : Sink} {input : Bytes} {size : Option Nat} (hrun : Run cfg (State.start cfg fs0) ls st) (hpc : st.pc = .inputOpen s out h)
    (ho : openOutput st.fs cfg.force out = some (fs, sink))
    (hi : ∀ ino, h = .file ino → sink ≠ .handle (.file ino) → input = st.fs.content ino)
    (hs : openInput st.fs cfg.force s.input = .ok h size) : RightSize cfg fs0 s input size := by
  intro hwf hforce
  obtain ⟨c, hc⟩ := inv_run hforce hwf hrun
  have hpi := hc.pc
  unfold PcInv at hpi
  rw [hpc] at hpi
  obtain ⟨-, hnd, -, -, -⟩ := hpi
  rw [hforce] at ho hs
  constructor
  · intro p hp
    rw [hp] at hs
    obtain ⟨ino, -, h2, -⟩ := openInput_file hs
    obtain ⟨h3, h4⟩ := (openInput_regular h2 hs).1 rfl
    rw [h4, hi ino h3 (openOutput_fresh hc.base.wf h2 ho)]
  · intro p ino hp he
    have h2 : st.fs.entry (st.fs.loc p) = some (.file ino) := by
      rw [hc.base.loc]
      exact (hc.base.kept _ _ he).resolve_right (hnd _)
    obtain ⟨h3, h4⟩ := (openInput_regular h2 hs).2 hp
    rw [h4, hi ino h3 (openOutput_fresh hc.base.wf h2 ho)]

theorem Step.to_converting {cfg : Config} {st st' : State} {l : Label} {s : Stream} {out : Output} {sink : Sink} {dir : CryptFile.Direction}
    {input w : Bytes} (h : Step cfg st l st') (hp : st'.pc = .converting s out sink dir input w) :
    (∃ w0, st.pc = .converting s out sink dir input w0) ∨ ∃ hd fs, st.pc = .inputOpen s out hd ∧
      CryptStreams.openOutput st.fs cfg.force out = some (fs, sink) ∧
      ∀ ino, hd = .file ino → sink ≠ .handle (.file ino) → input = st.fs.content ino := by
  cases h with
  | openOutput s out h fs sink dir input h1 h2 h3 h4 => cases hp; exact .inr ⟨_, _, h1, h2, h4⟩
  | write s out sink dir input w w' f h1 => cases hp; exact .inl ⟨_, h1⟩
  | prompt => dsimp only at hp; split at hp <;> cases hp
  | _ => cases hp

theorem Flow.to_open {cfg : Config} {pc pc' : Pc} {a b : List Stream} {l : Label} (h : Flow cfg pc a l pc' b)
    (ho : (∃ s out h, pc' = .inputOpen s out h) ∨ ∃ s out sink dir i w, pc' = .converting s out sink dir i w) :
    l = .tau ∧ pc ≠ .endOfFile := by
  cases h <;> simp at ho ⊢

theorem SizeInv.of_flow {cfg : Config} {fs0 : FS} {st st' : State} {l : Label} (h : Step cfg st l st')
    (hn : l ≠ .tau ∨ st.pc = .endOfFile) (b : Nat) (live : Option Live) (ui : Ui) : SizeInv cfg fs0 ⟨st', b, live, ui⟩ := by
  refine .trivial (fun s out h' hp => ?_) (fun s out sink dir i w hp => ?_)
  · have := h.flow.to_open (.inl ⟨s, out, h', hp⟩)
    exact hn.elim (fun hn => hn this.1) this.2
  · have := h.flow.to_open (.inr ⟨s, out, sink, dir, i, w, hp⟩)
    exact hn.elim (fun hn => hn this.1) this.2

theorem size_step {cfg : Config} {fs0 : FS} {name : List Char} {ls : List Label} {ts ts' : TState} {l : Option Label}
    (hrun : Run cfg (State.start cfg fs0) ls ts.st) (h : SizeInv cfg fs0 ts) (hs : TStep cfg name ts l ts') : SizeInv cfg fs0 ts' := by
  cases hs with
  | beginFails s rest st' msg h1 h2 h3 h4 => exact .trivial (by simp [h4]) (by simp [h4])
  | beginOpen s rest out hd size start st' ui' h1 h2 h3 h4 h5 h6 =>
    refine ⟨fun s' out' hd' hp => ⟨_, rfl, ?_⟩, fun _ _ _ _ _ _ _ hc => ?_⟩
    · simp only at hp ⊢
      rw [h4] at hp
      cases hp
      have : st'.fs = ts.st.fs := by
        cases h3 with
        | openInput => rfl
        | write => cases h4
        | _ => first | rfl | cases h4
      rw [this]
      exact h5
    · simp only at hc
      rw [h4] at hc
      cases hc
  | work s out sink dir input written st' h1 h2 =>
    refine ⟨fun _ _ _ hp => ?_, ?_⟩
    · simp only at hp
      rw [h2] at hp
      cases hp
    · intro s' out' sink' dir' i' w' lv hp hl
      rcases h1.to_converting hp with ⟨w0, hw⟩ | ⟨hd, fs, h3, h4, h5⟩
      · exact h.right _ _ _ _ _ _ _ hw hl
      · obtain ⟨lv', h6, h7⟩ := h.opened _ _ _ h3
        simp only at hl
        rw [hl] at h6
        cases h6
        exact openOutput_right hrun h3 h4 h5 h7
  | progress s out sink dir input written lv lv' bytes now ui' w f h1 h2 h5 h6 h3 h4 =>
    refine ⟨fun _ _ _ hp => ?_, ?_⟩
    · simp only at hp
      rw [h1] at hp
      cases hp
    · intro s' out' sink' dir' i' w' lv2 hp hl
      cases hl
      rw [h4.filesize]
      exact h.right _ _ _ _ _ _ _ hp h2
  | finish s dir input output lv st' ui' f h1 h2 h4 h3 => exact .of_flow h1 (.inl nofun) _ _ _
  | giveUp s cleanup lv st' ui' msg h1 h2 h3 h4 h5 => exact .trivial (by simp [h3]) (by simp [h3])
  | crash lv st' ui' h1 h2 h3 h4 => exact .trivial (by simp [h2]) (by simp [h2])
  | outputNotDeleted s p st' reason h1 h2 => exact .of_flow h2 (.inl nofun) _ _ _
  | failed s st' h1 => exact .of_flow h1 (.inl nofun) _ _ _
  | endOfFile st' t h1 h2 h3 => exact .of_flow h2 (.inr h1) _ _ _
  | endOfFileFails st' e t msg h1 h2 h3 => exact .of_flow h2 (.inl nofun) _ _ _
  | closing st' h1 h2 =>
    refine .trivial (fun s out h' hp => ?_) (fun s out sink dir i w hp => ?_)
    · simp only at hp; rw [hp] at h2; simp at h2
    · simp only at hp; rw [hp] at h2; simp at h2
  | prompt a t' st' h1 => exact .of_flow h1 (.inl nofun) _ _ _
  | promptFails e t' st' msg h1 h2 h3 => exact .of_flow h2 (.inl nofun) _ _ _
  | deleted p st' h1 => exact .of_flow h1 (.inl nofun) _ _ _
  | notDeleted p st' reason h1 => exact .of_flow h1 (.inl nofun) _ _ _

theorem size_run {cfg : Config} {name : List Char} {fs : FS} {ui : Ui} {ls : List Label} {ts : TState}
    (h : TRun cfg name (TState.start cfg fs ui) ls ts) : SizeInv cfg fs ts := by
  induction h with
  | refl => exact .trivial (by simp [TState.start, State.start]) (by simp [TState.start, State.start])
  | step ls t l u hr hs ih => exact size_step hr.project ih hs

theorem phase_run {cfg : Config} {name : List Char} {fs : FS} {ui : Ui} (hw : WritesWork ui.term) {ls : List Label} {ts : TState}
    (h : TRun cfg name (TState.start cfg fs ui) ls ts) :
    Phase cfg fs name ui (ls.filter Seen) ts.st.pc ts.st.todo ts.begun ts.live ts.ui := by
  induction h with
  | refl => exact phase_start hw
  | step ls t l u hr hs ih => rw [List.filter_append]; exact phase_step ih (size_run hr).right hs

end Rypt.CryptStreams
