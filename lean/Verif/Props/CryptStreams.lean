import Verif.Proofs.CryptStreamsEnd
import Verif.Props.File

/-!
Properties C31-C36, C68: converting a list of files. A `Run` is an execution with any outcomes of the conversions, any
failures of the environment and any answers of the user; its last state is the state of the world if the process is killed
at that moment.
-/

namespace Rypt.Props

open Filesystem HeaderCrypto CryptFile CryptStreams

section

variable {cfg : Config} {fs0 : FS} {ls : List Label} {st : State}

/-! ### C31 -/

/-- C31. Without `--force`, at every moment: every directory entry that existed holds what it held, or it was an input that
was converted and then deleted with consent; and no existing file's content has changed. -/
theorem existing_files_untouched (hforce : cfg.force = false) (hwf : fs0.WF)
    (h : Run cfg (State.start cfg fs0) ls st) :
    (∀ n node, fs0.entry n = some node → st.fs.entry n = some node ∨
      (st.fs.entry n = none ∧ ∃ p s dir i o, Label.inputDeleted p ∈ ls ∧ fs0.loc p = n ∧ Label.converted s dir i o ∈ ls ∧
        s.input = .file p ∧ Consent cfg ls)) ∧
    (∀ ino, ino < fs0.nextIno → st.fs.content ino = fs0.content ino) := by
  obtain ⟨c, hc⟩ := inv_run hforce hwf h
  refine ⟨fun n node hn => ?_, hc.base.old⟩
  rcases hc.base.kept n node hn with h1 | h1
  · exact .inl h1
  · refine .inr ⟨hc.base.gone n h1, ?_⟩
    obtain ⟨p, hp, hpn⟩ := h1
    obtain ⟨hcon, s, dir, i, o, hm, hs⟩ := hc.deleted p hp
    exact ⟨p, s, dir, i, o, hp, hpn, hm, hs, hcon⟩

/-! ### C32 -/

private theorem between_none {c : Option (Name × Nat)} (h : PcInv cfg fs0 ls st c) (hb : st.pc.between) : c = none := by
  unfold PcInv at h
  unfold Pc.between at hb
  revert h hb
  cases st.pc <;> simp +contextual

/-- C32. Without `--force`, dealing with one file, if it fails and its output (if it was created) can be deleted, changes no
directory entry, no content and no link count; it is counted, and it is not among the files to be deleted in the end. -/
theorem failed_file_changes_nothing (hforce : cfg.force = false) {st0 : State} (h0 : st0.pc = .next) {s : Stream}
    (h : Run cfg st0 ls st) (ht : ∀ l ∈ ls, l = .tau) {st' : State} (hs : Step cfg st (.failed s) st') :
    st'.fs.entry = st0.fs.entry ∧ st'.fs.loc = st0.fs.loc ∧
    (∀ i, i < st0.fs.nextIno → st'.fs.content i = st0.fs.content i ∧ st'.fs.nlink i = st0.fs.nlink i) ∧
    st'.cleanups = st0.cleanups ∧ st'.errors = st0.errors + 1 := by
  have hi := segInv_run hforce h0 h ht
  obtain ⟨hk1, hk2⟩ := taus_keep h ht
  cases hs with
  | failedNoOutput s h1 =>
    simp only [SegInv, h1] at hi
    simp only [hi, hk1, hk2]
    exact ⟨trivial, trivial, fun _ _ => ⟨trivial, trivial⟩, trivial, trivial⟩
  | failedDelete s q fs h1 h2 =>
    simp only [SegInv, h1] at hi
    obtain ⟨g1, g2, g3, g4⟩ := hi
    obtain ⟨e1, e2, e3, e4⟩ := unlink_some h2
    have hnl := unlink_nlink h2 (ino := st0.fs.nextIno) (by rw [g3, g1]; simp)
    refine ⟨?_, e3.trans g1, fun i hi => ?_, hk1, by rw [← hk2]⟩
    · funext m
      simp only [e1, g3, g1]
      split
      · rename_i hm
        rw [hm, g2]
      · rfl
    · simp only [e2]
      rw [hnl i (by omega)]
      exact g4 i hi

/-- C32. Without `--force`, whenever no file is being dealt with: everything that has appeared is the complete output of a
conversion that succeeded (unless the deletion of the output of a failed one failed). -/
theorem only_results_appear (hforce : cfg.force = false) (hwf : fs0.WF) (h : Run cfg (State.start cfg fs0) ls st)
    (hb : st.pc.between) (hdel : ∀ s, Label.outputNotDeleted s ∉ ls) {n : Name} (h0 : fs0.entry n = none)
    (h1 : st.fs.entry n ≠ none) : ∃ s dir i o q, Label.converted s dir i o ∈ ls ∧ s.output = some (.file q) ∧ fs0.loc q = n ∧
      st.fs.holds q o := by
  obtain ⟨c, hc⟩ := inv_run hforce hwf h
  have hcn := between_none hc.pc hb
  subst hcn
  rcases hc.base.fresh n h1 h0 with ⟨_, h3⟩ | ⟨s, dir, i, o, q, hm, hq, hn⟩ | ⟨s, q, hm, -⟩
  · cases h3
  · refine ⟨s, dir, i, o, q, hm, hq, hn, ?_⟩
    rcases hc.base.facts n o ⟨s, dir, i, o, hm, .inr ⟨q, hq, hn, rfl⟩⟩ with ⟨ino, e1, e2, -⟩ | hd
    · exact ⟨ino, by rw [hc.base.loc, hn]; exact e1, e2⟩
    · exact absurd (hc.base.gone n hd) h1
  · exact absurd hm (hdel s)

/-- C32. Without `--force`, after the conversion of `s` has failed (and its output, if it had created one, could be deleted):
the place of the output is as it was before the run, and so is the input; unless another listed file that was converted
has the same output or input. -/
theorem failed_conversion_cleans_up (hforce : cfg.force = false) (hwf : fs0.WF) (h : Run cfg (State.start cfg fs0) ls st)
    (hb : st.pc.between) (hdel : ∀ s, Label.outputNotDeleted s ∉ ls) {s : Stream} (_hs : Label.failed s ∈ ls) {p q : Path}
    (_hp : s.input = .file p) (_hq : s.output = some (.file q))
    (hother : ∀ s' dir i o, Label.converted s' dir i o ∈ ls →
      (∀ q', s'.output = some (.file q') → fs0.loc q' ≠ fs0.loc q) ∧
      (∀ p', s'.input = .file p' → fs0.loc p' ≠ fs0.loc p ∧ fs0.loc p' ≠ fs0.loc q)) :
    st.fs.entry (fs0.loc q) = fs0.entry (fs0.loc q) ∧
    (∀ node, fs0.entry (fs0.loc p) = some node → st.fs.entry (fs0.loc p) = some node ∧
      ∀ ino, node = .file ino → st.fs.content ino = fs0.content ino) := by
  obtain ⟨hk, hcont⟩ := existing_files_untouched hforce hwf h
  constructor
  · cases he : fs0.entry (fs0.loc q) with
    | none =>
      by_contra hne
      obtain ⟨s', dir, i, o, q', hm, hq', hl, -⟩ := only_results_appear hforce hwf h hb hdel he hne
      exact (hother s' dir i o hm).1 q' hq' hl
    | some node =>
      rcases hk _ _ he with h1 | ⟨-, p', s', dir, i, o, -, hl, hm, hi, -⟩
      · exact h1
      · exact absurd hl ((hother s' dir i o hm).2 p' hi).2
  · intro node he
    rcases hk _ _ he with h1 | ⟨-, p', s', dir, i, o, -, hl, hm, hi, -⟩
    · refine ⟨h1, ?_⟩
      rintro ino rfl
      exact hcont ino (hwf _ _ he)
    · exact absurd hl ((hother s' dir i o hm).2 p' hi).1

/-! ### C33 -/

/-- C33. With or without `--force`: when an input is deleted, its conversion has succeeded before, and the policy is to
delete or the user was asked and typed `y` or `yes`. -/
theorem inputs_deleted_with_consent (h : Run cfg (State.start cfg fs0) ls st) {p : Path} {st' : State}
    (hs : Step cfg st (.inputDeleted p) st') :
    (∃ s dir i o, Label.converted s dir i o ∈ ls ∧ s.input = .file p) ∧
    (cfg.policy = .deleteFiles ∨ cfg.policy = .promptUser ∧ ∃ t t', Label.answer t (some true) t' ∈ ls ∧ TypedYes t t') := by
  have ht := touches_run h
  cases hs with
  | deleteInput p rest fs h1 h2 =>
    have hpc := ht.pc
    simp only [PcTouched, h1] at hpc
    exact ⟨ht.cleanups p (hpc.2 p (by simp)), hpc.1⟩

/-- C33. With or without `--force`: an entry that is not the place of an output disappears only by such a deletion. -/
theorem disappears_only_by_deletion (h : Run cfg (State.start cfg fs0) ls st) {n : Name}
    (hn : ¬ cfg.OutputPlace fs0 n) (hgone : st.fs.entry n ≠ fs0.entry n) : ∃ p s dir i o, fs0.loc p = n ∧
      Label.inputDeleted p ∈ ls ∧ Label.converted s dir i o ∈ ls ∧ s.input = .file p ∧ Consent cfg ls := by
  have ht := touches_run h
  rcases ht.fs.entry n with h1 | ⟨p, hp, hl⟩ | h1
  · exact absurd h1 hgone
  · obtain ⟨hcon, s, dir, i, o, hm, hs⟩ := ht.deleted p hp
    exact ⟨p, s, dir, i, o, hl, hp, hm, hs, hcon⟩
  · exact absurd h1 hn

/-! ### C34 -/

/-- C34. Without `--force`, at every moment: a listed input file is still there with its original content, or a complete
output of its conversion is there. In file mode; no output is at the place of an input (otherwise see
`killing_never_loses_data`). -/
theorem input_or_output_exists (hforce : cfg.force = false) (hwf : fs0.WF) (hmode : cfg.FileMode)
    (hun : cfg.Unchained fs0) (h : Run cfg (State.start cfg fs0) ls st) {p : Path} {b : Bytes} (h0 : fs0.holds p b) :
    st.fs.holds p b ∨ ∃ s dir out q flt, s ∈ cfg.streams ∧ s.output = some (.file q) ∧ st.fs.holds q out ∧
      cfg.direction.allows dir ∧ Conversion cfg.lib b dir ⟨out, some (.ok ()), flt⟩ := by
  obtain ⟨c, hc⟩ := inv_run hforce hwf h
  obtain ⟨ino, he, rfl⟩ := h0
  rcases hc.base.kept _ _ he with h1 | ⟨p', hp', hl⟩
  · exact .inl ⟨ino, by rw [hc.base.loc]; exact h1, hc.base.old ino (hwf _ _ he)⟩
  · right
    obtain ⟨-, s, dir, i, o, hm, hi⟩ := hc.deleted p' hp'
    obtain ⟨hmem, hal, hso, f, hconv⟩ := hc.events s dir i o hm
    have hib := hc.origin s dir i o p' ino hm hi (by rw [hl]; exact he)
    match hout : s.output with
    | none => exact absurd hout hso
    | some .stdout => exact absurd hout (hmode s hmem p' hi)
    | some (.file q) =>
      refine ⟨s, dir, o, q, f, hmem, hout, ?_, hal, hib ▸ hconv⟩
      rcases hc.base.facts (fs0.loc q) o ⟨s, dir, i, o, hm, .inr ⟨q, hout, rfl, rfl⟩⟩ with ⟨ino', e1, e2, -⟩ | ⟨x, hx, hxq⟩
      · exact ⟨ino', by rw [hc.base.loc]; exact e1, e2⟩
      · obtain ⟨-, s2, dir2, i2, o2, hm2, hi2⟩ := hc.deleted x hx
        exact absurd hxq (hun s2 (hc.events _ _ _ _ hm2).1 s hmem x q hi2 hout)

/-- C34. Without `--force`, whatever the inputs and outputs: at every moment the original content of every file is there, or
what it was converted to is there, or what that was converted to in turn, and so on (or was sent to standard output). -/
theorem killing_never_loses_data (hforce : cfg.force = false) (hwf : fs0.WF) (h : Run cfg (State.start cfg fs0) ls st)
    {p : Path} {b : Bytes} (h0 : fs0.holds p b) : Survives ls st.fs b := by
  obtain ⟨c, hc⟩ := inv_run hforce hwf h
  obtain ⟨ino, he, rfl⟩ := h0
  rcases hc.base.kept _ _ he with h1 | ⟨p', hp', hl⟩
  · exact .held p _ ⟨ino, by rw [hc.base.loc]; exact h1, hc.base.old ino (hwf _ _ he)⟩
  · obtain ⟨-, s, dir, i, o, hm, hi⟩ := hc.deleted p' hp'
    obtain ⟨ls1, ls2, hls⟩ := CryptStreams.mem_split hm
    rw [← hc.origin s dir i o p' ino hm hi (by rw [hl]; exact he)]
    exact output_survives hc _ ls1 ls2 s dir i o hls (Nat.le_refl _)

/-- C34. The events used by `Survives` are conversions: what was written is the complete result for what was read. -/
theorem converted_is_complete (hforce : cfg.force = false) (hwf : fs0.WF) (h : Run cfg (State.start cfg fs0) ls st)
    {s : Stream} {dir : Direction} {i o : Bytes} (hm : Label.converted s dir i o ∈ ls) :
    s ∈ cfg.streams ∧ cfg.direction.allows dir ∧ ∃ flt, Conversion cfg.lib i dir ⟨o, some (.ok ()), flt⟩ := by
  obtain ⟨c, hc⟩ := inv_run hforce hwf h
  obtain ⟨h1, h2, -, h3⟩ := hc.events s dir i o hm
  exact ⟨h1, h2, h3⟩

/-- C34. For encryption: at every moment the original is there, or a file is there that any credentials satisfying the tree
decrypt to the original. -/
theorem killed_encryption_recoverable (hL : cfg.lib.Lawful) (hforce : cfg.force = false) (hwf : fs0.WF)
    (hmode : cfg.FileMode) (hun : cfg.Unchained fs0) {opts : EncryptOptions} (hdir : cfg.direction = .encrypt opts)
    (hcred : opts.credential.WF) (h : Run cfg (State.start cfg fs0) ls st) {p : Path} {b : Bytes} (h0 : fs0.holds p b) :
    st.fs.holds p b ∨ ∃ q F hdr codec cs draw tape, st.fs.holds q F ∧
      encryptHeader cfg.lib opts draw tape = .ok (hdr, codec, cs) ∧
      ∀ S : List Credential, (∀ c ∈ S, Usable c) →
        HeaderDetectsWrongCredentials codec.crypto hdr opts.credential S →
        opts.credential.satisfied (heldBy codec.crypto S) = true →
        Conversion cfg.lib F (.decrypt S) ⟨b, some (.ok ()), false⟩ := by
  rcases input_or_output_exists hforce hwf hmode hun h h0 with h1 | ⟨s, dir, F, q, f, -, -, hq, hal, hconv⟩
  · exact .inl h1
  · right
    rw [hdir] at hal
    cases dir with
    | decrypt S => exact absurd hal (by simp [DirOpts.allows])
    | encrypt opts' draw tape =>
      obtain ⟨rfl, hdraw⟩ := hal
      have : ∃ v, encryptHeader cfg.lib opts' draw tape = .ok v := by
        generalize ho : (⟨F, some (.ok ()), f⟩ : Obs) = o at hconv
        cases hconv with
        | encrypting _ _ _ hdr codec cs _ _ _ he => exact ⟨_, he⟩
        | _ => simp at ho
      obtain ⟨⟨hdr, codec, cs⟩, he⟩ := this
      exact ⟨q, F, hdr, codec, cs, draw, tape, hq, he, fun S hS hw hsat =>
        decrypt_encrypt_possible hL hcred hdraw he hconv hS hw hsat⟩

/-! ### C35 -/

/-- C35. When the command returns, it returns an error iff some file failed or the dialogue with the user failed. -/
theorem exit_status (h : Run cfg (State.start cfg fs0) ls st) {ok : Bool} (hd : st.pc = .done ok) :
    ok = true ↔ (∀ s, Label.failed s ∉ ls) ∧ Label.uiFailed ∉ ls := by
  have hp := progress_run h
  rw [hp.asked ok hd]
  simp only [failures, CryptStreams.uiFailed, Bool.and_eq_true, beq_iff_eq, Bool.not_eq_true', List.length_eq_zero_iff,
    List.filter_eq_nil_iff, List.any_eq_false]
  constructor
  · rintro ⟨h1, h2⟩
    exact ⟨fun s hs => h1 _ hs rfl, fun hu => h2 _ hu rfl⟩
  · rintro ⟨h1, h2⟩
    constructor
    · intro l hl
      cases l <;> simp
      exact h1 _ hl
    · intro l hl
      cases l <;> simp
      exact h2 hl

/-- C35. When the command returns and the dialogue with the user did not fail, every file of the list was dealt with, in
order, whatever happened to the ones before it. -/
theorem every_file_dealt_with (h : Run cfg (State.start cfg fs0) ls st) {ok : Bool} (hd : st.pc = .done ok)
    (hu : Label.uiFailed ∉ ls) : ls.filterMap Label.ended = cfg.streams := by
  have hp := progress_run h
  have hu' : CryptStreams.uiFailed ls = false := by
    simp only [CryptStreams.uiFailed, List.any_eq_false]
    intro l hl
    cases l <;> simp
    exact hu hl
  have ht := hp.finished (.inr (.inr ⟨by rw [hd]; rfl, hu'⟩))
  have ho := hp.order (by rw [hd]; simp)
  rw [ht, hd] at ho
  simpa [Pc.current] using ho

/-- C35. Failures do not spread: whatever has happened to the files before `s`, if `s` is a plain file whose output does not
exist yet, and is not the output of another listed file, then every successful conversion of its original content is still
possible. -/
theorem failures_are_isolated (hforce : cfg.force = false) (hwf : fs0.WF) (h : Run cfg (State.start cfg fs0) ls st)
    (hnext : st.pc = .next) {s : Stream} {rest : List Stream} (htodo : st.todo = s :: rest)
    {p q : Path} (hp : s.input = .file p) (hq : s.output = some (.file q)) {ino : Nat}
    (hfile : fs0.entry (fs0.loc p) = some (.file ino)) (hlinks : fs0.nlink ino = 1)
    (hnew : fs0.entry (fs0.loc q) = none) (hdel : ∀ s, Label.outputNotDeleted s ∉ ls)
    (hother : ∀ s' dir i o, Label.converted s' dir i o ∈ ls → ∀ q', s'.output = some (.file q') → fs0.loc q' ≠ fs0.loc q)
    {dir : Direction} (hal : cfg.direction.allows dir) {o : Bytes} {flt : Bool}
    (hconv : Conversion cfg.lib (fs0.content ino) dir ⟨o, some (.ok ()), flt⟩) :
    ∃ st', Run cfg (State.start cfg fs0) (ls ++ [.tau, .tau, .converted s dir (fs0.content ino) o]) st' ∧
      st'.todo = rest ∧ st'.fs.holds q o := by
  obtain ⟨c, hc⟩ := inv_run hforce hwf h
  have hpc := hc.pc
  simp only [PcInv, hnext] at hpc
  obtain ⟨rfl, hnd⟩ := hpc
  have hent : st.fs.entry (fs0.loc p) = some (.file ino) := (hc.base.kept _ _ hfile).resolve_right (hnd _)
  have hlt := hwf _ _ hfile
  have hle := hc.base.le
  have hnew' : st.fs.entry (fs0.loc q) = none := by
    by_contra hne
    obtain ⟨s', dir, i, o, q', hm, hq', hl, -⟩ :=
      only_results_appear hforce hwf h (by rw [hnext]; trivial) hdel hnew hne
    exact hother s' dir i o hm q' hq' hl
  have hopen : openInput st.fs cfg.force s.input = .ok (.file ino) (some (fs0.content ino).length) := by
    rw [hp, hforce]
    simp [openInput, FS.openRead, FS.follow, FS.symlinkMetadata, hc.base.loc, hent, checkNotDir, checkPlain,
      hc.base.links ino (fun m hm => absurd hm (hnd m)) hlt, hlinks, hc.base.old ino hlt]
  have hcreate : openOutput st.fs cfg.force (.file q) =
      some (st.fs.createAt (fs0.loc q), .handle (.file st.fs.nextIno)) := by
    simp [openOutput, hforce, FS.createNew, hc.base.loc, hnew']
  have r1 := Run.step _ _ _ _ h (.openInput _ s rest (.file q) _ _ hnext htodo hq hopen)
  have r2 := Run.step _ _ _ _ r1 (.openOutput _ s (.file q) (.file ino) _ _ dir (fs0.content ino) rfl hcreate hal
    (fun i hi _ => by cases hi; exact (hc.base.old ino hlt).symm) (by rw [hp]; rintro ⟨⟩))
  have r3 := Run.step _ _ _ _ r2 (.success _ s (.file q) _ dir _ [] o flt rfl List.nil_prefix hconv (by rw [hp]; rintro ⟨⟩))
  refine ⟨_, by simpa using r3, rfl, st.fs.nextIno, ?_, ?_⟩
  · simp [State.write, FS.setContent, FS.createAt, hc.base.loc]
  · simp [State.write, FS.setContent]

/-! ### C36 -/

/-- C36. Without `--force` a file is opened for conversion in place iff it is a regular file (not a link to one) with exactly
one hard link, and then it is this file that is read. -/
theorem opens_only_plain_files (fs : FS) (p : Path) (h : Handle) :
    (∃ size, openInput fs false (.file p) = .ok h size) ↔
      ∃ ino, fs.entry (fs.loc p) = some (.file ino) ∧ fs.nlink ino = 1 ∧ h = .file ino := by
  constructor
  · rintro ⟨size, ho⟩
    obtain ⟨ino, h1, h2, h3⟩ := openInput_file ho
    exact ⟨ino, h2, h3, h1⟩
  · rintro ⟨ino, h1, h2, rfl⟩
    exact ⟨_, by simp [openInput, FS.openRead, FS.follow, FS.symlinkMetadata, h1, checkNotDir, checkPlain, h2]; rfl⟩

/-- C36. Why a path that can be opened is refused. -/
theorem refusals (fs : FS) (force : Bool) (p : Path) (h : Handle) (hopen : fs.openRead p = some h) :
    (fs.entry (fs.loc p) = some .dir →
      openInput fs force (.file p) = .refused .directory ∧ openInput fs force (.fileStream p) = .refused .directory) ∧
    (∀ t, fs.entry (fs.loc p) = some (.symlink t) → openInput fs false (.file p) = .refused .symlink ∧
      openInput fs true (.file p) = .ok h (some (fs.linkSize (fs.loc p)))) ∧
    (∀ ino, fs.entry (fs.loc p) = some (.file ino) → fs.nlink ino ≠ 1 →
      openInput fs false (.file p) = .refused .hardLinks ∧
      openInput fs true (.file p) = .ok h (some (fs.content ino).length)) ∧
    (fs.entry (fs.loc p) = some .special → openInput fs false (.file p) = .refused .notRegular) := by
  refine ⟨fun he => ?_, fun t he => ?_, fun ino he hn => ?_, fun he => ?_⟩ <;>
    simp [openInput, FS.symlinkMetadata, checkNotDir, checkPlain, *]

/-- "Directories are refused always" holds for directories themselves (`refusals`), not for links to directories with
`--force`, or when the output is standard output: these are opened. -/
theorem link_to_directory_opened : ∃ (fs : FS) (p : Path), fs.follow 40 (fs.loc p) = some 1 ∧ fs.entry 1 = some .dir ∧
    openInput fs true (.file p) = .ok .other (some 5) ∧ openInput fs false (.fileStream p) = .ok .other (some 5) :=
  ⟨⟨fun _ => 0, fun n => if n = 0 then some (.symlink 1) else some .dir, fun _ => [], fun _ => 1, 0, fun _ => 5⟩, [],
    rfl, rfl, rfl, rfl⟩

/-! ### C68 -/

/-- C68. Even with `--force`, and whatever fails: a directory entry changes only if it is the place of an output (or a link at
that place leads to it), or as an input deleted after its conversion; a file's content changes only if it is at the place of
an output (or a link at that place leads to it). -/
theorem only_named_files_touched (h : Run cfg (State.start cfg fs0) ls st) :
    (∀ n, st.fs.entry n = fs0.entry n ∨ cfg.OutputPlace fs0 n ∨
      (cfg.InputPlace fs0 n ∧ ∃ p, Label.inputDeleted p ∈ ls ∧ fs0.loc p = n)) ∧
    (∀ ino, ino < fs0.nextIno → st.fs.content ino = fs0.content ino ∨
      ∃ n, cfg.OutputPlace fs0 n ∧ fs0.entry n = some (.file ino)) := by
  have ht := touches_run h
  refine ⟨fun n => ?_, ht.fs.content⟩
  rcases ht.fs.entry n with h1 | ⟨p, hp, hl⟩ | h1
  · exact .inl h1
  · obtain ⟨-, s, dir, i, o, hm, hs⟩ := ht.deleted p hp
    have hmem : s ∈ cfg.streams := by
      have ho := progress_run h
      have hin : s ∈ ls.filterMap Label.ended := List.mem_filterMap.mpr ⟨_, hm, rfl⟩
      by_cases hpan : st.pc = .panicked
      · obtain ⟨s', hs'⟩ := ho.panicked hpan
        rw [← hs']
        exact List.mem_append_left _ hin
      · rw [← ho.order hpan]
        exact List.mem_append_left _ (List.mem_append_left _ hin)
    exact .inr (.inr ⟨⟨s, hmem, p, hs, hl⟩, p, hp, hl⟩)
  · exact .inr (.inl h1)

end

/-! ### Concrete cases -/

namespace Sample

/-- Files "a", "b" (with content), "c" (a link to "b"), "d" (a directory); other paths hold nothing. -/
def disk : FS where
  loc p := if p = ['a'] then 0 else if p = ['b'] then 1 else if p = ['c'] then 2 else if p = ['d'] then 3
    else if p = ['a', '.', 'r'] then 4 else if p = ['b', '.', 'r'] then 5 else 6
  entry n := if n = 0 then some (.file 0) else if n = 1 then some (.file 1) else if n = 2 then some (.symlink 1)
    else if n = 3 then some .dir else none
  content i := if i = 0 then [10, 20] else if i = 1 then [30] else []
  nlink _ := 1
  nextIno := 2
  linkSize _ := 3

theorem disk_wf : disk.WF := by
  intro n ino h
  simp only [disk] at h ⊢
  repeat' split at h
  all_goals first | (cases h; omega) | cases h

/-- Encrypt "a" and "b", delete them afterwards. -/
def job : Config := ⟨Toy.lib, [⟨.file ['a'], some (.file ['a', '.', 'r'])⟩, ⟨.file ['b'], some (.file ['b', '.', 'r'])⟩],
  .deleteFiles, false, .encrypt opts, [], fun _ _ => True⟩

theorem job_fileMode : job.FileMode := by simp [Config.FileMode, job]
theorem job_unchained : job.Unchained disk := by
  intro s hs s' hs' p q hp hq
  simp only [job, List.mem_cons, List.not_mem_nil, or_false] at hs hs'
  rcases hs with rfl | rfl <;> rcases hs' with rfl | rfl <;> cases hp <;> cases hq <;> decide

/-- The conversion of "a". -/
def aEnc : Bytes := Spec.file codec.crypto codec.payloadKey hdr chunkSize [10, 20]

theorem a_plain : openInput disk false (.file ['a']) = .ok (.file 0) (some 2) := by rfl

/-- C31, C33, C34, C35: an execution in which "a" is converted, "b" cannot be opened, then "a" is deleted. -/
theorem job_run : ∃ ls st, Run job (State.start job disk) ls st ∧ st.pc = .done false ∧
    Label.inputDeleted ['a'] ∈ ls ∧ Label.failed ⟨.file ['b'], some (.file ['b', '.', 'r'])⟩ ∈ ls ∧
    Label.converted ⟨.file ['a'], some (.file ['a', '.', 'r'])⟩ (.encrypt opts 5 tape) [10, 20] aEnc ∈ ls ∧
    st.fs.entry 0 = none ∧ st.fs.holds ['a', '.', 'r'] aEnc ∧ st.fs.holds ['b'] [30] ∧ st.fs.entry 5 = none ∧
    Label.uiFailed ∉ ls ∧ (∀ s, Label.outputNotDeleted s ∉ ls) ∧ st.fs.entry 4 ≠ none := by
  have r0 := Run.refl (cfg := job) (st := State.start job disk)
  have r1 := Run.step _ _ _ _ r0 (.openInput _ _ _ _ _ _ rfl rfl rfl a_plain)
  have r2 := Run.step _ _ _ _ r1 (.openOutput _ _ _ _ _ _ (.encrypt opts 5 tape) [10, 20] rfl rfl ⟨rfl, by omega⟩
    (fun ino h _ => by cases h; rfl) (by rintro ⟨⟩))
  have r3 := Run.step _ _ _ _ r2 (.success _ _ _ _ _ _ _ aEnc false rfl List.nil_prefix (encrypted [10, 20]) (by rintro ⟨⟩))
  have r4 := Run.step _ _ _ _ r3 (.endOfFile _ rfl)
  have r5 := Run.step _ _ _ _ r4 (.openInputFails _ _ _ _ rfl rfl rfl)
  have r6 := Run.step _ _ _ _ r5 (.failedNoOutput _ _ rfl)
  have r7 := Run.step _ _ _ _ r6 (.endOfFile _ rfl)
  have r8 := Run.step _ _ _ _ r7 (.cleanups _ rfl rfl (by simp [inputCleanup]))
  have r9 := Run.step _ _ _ _ r8 (.delete _ rfl rfl)
  have r10 := Run.step _ _ _ _ r9 (.deleteInput _ ['a'] [] _ rfl rfl)
  have r11 := Run.step _ _ _ _ r10 (.allDeleted _ rfl)
  exact ⟨_, _, r11, rfl, by simp, by simp, by simp, rfl, ⟨2, rfl, rfl⟩, ⟨1, rfl, rfl⟩, rfl, by simp, by simp, nofun⟩

/-- Decrypt "b", which is not an encrypted file. -/
def badJob (force : Bool) : Config :=
  ⟨Toy.lib, [⟨.file ['b'], some (.file ['a'])⟩, ⟨.file ['a'], some (.file ['x'])⟩], .deleteFiles, force, .decrypt good, [], fun _ _ => True⟩

theorem b_is_no_file : Conversion Toy.lib [30] (.decrypt good) ⟨[], some (.err .unexpectedEof), false⟩ :=
  .readHeaderErr _ _ (by rfl)

/-- C32: a failed conversion whose output was created and removed again (between the first and the last state as
`failed_file_changes_nothing` has it). -/
theorem failed_run : ∃ ls st, Run { badJob false with streams := [⟨.file ['b'], some (.file ['x'])⟩] }
    (State.start { badJob false with streams := [⟨.file ['b'], some (.file ['x'])⟩] } disk) ls st ∧ st.pc.between ∧
    Label.failed ⟨.file ['b'], some (.file ['x'])⟩ ∈ ls ∧ (∀ s, Label.outputNotDeleted s ∉ ls) ∧ st.fs.entry 6 = none ∧
    ∀ s dir i o, Label.converted s dir i o ∉ ls := by
  have r0 := Run.refl (cfg := { badJob false with streams := [⟨.file ['b'], some (.file ['x'])⟩] })
    (st := State.start { badJob false with streams := [⟨.file ['b'], some (.file ['x'])⟩] } disk)
  have r1 := Run.step _ _ _ _ r0 (.openInput _ _ _ _ (.file 1) (some 1) rfl rfl rfl rfl)
  have r2 := Run.step _ _ _ _ r1 (.openOutput _ _ _ _ _ _ (.decrypt good) [30] rfl rfl rfl
    (fun ino h _ => by cases h; rfl) (by rintro ⟨⟩))
  have r3 := Run.step _ _ _ _ r2 (.failure _ _ _ _ _ _ _ [] _ false rfl List.nil_prefix b_is_no_file)
  have r4 := Run.step _ _ _ _ r3 (.failedDelete _ _ ['x'] _ rfl rfl)
  exact ⟨_, _, r4, trivial, by simp, by simp, rfl, by simp⟩

/-- `inputs_deleted_with_consent`: the moment before "a" is deleted. -/
example : ∃ ls st st', Run job (State.start job disk) ls st ∧ Step job st (.inputDeleted ['a']) st' := by
  have r0 := Run.refl (cfg := job) (st := State.start job disk)
  have r1 := Run.step _ _ _ _ r0 (.openInput _ _ _ _ _ _ rfl rfl rfl a_plain)
  have r2 := Run.step _ _ _ _ r1 (.openOutput _ _ _ _ _ _ (.encrypt opts 5 tape) [10, 20] rfl rfl ⟨rfl, by omega⟩
    (fun ino h _ => by cases h; rfl) (by rintro ⟨⟩))
  have r3 := Run.step _ _ _ _ r2 (.success _ _ _ _ _ _ _ aEnc false rfl List.nil_prefix (encrypted [10, 20]) (by rintro ⟨⟩))
  have r4 := Run.step _ _ _ _ r3 (.endOfFile _ rfl)
  have r5 := Run.step _ _ _ _ r4 (.openInputFails _ _ _ _ rfl rfl rfl)
  have r6 := Run.step _ _ _ _ r5 (.failedNoOutput _ _ rfl)
  have r7 := Run.step _ _ _ _ r6 (.endOfFile _ rfl)
  have r8 := Run.step _ _ _ _ r7 (.cleanups _ rfl rfl (by simp [inputCleanup]))
  have r9 := Run.step _ _ _ _ r8 (.delete _ rfl rfl)
  exact ⟨_, _, _, r9, .deleteInput _ ['a'] [] _ rfl rfl⟩

/-- `failed_file_changes_nothing`: the output was there for some time. -/
example : ∃ st0 ls st st', st0.pc = .next ∧ Run (badJob false) st0 ls st ∧ (∀ l ∈ ls, l = .tau) ∧
    Step (badJob false) st (.failed ⟨.file ['b'], some (.file ['x'])⟩) st' ∧ st0.fs.entry 6 = none ∧ st.fs.entry 6 ≠ none := by
  have r0 := Run.refl (cfg := badJob false)
    (st := { State.start (badJob false) disk with todo := [⟨.file ['b'], some (.file ['x'])⟩] })
  have r1 := Run.step _ _ _ _ r0 (.openInput _ _ _ _ (.file 1) (some 1) rfl rfl rfl rfl)
  have r2 := Run.step _ _ _ _ r1 (.openOutput _ _ _ _ _ _ (.decrypt good) [30] rfl rfl rfl
    (fun ino h _ => by cases h; rfl) (by rintro ⟨⟩))
  have r3 := Run.step _ _ _ _ r2 (.failure _ _ _ _ _ _ _ [] _ false rfl List.nil_prefix b_is_no_file)
  exact ⟨_, _, _, _, rfl, r3, by simp, .failedDelete _ _ ['x'] _ rfl rfl, rfl, nofun⟩

/-! The theorems above for these executions. -/

example : True := by
  obtain ⟨ls, st, h, hd, hdel, -, hc, h0, -, -, -, hu, hn, h4⟩ := job_run
  have := existing_files_untouched rfl disk_wf h
  have := only_results_appear rfl disk_wf h (by rw [hd]; trivial) hn (n := 4) rfl h4
  have := disappears_only_by_deletion h (n := 0) (by
    rintro ⟨s, hs, q, hq, e⟩
    simp only [job, List.mem_cons, List.not_mem_nil, or_false] at hs
    rcases hs with rfl | rfl <;> cases hq <;> rcases e with _ | ⟨_, _, _, e, _⟩ <;> cases e) (by rw [h0]; decide)
  have := input_or_output_exists rfl disk_wf job_fileMode job_unchained h (p := ['a']) ⟨0, rfl, rfl⟩
  have := killing_never_loses_data rfl disk_wf h (p := ['a']) ⟨0, rfl, rfl⟩
  have := converted_is_complete rfl disk_wf h hc
  have := killed_encryption_recoverable Toy.lib_lawful rfl disk_wf job_fileMode job_unchained rfl cred_wf h (p := ['a']) ⟨0, rfl, rfl⟩
  have := exit_status h hd
  have := every_file_dealt_with h hd hu
  have := only_named_files_touched h
  trivial

example : True := by
  obtain ⟨ls, st, h, hb, hf, hn, -, hc⟩ := failed_run
  have := failed_conversion_cleans_up rfl disk_wf h hb hn hf rfl rfl (fun s dir i o hm => absurd hm (hc s dir i o))
  trivial

/-- The first failure does not keep the second file from being converted. -/
example := failures_are_isolated (cfg := job) rfl disk_wf .refl rfl rfl rfl rfl (ino := 0) rfl rfl rfl (by simp) (by simp)
  (dir := .encrypt opts 5 tape) ⟨rfl, by omega⟩ (encrypted [10, 20])

example : openInput disk false (.file ['c']) = .refused .symlink := ((refusals disk false ['c'] _ rfl).2.1 _ rfl).1

end Sample

/-- With `--force` an existing output is lost even if the conversion then fails: it is truncated and deleted. So C31 cannot be
claimed with `--force`. -/
theorem forced_failure_destroys_output : ∃ ls st, Run (Sample.badJob true) (State.start (Sample.badJob true) Sample.disk) ls st ∧
    st.pc = .endOfFile ∧ Label.failed ⟨.file ['b'], some (.file ['a'])⟩ ∈ ls ∧
    Sample.disk.holds ['a'] [10, 20] ∧ st.fs.entry (Sample.disk.loc ['a']) = none ∧ st.fs.content 0 = [] := by
  have r0 := Run.refl (cfg := Sample.badJob true) (st := State.start (Sample.badJob true) Sample.disk)
  have r1 := Run.step _ _ _ _ r0 (.openInput _ _ _ _ (.file 1) (some 1) rfl rfl rfl rfl)
  have r2 := Run.step _ _ _ _ r1 (.openOutput _ _ _ _ _ _ (.decrypt Sample.good) [30] rfl rfl rfl
    (fun ino h _ => by cases h; rfl) (by rintro ⟨⟩))
  have r3 := Run.step _ _ _ _ r2 (.failure _ _ _ _ _ _ _ [] _ false rfl List.nil_prefix Sample.b_is_no_file)
  have r4 := Run.step _ _ _ _ r3 (.failedDelete _ _ ['a'] _ rfl rfl)
  exact ⟨_, _, r4, rfl, by simp, ⟨0, rfl, rfl⟩, rfl, rfl⟩

/-- A panic is not a failure in the sense of C32: when a hostile header makes the program panic, the output it has created
stays behind (empty), and the files after it are not dealt with. -/
theorem panic_leaves_output : ∃ (cfg : Config) (fs0 : FS) (ls : List Label) (st : State), cfg.force = false ∧
    fs0.WF ∧ Run cfg (State.start cfg fs0) ls st ∧ st.pc = .panicked ∧ st.todo ≠ [] ∧
    fs0.entry 1 = none ∧ st.fs.entry 1 = some (.file 1) ∧ st.fs.content 1 = [] := by
  let bad : Bytes := Spec.frame emptyPartsHeader
  let fs0 : FS := ⟨fun p => p.length, fun n => if n = 0 then some (.file 0) else none, fun _ => bad, fun _ => 1, 1, fun _ => 0⟩
  let s : Stream := ⟨.file [], some (.file ['x'])⟩
  let cfg : Config := ⟨Toy.lib, [s, s], .keepFiles, false, .decrypt [.symmetricKey [9]], [], fun _ _ => True⟩
  have hpos : 0 < emptyPartsHeader.length := by decide +kernel
  have hmax : emptyPartsHeader.length ≤ Spec.maxHeader := by
    have : emptyPartsHeader.length ≤ 1000 := by decide +kernel
    unfold Spec.maxHeader; omega
  have hread : ∃ n r, HeaderIO.readHeader { data := bad } = (.ok (emptyPartsHeader, n), r) := by
    obtain ⟨pieces, hp, he, -⟩ := (write_header_frames emptyPartsHeader).1 hmax
    obtain ⟨r, hr, -, -⟩ := read_header_write_header emptyPartsHeader [] false pieces hpos hp
    rw [he, List.append_nil] at hr
    exact ⟨_, r, hr⟩
  obtain ⟨n, r, hread⟩ := hread
  have hconv : Conversion Toy.lib bad (.decrypt [.symmetricKey [9]]) ⟨[], some .panic, false⟩ :=
    .decryptHeaderPanic _ _ n r hread hostile_header_can_panic_empty
  have r0 := Run.refl (cfg := cfg) (st := State.start cfg fs0)
  have r1 := Run.step _ _ _ _ r0 (.openInput _ _ _ _ (.file 0) (some bad.length) rfl rfl rfl rfl)
  have r2 := Run.step _ _ _ _ r1 (.openOutput _ _ _ _ _ _ (.decrypt [.symmetricKey [9]]) bad rfl rfl rfl
    (fun ino h _ => by cases h; rfl) (by rintro ⟨⟩))
  have r3 := Run.step _ _ _ _ r2 (.panic _ _ _ _ _ _ _ [] false rfl List.nil_prefix hconv)
  refine ⟨cfg, fs0, _, _, rfl, ?_, r3, rfl, by simp [cfg, State.start, State.write], rfl, rfl, rfl⟩
  intro n ino h
  simp only [fs0] at h ⊢
  split at h
  · cases h; omega
  · cases h

end Rypt.Props
