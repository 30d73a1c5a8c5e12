import Verif.Proofs.OneByOne
import Verif.Props.CryptStreams

/-!
Property C121: one command for several files does the same as one command for each of them.
-/

namespace Rypt.Props

open Filesystem HeaderCrypto CryptFile CryptStreams

section

variable {cfg : Config} {fs0 : FS}

/-- C121. Whatever one command for all files can lead to, commands for one file after the other can lead to as well, and the other
way round: files, standard output and success. Files are not given twice and no output is at the place of an input. -/
theorem files_one_by_one (hforce : cfg.force = false) (hwf : fs0.WF) (hcount : fs0.Counted) (hfiles : cfg.OnlyFiles)
    (hun : cfg.Unchained fs0) (htwice : cfg.NoFileTwice fs0) (answer : Bool) (fs : FS) (out : Bytes) (ok : Bool) :
    Ends cfg answer fs0 fs out ok ↔ OneByOne cfg answer cfg.streams fs0 fs out ok := by
  rw [ends_iff]
  exact one_by_one hforce _ _ _ _ _ hwf hcount hfiles hun htwice

/-- C121. So the files can be given to one command or in parts to several: a command for some of them and then one for the rest
can lead to the same as one for all. -/
theorem files_in_two_parts (hforce : cfg.force = false) (hwf : fs0.WF) (hcount : fs0.Counted) (hfiles : cfg.OnlyFiles)
    (hun : cfg.Unchained fs0) (htwice : cfg.NoFileTwice fs0) {ss ss' : List Stream} (hss : cfg.streams = ss ++ ss') (answer : Bool)
    (fs : FS) (out : Bytes) (ok : Bool) :
    Ends cfg answer fs0 fs out ok ↔ ∃ fs1 out1 out2 ok1 ok2, Ends { cfg with streams := ss } answer fs0 fs1 out1 ok1 ∧
      Ends { cfg with streams := ss' } answer fs1 fs out2 ok2 ∧ out = out1 ++ out2 ∧ ok = (ok1 && ok2) := by
  rw [files_one_by_one hforce hwf hcount hfiles hun htwice, hss, OneByOne.append]
  unfold Config.OnlyFiles at hfiles
  unfold Config.Unchained at hun
  unfold Config.NoFileTwice at htwice
  rw [hss] at hfiles hun htwice
  have hl : ∀ fs1 out1 ok1, Ends { cfg with streams := ss } answer fs0 fs1 out1 ok1 ↔ OneByOne cfg answer ss fs0 fs1 out1 ok1 := by
    intro fs1 out1 ok1
    rw [files_one_by_one (cfg := { cfg with streams := ss }) hforce hwf hcount (fun s hs => hfiles s (by simp [show s ∈ ss from hs]))
      (fun s hs s' hs' => hun s (by simp [show s ∈ ss from hs]) s' (by simp [show s' ∈ ss from hs']))
      (List.pairwise_append.1 htwice).1]
    exact ⟨fun h => h.streams (xs := cfg.streams), fun h => h.streams⟩
  have hr : ∀ fs1 out1 ok1 out2 ok2, Ends { cfg with streams := ss } answer fs0 fs1 out1 ok1 →
      (Ends { cfg with streams := ss' } answer fs1 fs out2 ok2 ↔ OneByOne cfg answer ss' fs1 fs out2 ok2) := by
    intro fs1 out1 ok1 out2 ok2 h1
    obtain ⟨hw1, hc1, hl1⟩ := ends_keep (cfg := { cfg with streams := ss }) hforce h1
      (fun s hs => hfiles s (by simp [show s ∈ ss from hs])) hwf hcount
    rw [files_one_by_one (cfg := { cfg with streams := ss' }) hforce hw1 hc1
      (fun s hs => hfiles s (by simp [show s ∈ ss' from hs]))
      (fun s hs s' hs' p q => by rw [hl1]; exact hun s (by simp [show s ∈ ss' from hs]) s' (by simp [show s' ∈ ss' from hs']) p q)
      (by unfold Config.NoFileTwice; rw [hl1]; exact (List.pairwise_append.1 htwice).2.1)]
    exact ⟨fun h => h.streams (xs := cfg.streams), fun h => h.streams⟩
  constructor
  · rintro ⟨fs1, out1, out2, ok1, ok2, h1, h2, rfl, rfl⟩
    have h1 := (hl _ _ _).2 h1
    exact ⟨fs1, out1, out2, ok1, ok2, h1, (hr _ _ _ _ _ h1).2 h2, rfl, rfl⟩
  · rintro ⟨fs1, out1, out2, ok1, ok2, h1, h2, rfl, rfl⟩
    exact ⟨fs1, out1, out2, ok1, ok2, (hl _ _ _).1 h1, (hr _ _ _ _ _ h1).1 h2, rfl, rfl⟩

end

namespace Sample

theorem disk_counted : disk.Counted := by
  intro ino ns hd hns
  have : ∀ n ∈ ns, n = ino := by
    intro n hn
    have := hns n hn
    simp only [disk] at this
    repeat' split at this
    all_goals simp_all
  match ns, hd, this with
  | [], _, _ => simp
  | [_], _, _ => simp [disk]
  | a :: b :: ns, hd, h =>
    have h1 := h a (by simp)
    have h2 := h b (by simp)
    simp [h1, h2] at hd

theorem job_onlyFiles : job.OnlyFiles := by simp [Config.OnlyFiles, job]

theorem job_noFileTwice : job.NoFileTwice disk := by
  unfold Config.NoFileTwice job
  simp only [List.pairwise_cons, List.mem_cons, List.not_mem_nil, or_false, forall_eq, false_implies, implies_true,
    List.Pairwise.nil, and_true]
  intro p p' hp hp'
  cases hp
  cases hp'
  decide

/-- A command that converts "a", cannot open "b", then deletes "a". -/
theorem job_ends : ∃ fs, Ends job true disk fs [] false ∧ fs.entry 0 = none ∧ fs.holds ['a', '.', 'r'] aEnc ∧
    fs.holds ['b'] [30] := by
  have r0 := Run.refl (cfg := job) (st := State.start job disk)
  have r1 := Run.step _ _ _ _ r0 (.openInput _ _ _ _ _ _ rfl rfl rfl a_plain)
  have r2 := Run.step _ _ _ _ r1 (.openOutput _ _ _ _ _ _ (.encrypt opts 5 tape) [10, 20] rfl rfl ⟨rfl, by omega⟩
    (fun ino h _ => by cases h; rfl) (by rintro ⟨⟩))
  have r3 := Run.step _ _ _ _ r2 (.success _ _ _ _ _ _ _ aEnc false rfl List.nil_prefix (encrypted [10, 20]) (by rintro ⟨⟩))
  have r4 := Run.step _ _ _ _ r3 (.endOfFile _ rfl)
  have r5 := Run.step _ _ _ _ r4 (.openInputFails _ _ _ _ rfl rfl rfl)
  have r6 := Run.step _ _ _ _ r5 (.failedNoOutput _ _ rfl)
  have r7 := Run.step _ _ _ _ r6 (.endOfFile _ rfl)
  have r8 := Run.step _ _ _ _ r7 (.cleanups _ rfl rfl (by simp [inputCleanup]))
  have r9 := Run.step _ _ _ _ r8 (.delete _ rfl rfl)
  have r10 := Run.step _ _ _ _ r9 (.deleteInput _ ['a'] [] _ rfl rfl)
  have r11 := Run.step _ _ _ _ r10 (.allDeleted _ rfl)
  exact ⟨_, ⟨_, _, r11, rfl, rfl, rfl, by simp, by simp⟩, rfl, ⟨2, rfl, rfl⟩, ⟨1, rfl, rfl⟩⟩

/-- `files_one_by_one`: the same as two commands, one that converts and deletes "a", and one that fails. -/
example : ∃ fs, OneByOne job true job.streams disk fs [] false ∧ fs.entry 0 = none ∧ fs.holds ['a', '.', 'r'] aEnc ∧
    fs.holds ['b'] [30] :=
  let ⟨fs, h, hr⟩ := job_ends
  ⟨fs, (files_one_by_one rfl disk_wf disk_counted job_onlyFiles job_unchained job_noFileTwice true fs [] false).1 h, hr⟩

/-- `files_in_two_parts`: a command for "a" and a command for "b". -/
example : ∃ fs fs1 out1 out2 ok1 ok2,
    Ends { job with streams := [⟨.file ['a'], some (.file ['a', '.', 'r'])⟩] } true disk fs1 out1 ok1 ∧
    Ends { job with streams := [⟨.file ['b'], some (.file ['b', '.', 'r'])⟩] } true fs1 fs out2 ok2 ∧ (ok1 && ok2) = false ∧
    fs.entry 0 = none :=
  let ⟨fs, h, hr, _⟩ := job_ends
  let ⟨fs1, out1, out2, ok1, ok2, h1, h2, _, h4⟩ :=
    (files_in_two_parts (ss := [_]) rfl disk_wf disk_counted job_onlyFiles job_unchained job_noFileTwice rfl true fs [] false).1 h
  ⟨fs, fs1, out1, out2, ok1, ok2, h1, h2, h4.symm, hr⟩

/-- Encrypt "a", then "b" to the name of "a"; delete both. -/
def wantedPlace : Config := ⟨Toy.lib, [⟨.file ['a'], some (.file ['a', '.', 'r'])⟩, ⟨.file ['b'], some (.file ['a'])⟩],
  .deleteFiles, false, .encrypt opts, [], fun _ _ => True⟩

end Sample

/-- C121. If the place of an input is wanted for the output of another file, it is different: one after the other both can be
converted, with one command they never are, as inputs are only deleted in the end. -/
theorem chained_files_differ : ∃ (cfg : Config) (fs0 fs : FS), cfg.force = false ∧ fs0.WF ∧ fs0.Counted ∧ cfg.OnlyFiles ∧
    cfg.NoFileTwice fs0 ∧ OneByOne cfg true cfg.streams fs0 fs [] true ∧ ∀ fs' out, ¬ Ends cfg true fs0 fs' out true := by
  have first : ∃ fs1, Ends { Sample.wantedPlace with streams := [⟨.file ['a'], some (.file ['a', '.', 'r'])⟩] } true Sample.disk fs1 []
      true ∧ ∃ fs, Ends { Sample.wantedPlace with streams := [⟨.file ['b'], some (.file ['a'])⟩] } true fs1 fs [] true := by
    have r0 := Run.refl (cfg := { Sample.wantedPlace with streams := [⟨.file ['a'], some (.file ['a', '.', 'r'])⟩] })
      (st := State.start { Sample.wantedPlace with streams := [⟨.file ['a'], some (.file ['a', '.', 'r'])⟩] } Sample.disk)
    have r1 := Run.step _ _ _ _ r0 (.openInput _ _ _ _ _ _ rfl rfl rfl Sample.a_plain)
    have r2 := Run.step _ _ _ _ r1 (.openOutput _ _ _ _ _ _ (.encrypt Sample.opts 5 Sample.tape) [10, 20] rfl rfl ⟨rfl, by omega⟩
      (fun ino h _ => by cases h; rfl) (by rintro ⟨⟩))
    have r3 := Run.step _ _ _ _ r2 (.success _ _ _ _ _ _ _ Sample.aEnc false rfl List.nil_prefix (Sample.encrypted [10, 20])
      (by rintro ⟨⟩))
    have r4 := Run.step _ _ _ _ r3 (.endOfFile _ rfl)
    have r5 := Run.step _ _ _ _ r4 (.cleanups _ rfl rfl (by simp [inputCleanup]))
    have r6 := Run.step _ _ _ _ r5 (.delete _ rfl rfl)
    have r7 := Run.step _ _ _ _ r6 (.deleteInput _ ['a'] [] _ rfl rfl)
    have r8 := Run.step _ _ _ _ r7 (.allDeleted _ rfl)
    refine ⟨_, ⟨_, _, r8, rfl, rfl, rfl, by simp, by simp⟩, ?_⟩
    generalize hfs : State.fs _ = fs1
    have e0 : fs1.loc = Sample.disk.loc := by rw [← hfs]; rfl
    have e1 : fs1.entry 1 = some (.file 1) := by rw [← hfs]; rfl
    have e2 : fs1.nlink 1 = 1 := by rw [← hfs]; rfl
    have e3 : fs1.content 1 = [30] := by rw [← hfs]; rfl
    have e4 : fs1.entry 0 = none := by rw [← hfs]; rfl
    clear hfs r0 r1 r2 r3 r4 r5 r6 r7 r8
    have l1 : fs1.loc ['b'] = 1 := by rw [e0]; rfl
    have l2 : fs1.loc ['a'] = 0 := by rw [e0]; rfl
    have q0 := Run.refl (cfg := { Sample.wantedPlace with streams := [⟨.file ['b'], some (.file ['a'])⟩] })
      (st := State.start { Sample.wantedPlace with streams := [⟨.file ['b'], some (.file ['a'])⟩] } fs1)
    have q1 := Run.step _ _ _ _ q0 (.openInput _ _ _ _ _ _ rfl rfl rfl
      (openInput_iff.2 ⟨1, (congrArg fs1.entry l1).trans e1, e2, rfl, rfl⟩))
    have q2 := Run.step _ _ _ _ q1 (.openOutput _ _ _ _ (fs1.createAt 0) (.handle (.file fs1.nextIno))
      (.encrypt Sample.opts 5 Sample.tape) [30] rfl
      (by simp [openOutput, Sample.wantedPlace, State.start, FS.createNew, l2, e4]) ⟨rfl, by omega⟩
      (fun ino h _ => by cases h; exact e3.symm) (by rintro ⟨⟩))
    have q3 := Run.step _ _ _ _ q2 (.success _ _ _ _ _ _ _ _ false rfl List.nil_prefix (Sample.encrypted [30]) (by rintro ⟨⟩))
    have q4 := Run.step _ _ _ _ q3 (.endOfFile _ rfl)
    have q5 := Run.step _ _ _ _ q4 (.cleanups _ rfl rfl (by simp [inputCleanup]))
    have q6 := Run.step _ _ _ _ q5 (.delete _ rfl rfl)
    have q7 := Run.step _ _ _ _ q6 (.deleteInputFails _ ['b'] [] rfl)
    have q8 := Run.step _ _ _ _ q7 (.allDeleted _ rfl)
    exact ⟨_, _, _, q8, rfl, rfl, rfl, by simp, by simp⟩
  obtain ⟨fs1, h1, fs, h2⟩ := first
  refine ⟨Sample.wantedPlace, Sample.disk, fs, rfl, Sample.disk_wf, Sample.disk_counted, by simp [Config.OnlyFiles, Sample.wantedPlace], ?_,
    .cons _ _ _ _ _ _ _ _ _ h1 (.cons _ _ _ _ _ _ _ _ _ h2 (.nil _)), ?_⟩
  · unfold Config.NoFileTwice Sample.wantedPlace
    simp only [List.pairwise_cons, List.mem_cons, List.not_mem_nil, or_false, forall_eq, false_implies, implies_true,
      List.Pairwise.nil, and_true]
    intro p p' hp hp'
    cases hp
    cases hp'
    decide
  · rintro fs' out ⟨ls, st, hr, hd, -, -, hu, -⟩
    obtain ⟨c, hc⟩ := inv_run rfl Sample.disk_wf hr
    have hall := every_file_dealt_with hr hd hu
    have hnf := ((exit_status hr hd).1 rfl).1
    have hm : (⟨.file ['b'], some (.file ['a'])⟩ : Stream) ∈ ls.filterMap Label.ended := by rw [hall]; simp [Sample.wantedPlace]
    obtain ⟨l, hl, hle⟩ := List.mem_filterMap.1 hm
    obtain ⟨ls1, ls2, rfl⟩ := List.append_of_mem hl
    cases l with
    | converted s dir i o =>
      cases hle
      rw [List.filterMap_append] at hall
      simp only [List.filterMap_cons, Label.ended] at hall
      have ha : (⟨.file ['a'], some (.file ['a', '.', 'r'])⟩ : Stream) ∈ ls1.filterMap Label.ended := by
        cases he : ls1.filterMap Label.ended with
        | nil => rw [he] at hall; simp [Sample.wantedPlace] at hall
        | cons x xs =>
          rw [he] at hall
          simp only [Sample.wantedPlace, List.cons_append, List.cons.injEq] at hall
          rw [hall.1]
          simp
      obtain ⟨l', hl', hle'⟩ := List.mem_filterMap.1 ha
      cases l' with
      | converted s' dir' i' o' =>
        cases hle'
        exact hc.chain ls1 _ dir i o ls2 ['a'] rfl rfl _ dir' i' o' ['a'] (List.mem_append_left _ hl') rfl rfl
      | failed s' => exact hnf s' (List.mem_append_left _ hl')
      | _ => simp [Label.ended] at hle'
    | failed s => exact hnf s hl
    | _ => simp [Label.ended] at hle

end Rypt.Props
