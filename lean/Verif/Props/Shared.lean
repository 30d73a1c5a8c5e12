import Verif.Proofs.QuietRun
import Verif.Props.CryptStreams

/-!
Properties C108 and C109: converting files that other processes use at the same time. A `SharedRun` is an execution in which
other processes change the files in any way between the steps of the program; its `Move`s are all changes in order.
-/

namespace Rypt.Props

open Filesystem HeaderCrypto CryptFile CryptStreams

section

variable {cfg : Config} {fs0 : FS} {ms : List Move} {st : State}

/-! ### C108 -/

/-- C108. Without `--force`, whatever other processes do: the program changes the content of a file only if it has itself
created this file, at the path of an output where there was nothing; and what the file then holds is what a conversion has
written so far. -/
theorem writes_only_what_it_created (hforce : cfg.force = false) (hwf : fs0.WF) (h : SharedRun cfg fs0 ms st)
    {pre post : List Move} {l : Label} {f f' : FS} (hm : ms = pre ++ .own l f f' :: post) {ino : Nat}
    (hc : f'.content ino ≠ f.content ino) : ∃ s ∈ cfg.streams, ∃ q, s.output = some (.file q) ∧
      (∃ l0 f0 f1, Move.own l0 f0 f1 ∈ pre ++ [.own l f f'] ∧ f0.entry (f0.loc q) = none ∧
        f1.entry (f0.loc q) = some (.file ino) ∧ f0.nextIno ≤ ino ∧ ∀ n, f0.entry n ≠ some (.file ino)) ∧
      ∃ i dir r flt, cfg.direction.allows dir ∧ Conversion cfg.lib i dir ⟨f'.content ino, r, flt⟩ := by
  obtain ⟨s, hs, q, hq, -, hcr, hconv⟩ := ((shared_run hwf h).2 _ _ _ _ _ hm).content ino hc
  exact ⟨s, hs, q, hq, hcr hforce, hconv⟩

/-- C108. Without `--force`, whatever other processes do: what the program does to directory entries is that it puts a new
file where there was nothing, at the path of an output; that it removes what is at the path of an output it had created,
when that conversion has failed; and that it removes what is at the path of an input after this input was converted, if this
was asked for or agreed to. -/
theorem entries_changed_when_shared (hforce : cfg.force = false) (hwf : fs0.WF) (h : SharedRun cfg fs0 ms st)
    {pre post : List Move} {l : Label} {f f' : FS} (hm : ms = pre ++ .own l f f' :: post) {n : Filesystem.Name}
    (hc : f'.entry n ≠ f.entry n) :
    (f.entry n = none ∧ ∃ s ∈ cfg.streams, ∃ q ino, s.output = some (.file q) ∧ n = f.loc q ∧ f'.entry n = some (.file ino) ∧
      f.nextIno ≤ ino ∧ ∀ m, f.entry m ≠ some (.file ino)) ∨
    (f'.entry n = none ∧
      ((∃ s ∈ cfg.streams, ∃ q, l = .failed s ∧ s.output = some (.file q) ∧ f.loc q = n ∧
          ∃ l0 f0 f1 ino, Move.own l0 f0 f1 ∈ pre ∧ f0.entry (f0.loc q) = none ∧ f1.entry (f0.loc q) = some (.file ino)) ∨
        (∃ q, l = .inputDeleted q ∧ f.loc q = n ∧ (∃ s dir i o, Label.converted s dir i o ∈ events pre ∧ s.input = .file q) ∧
          (cfg.policy = .deleteFiles ∨
            cfg.policy = .promptUser ∧ ∃ t t', Label.answer t (some true) t' ∈ events pre ∧ TypedYes t t')))) := by
  rcases ((shared_run hwf h).2 _ _ _ _ _ hm).entry n hc with ⟨h1, s, hs, q, ino, hq, -, hn, h2, h3, h4⟩ | ⟨h1, h2⟩
  · exact .inl ⟨h1, s, hs, q, ino, hq, hn hforce, h2, h3, h4⟩
  · refine .inr ⟨h1, h2.imp_left ?_⟩
    rintro ⟨s, hs, q, hl, hq, hn, hcr⟩
    obtain ⟨ino, l0, f0, f1, hm0, e1, e2, -⟩ := hcr hforce
    exact ⟨s, hs, q, hl, hq, hn, l0, f0, f1, ino, hm0, e1, e2⟩

/-- C108. Even with `--force`, whatever other processes do: the program changes the content of a file only if the path of an
output denoted this file (perhaps through links) when the program opened it; no path ever denotes another entry because of
the program. -/
theorem forced_writes_when_shared (hwf : fs0.WF) (h : SharedRun cfg fs0 ms st) {pre post : List Move} {l : Label} {f f' : FS}
    (hm : ms = pre ++ .own l f f' :: post) : f'.loc = f.loc ∧ ∀ ino, f'.content ino ≠ f.content ino →
      ∃ s ∈ cfg.streams, ∃ q, s.output = some (.file q) ∧ ∃ l0 f0 f1 n, Move.own l0 f0 f1 ∈ pre ++ [.own l f f'] ∧
        f1.Leads (f1.loc q) n ∧ f1.entry n = some (.file ino) ∧ f1.content ino = [] := by
  have hg := (shared_run hwf h).2 _ _ _ _ _ hm
  refine ⟨hg.loc, fun ino hc => ?_⟩
  obtain ⟨s, hs, q, hq, hd, -⟩ := hg.content ino hc
  exact ⟨s, hs, q, hq, hd⟩

/-- C108. What holds of all shared executions holds of the undisturbed ones: they are among them. -/
theorem alone_is_shared {ls : List Label} (h : Run cfg (State.start cfg fs0) ls st) : ∃ ms, SharedRun cfg fs0 ms st ∧ events ms = ls := by
  induction h with
  | refl => exact ⟨[], .start, rfl⟩
  | step ls t l u _ hs ih =>
    obtain ⟨ms, h1, rfl⟩ := ih
    exact ⟨_, .own _ _ _ _ h1 hs, events_own _ _ _⟩

/-! ### C109 -/

/-- C109. With or without `--force`: if other processes leave alone the places of the inputs and outputs, and those that links
lead to from there, the program does what it could have done alone: there is an undisturbed execution with the same
events, the same output, the same exit status, and the same things at these places. -/
theorem others_elsewhere_make_no_difference {N : Filesystem.Name → Prop} (hN : cfg.Covers fs0 N) (hwf : fs0.WF)
    {ls : List Label} (h : QuietRun cfg N fs0 ls st) :
    ∃ st', Run cfg (State.start cfg fs0) ls st' ∧ st'.stdout = st.stdout ∧ st'.fs.loc = st.fs.loc ∧
      (∀ n, N n → st'.fs.look n = st.fs.look n) ∧ (∀ ok, st'.pc = .done ok ↔ st.pc = .done ok) ∧
      (st'.pc = .panicked ↔ st.pc = .panicked) := by
  obtain ⟨st', hr, hs⟩ := quiet_run hN hwf h
  refine ⟨st', hr, hs.stdout.symm, hs.fs.loc.symm, fun n hn => (hs.fs.look hn).symm, ?_, ?_⟩
  · intro ok
    have hp := hs.pc
    generalize st.pc = a at hp
    generalize st'.pc = b at hp
    cases hp with
    | same => exact Iff.rfl
    | _ => simp
  · have hp := hs.pc
    generalize st.pc = a at hp
    generalize st'.pc = b at hp
    cases hp with
    | same => exact Iff.rfl
    | _ => simp

theorem holds_iff_look (fs : FS) (p : Path) (b : Bytes) : fs.holds p b ↔ ∃ k, fs.look (fs.loc p) = .file b k := by
  unfold FS.holds FS.look
  constructor
  · rintro ⟨ino, h1, rfl⟩
    rw [h1]
    exact ⟨_, rfl⟩
  · rintro ⟨k, h⟩
    split at h
    · cases h
    · rename_i ino he
      cases h
      exact ⟨ino, he, rfl⟩
    · cases h
    · cases h
    · cases h

/-- C109. In particular, without `--force`, while other processes leave these places alone: at every moment a listed input is
there with its original content, or a complete output of its conversion is there. -/
theorem input_or_output_exists_when_shared (hforce : cfg.force = false) (hwf : fs0.WF) (hmode : cfg.FileMode)
    (hun : cfg.Unchained fs0) {N : Filesystem.Name → Prop} (hN : cfg.Covers fs0 N) {ls : List Label}
    (h : QuietRun cfg N fs0 ls st) {s : Stream} (hs : s ∈ cfg.streams) {p : Path} (hp : s.input = .file p) {b : Bytes}
    (h0 : fs0.holds p b) :
    st.fs.holds p b ∨ ∃ s dir out q flt, s ∈ cfg.streams ∧ s.output = some (.file q) ∧ st.fs.holds q out ∧
      cfg.direction.allows dir ∧ Conversion cfg.lib b dir ⟨out, some (.ok ()), flt⟩ := by
  obtain ⟨st', hr, -, hloc, hlook, -⟩ := others_elsewhere_make_no_difference hN hwf h
  have hl0 : st'.fs.loc = fs0.loc := (touches_run hr).fs.loc
  have key : ∀ q b, N (fs0.loc q) → (st'.fs.holds q b → st.fs.holds q b) := by
    intro q b hq hh
    rw [holds_iff_look] at hh ⊢
    rw [← hloc, ← hlook _ (by rw [hl0]; exact hq)]
    exact hh
  rcases input_or_output_exists hforce hwf hmode hun hr h0 with h1 | ⟨s', dir, out, q, flt, hm, hq, hh, h2, h3⟩
  · exact .inl (key p b (hN.input s hs p (.inl hp)) h1)
  · exact .inr ⟨s', dir, out, q, flt, hm, hq, key q out (hN.output s' hm q hq) hh, h2, h3⟩

private theorem follow_elsewhere {N : Filesystem.Name → Prop} {f f' : FS} (hl : ∀ n t, N n → f.entry n = some (.symlink t) → N t)
    (he : ∀ n, N n → f'.entry n = f.entry n) : ∀ k n, N n → f'.follow k n = f.follow k n ∧ ∀ m, f.follow k n = some m → N m := by
  intro k
  induction k with
  | zero => intro n _; exact ⟨rfl, by simp [FS.follow]⟩
  | succ k ih =>
    intro n hn
    simp only [FS.follow]
    rw [he n hn]
    split
    · rename_i t ht
      exact ih t (hl n t hn ht)
    · exact ⟨rfl, by rintro m ⟨⟩; exact hn⟩

/-- C109. Nor does it then matter that a path is opened first and looked at later. -/
theorem opening_in_two_steps {N : Filesystem.Name → Prop} {f f' : FS} (ho : Elsewhere N f f')
    (hl : ∀ n t, N n → f.entry n = some (.symlink t) → N t) (force : Bool) (i : CryptStreams.Input)
    (hi : ∀ p, i = .file p ∨ i = .fileStream p → N (f.loc p)) : openInputAt f f' force i = openInput f' force i := by
  have hopen : ∀ p, N (f.loc p) → f.openRead p = f'.openRead p := by
    intro p hp
    obtain ⟨h1, h2⟩ := follow_elsewhere hl ho.entry 40 _ hp
    unfold FS.openRead
    rw [ho.loc, h1]
    cases hf : f.follow 40 (f.loc p) with
    | none => rfl
    | some n => simp only [ho.entry n (h2 n hf)]
  cases i with
  | stdin => rfl
  | file p => simp only [openInputAt, openInput, hopen p (hi p (.inl rfl))]; rfl
  | fileStream p => simp only [openInputAt, openInput, hopen p (hi p (.inr rfl))]; rfl

/-- C109. Opening in two steps is opening, if nothing happens in between. -/
theorem opening_undisturbed (f : FS) (force : Bool) (i : CryptStreams.Input) : openInputAt f f force i = openInput f force i := by
  cases i <;> rfl

end

/-! ### Concrete cases, and what is not guaranteed -/

namespace Sample

/-- Someone puts a new file with content [99] at the place `n`. -/
def replaceAt (fs : FS) (n : Filesystem.Name) : FS := (fs.createAt n).setContent fs.nextIno [99]

theorem replaceAt_others {fs : FS} (h : fs.WF) (n : Filesystem.Name) : Others fs (replaceAt fs n) :=
  ⟨createAt_wf h n, Nat.le_succ _⟩

def oneJob : Config := { job with streams := [⟨.file ['a'], some (.file ['a', '.', 'r'])⟩] }

/-- After the conversion of "a". -/
def made : FS := (disk.createAt 4).setContent 2 aEnc

theorem aEnc_ne : aEnc ≠ [99] := by decide +kernel
theorem aEnc_ne_nil : aEnc ≠ [] := by decide +kernel

theorem writing_wf {fs : FS} (h : fs.WF) (n : Filesystem.Name) (i : Nat) (b : Bytes) : ((fs.createAt n).setContent i b).WF :=
  createAt_wf h n

/-- The place "a" and the place "a.r". -/
def aPlaces (n : Filesystem.Name) : Prop := n = 0 ∨ n = 4

theorem oneJob_covers : oneJob.Covers disk aPlaces := by
  refine ⟨?_, ?_, ?_⟩
  · intro s hs p hp
    simp only [oneJob, List.mem_singleton] at hs
    subst hs
    simp only [reduceCtorEq, or_false, CryptStreams.Input.file.injEq] at hp
    subst hp
    exact .inl rfl
  · intro s hs p hp
    simp only [oneJob, List.mem_singleton] at hs
    subst hs
    simp only [Option.some.injEq, Output.file.injEq] at hp
    subst hp
    exact .inr rfl
  · rintro n t (rfl | rfl) h <;> cases h

/-- C109: "a" is converted and deleted while someone else replaces "b". -/
theorem quiet_example : ∃ ls st, QuietRun oneJob aPlaces disk ls st ∧ st.pc = .done true ∧ st.fs.entry 0 = none ∧
    st.fs.holds ['a', '.', 'r'] aEnc ∧ st.fs.holds ['b'] [99] := by
  have r0 := QuietRun.start (cfg := oneJob) (N := aPlaces) (fs0 := disk)
  have r1 := QuietRun.own _ _ _ _ r0 (.openInput _ _ _ _ _ _ rfl rfl rfl a_plain)
  have r2 := QuietRun.own _ _ _ _ r1 (.openOutput _ _ _ _ _ _ (.encrypt opts 5 tape) [10, 20] rfl rfl ⟨rfl, by omega⟩
    (fun ino h _ => by cases h; rfl) (by rintro ⟨⟩))
  have r3 := QuietRun.others _ _ (replaceAt (disk.createAt 4) 1) r2 (by
    refine ⟨replaceAt_others (createAt_wf disk_wf 4) 1, rfl, ?_, ?_⟩
    · rintro n (rfl | rfl) <;> rfl
    · rintro n ino (rfl | rfl) he <;> cases he <;> exact ⟨rfl, rfl⟩)
  have r4 := QuietRun.own _ _ _ _ r3 (.success _ _ _ _ _ _ _ aEnc false rfl List.nil_prefix (encrypted [10, 20]) (by rintro ⟨⟩))
  have r5 := QuietRun.own _ _ _ _ r4 (.endOfFile _ rfl)
  have r6 := QuietRun.own _ _ _ _ r5 (.cleanups _ rfl rfl (by simp [inputCleanup]))
  have r7 := QuietRun.own _ _ _ _ r6 (.delete _ rfl rfl)
  have r8 := QuietRun.own _ _ _ _ r7 (.deleteInput _ ['a'] [] _ rfl rfl)
  have r9 := QuietRun.own _ _ _ _ r8 (.allDeleted _ rfl)
  exact ⟨_, _, r9, rfl, rfl, ⟨2, rfl, rfl⟩, ⟨3, rfl, rfl⟩⟩

end Sample

/-- An input that someone has replaced after it was read is deleted all the same: what was put there is lost, although nothing
has read it. So nothing better than C108 can be claimed without an assumption about the other processes. -/
theorem replaced_input_is_deleted : ∃ (cfg : Config) (fs0 : FS) (ms : List Move) (st : State) (f f' : FS), cfg.force = false ∧
    fs0.WF ∧ SharedRun cfg fs0 ms st ∧ st.pc = .done true ∧ Move.others f f' ∈ ms ∧ f'.holds ['a'] [99] ∧
    (∀ s dir i o, Label.converted s dir i o ∈ events ms → i = [10, 20]) ∧
    ∀ n ino, st.fs.entry n = some (.file ino) → st.fs.content ino ≠ [99] := by
  have r0 := SharedRun.start (cfg := Sample.oneJob) (fs0 := Sample.disk)
  have r1 := SharedRun.own _ _ _ _ r0 (.openInput _ _ _ _ _ _ rfl rfl rfl Sample.a_plain)
  have r2 := SharedRun.own _ _ _ _ r1 (.openOutput _ _ _ _ _ _ (.encrypt Sample.opts 5 Sample.tape) [10, 20] rfl rfl ⟨rfl, by omega⟩
    (fun ino h _ => by cases h; rfl) (by rintro ⟨⟩))
  have r3 := SharedRun.own _ _ _ _ r2 (.success _ _ _ _ _ _ _ Sample.aEnc false rfl List.nil_prefix (Sample.encrypted [10, 20])
    (by rintro ⟨⟩))
  have r4 := SharedRun.others _ _ (Sample.replaceAt _ 0) r3
    (Sample.replaceAt_others (Sample.writing_wf Sample.disk_wf 4 2 Sample.aEnc) 0)
  have r5 := SharedRun.own _ _ _ _ r4 (.endOfFile _ rfl)
  have r6 := SharedRun.own _ _ _ _ r5 (.cleanups _ rfl rfl (by simp [inputCleanup]))
  have r7 := SharedRun.own _ _ _ _ r6 (.delete _ rfl rfl)
  have r8 := SharedRun.own _ _ _ _ r7 (.deleteInput _ ['a'] [] _ rfl rfl)
  have r9 := SharedRun.own _ _ _ _ r8 (.allDeleted _ rfl)
  refine ⟨_, _, _, _, Sample.made, Sample.replaceAt Sample.made 0, rfl, Sample.disk_wf, r9, rfl, by simp; exact ⟨rfl, rfl⟩,
    ⟨3, rfl, rfl⟩, ?_, ?_⟩
  · intro s dir i o hm
    have hm : Label.converted s dir i o ∈ [Label.tau, .tau, .converted ⟨.file ['a'], some (.file ['a', '.', 'r'])⟩
      (.encrypt Sample.opts 5 Sample.tape) [10, 20] Sample.aEnc, .tau, .tau, .tau, .inputDeleted ['a'], .tau] := hm
    simp only [List.mem_cons, reduceCtorEq, Label.converted.injEq, List.not_mem_nil, false_or, or_false] at hm
    exact hm.2.2.1
  · intro n ino he
    have he : (if n = 0 then none else (Sample.replaceAt Sample.made 0).entry n) = some (.file ino) := he
    split at he
    · cases he
    · rename_i h0
      have he : (if n = 0 then some (.file 3) else if n = 4 then some (.file 2) else Sample.disk.entry n) = some (.file ino) := he
      rw [if_neg h0] at he
      split at he
      · cases he
        exact Sample.aEnc_ne
      · simp only [Sample.disk, if_neg h0] at he
        repeat' split at he
        all_goals cases he
        decide

/-- Without `--force` links are refused (C36), but a link that someone replaces by a file between opening and looking is
followed: what it leads to is converted. -/
theorem swapped_link_is_followed : ∃ (cfg : Config) (fs0 : FS) (ms : List Move) (st : State) (s : Stream) (dir : Direction) (o : Bytes),
    cfg.force = false ∧ fs0.WF ∧ s.input = .file ['c'] ∧ fs0.entry (fs0.loc ['c']) = some (.symlink (fs0.loc ['b'])) ∧
    fs0.holds ['b'] [30] ∧ SharedRun cfg fs0 ms st ∧ Label.converted s dir [30] o ∈ events ms ∧ st.fs.holds ['c'] [99] := by
  let s : Stream := ⟨.file ['c'], some (.file ['x'])⟩
  let cfg : Config := { Sample.job with streams := [s] }
  have r0 := SharedRun.start (cfg := cfg) (fs0 := Sample.disk)
  have r1 := SharedRun.openRaced _ _ s [] _ (.file 1) (some 1) (Sample.replaceAt Sample.disk 2) r0 rfl rfl rfl
    (Sample.replaceAt_others Sample.disk_wf 2) rfl
  have r2 := SharedRun.own _ _ _ _ r1 (.openOutput _ _ _ _ _ _ (.encrypt Sample.opts 5 Sample.tape) [30] rfl rfl ⟨rfl, by omega⟩
    (fun ino h _ => by cases h; rfl) (by rintro ⟨⟩))
  have r3 := SharedRun.own _ _ _ _ r2 (.success _ _ _ _ _ _ _ _ false rfl List.nil_prefix (Sample.encrypted [30]) (by rintro ⟨⟩))
  exact ⟨cfg, _, _, _, s, _, _, rfl, Sample.disk_wf, rfl, rfl, ⟨1, rfl, rfl⟩, r3, by simp [events, Move.label]; exact ⟨rfl, rfl⟩,
    ⟨2, rfl, rfl⟩⟩

/-- The output of a failed conversion is deleted by its name: what someone else has put there meanwhile is lost. -/
theorem replaced_output_is_deleted : ∃ (cfg : Config) (fs0 : FS) (ms : List Move) (st : State) (f f' : FS), cfg.force = false ∧
    fs0.WF ∧ SharedRun cfg fs0 ms st ∧ Move.others f f' ∈ ms ∧ f'.holds ['x'] [99] ∧
    ∀ n ino, st.fs.entry n = some (.file ino) → st.fs.content ino ≠ [99] := by
  let s : Stream := ⟨.file ['b'], some (.file ['x'])⟩
  let cfg : Config := { Sample.badJob false with streams := [s] }
  have r0 := SharedRun.start (cfg := cfg) (fs0 := Sample.disk)
  have r1 := SharedRun.own _ _ _ _ r0 (.openInput _ _ _ _ (.file 1) (some 1) rfl rfl rfl rfl)
  have r2 := SharedRun.own _ _ _ _ r1 (.openOutput _ _ _ _ _ _ (.decrypt Sample.good) [30] rfl rfl rfl
    (fun ino h _ => by cases h; rfl) (by rintro ⟨⟩))
  have r3 := SharedRun.others _ _ (Sample.replaceAt (Sample.disk.createAt 6) 6) r2
    (Sample.replaceAt_others (createAt_wf Sample.disk_wf 6) 6)
  have r4 := SharedRun.own _ _ _ _ r3 (.failure _ _ _ _ _ _ _ [] _ false rfl List.nil_prefix Sample.b_is_no_file)
  have r5 := SharedRun.own _ _ _ _ r4 (.failedDelete _ _ ['x'] _ rfl rfl)
  refine ⟨cfg, _, _, _, Sample.disk.createAt 6, Sample.replaceAt (Sample.disk.createAt 6) 6, rfl, Sample.disk_wf, r5,
    by simp; rfl, ⟨3, rfl, rfl⟩, ?_⟩
  intro n ino he
  have he : (if n = 6 then none else if n = 6 then some (.file 3) else if n = 6 then some (.file 2) else Sample.disk.entry n) =
    some (.file ino) := he
  split at he
  · cases he
  · rename_i h0
    simp only [Sample.disk] at he
    repeat' split at he
    all_goals cases he
    all_goals decide

/-- C108: the moves of the last example, among them one that creates a file and one that changes the content of a file. -/
example : ∃ (cfg : Config) (fs0 : FS) (ms pre post : List Move) (st : State) (l : Label) (f f' : FS) (n : Filesystem.Name) (ino : Nat),
    cfg.force = false ∧ fs0.WF ∧ SharedRun cfg fs0 ms st ∧ ms = pre ++ .own l f f' :: post ∧ f'.entry n ≠ f.entry n ∧
    Move.others f' (Sample.replaceAt f' 0) ∈ post ∧ (∃ l f f', Move.own l f f' ∈ post ∧ f'.content ino ≠ f.content ino) := by
  have r0 := SharedRun.start (cfg := Sample.oneJob) (fs0 := Sample.disk)
  have r1 := SharedRun.own _ _ _ _ r0 (.openInput _ _ _ _ _ _ rfl rfl rfl Sample.a_plain)
  have r2 := SharedRun.own _ _ _ _ r1 (.openOutput _ _ _ _ _ _ (.encrypt Sample.opts 5 Sample.tape) [10, 20] rfl rfl ⟨rfl, by omega⟩
    (fun ino h _ => by cases h; rfl) (by rintro ⟨⟩))
  have r3 := SharedRun.others _ _ (Sample.replaceAt (Sample.disk.createAt 4) 0) r2
    (Sample.replaceAt_others (createAt_wf Sample.disk_wf 4) 0)
  have r4 := SharedRun.own _ _ _ _ r3 (.success _ _ _ _ _ _ _ Sample.aEnc false rfl List.nil_prefix (Sample.encrypted [10, 20])
    (by rintro ⟨⟩))
  refine ⟨_, _, _, [_], [_, _], _, .tau, Sample.disk, Sample.disk.createAt 4, 4, 2, rfl, Sample.disk_wf, r4, rfl, by decide,
    List.mem_cons_self, _, _, _, List.mem_cons_of_mem _ List.mem_cons_self, ?_⟩
  exact fun h => Sample.aEnc_ne_nil h

end Rypt.Props
