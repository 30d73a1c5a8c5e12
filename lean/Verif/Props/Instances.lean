import Verif.Proofs.Instances
import Verif.Props.Shared

/-!
Property C110: several instances of the program at work on the same files at the same time. An `InstancesRun` is an
interleaving of the steps of any number of them.
-/

namespace Rypt.Props

open Filesystem HeaderCrypto CryptFile CryptStreams

section

variable {ι : Type} [DecidableEq ι] {cfg : ι → Config} {fs0 : FS} {ls : List (ι × Label)} {g : Instances ι}

/-- C110. Several instances at once, without `--force`, even on the same inputs and with the same outputs, if no output of one
is an input of one: at every moment every file that there was in the beginning is there with its content, or one of the
instances was allowed to delete it, and a complete output of its conversion by this instance is there. -/
theorem instances_never_lose_data (hforce : ∀ i, (cfg i).force = false) (hmode : ∀ i, (cfg i).FileMode) (hwf : fs0.WF)
    (hun : UnchainedAll cfg fs0) (h : InstancesRun cfg fs0 ls g) {p : Path} {b : Bytes} (h0 : fs0.holds p b) :
    g.fs.holds p b ∨ ∃ i, Consent (cfg i) (eventsOf i ls) ∧ ∃ s ∈ (cfg i).streams, ∃ p' q dir out flt, s.input = .file p' ∧
      fs0.loc p' = fs0.loc p ∧ s.output = some (.file q) ∧ g.fs.holds q out ∧ (cfg i).direction.allows dir ∧
      Conversion (cfg i).lib b dir ⟨out, some (.ok ()), flt⟩ := by
  obtain ⟨cur, hI⟩ := all_run hforce hwf hun h
  obtain ⟨ino, e1, rfl⟩ := h0
  rcases hI.glob.kept _ _ e1 with h1 | ⟨i, s, dir, b, o, p', hm, hp, hl, hc⟩
  · exact .inl ⟨ino, by rw [hI.glob.loc]; exact h1, hI.glob.old ino (hwf _ _ e1)⟩
  · have hf := hI.glob.facts i s dir b o hm
    obtain ⟨flt, hconv⟩ := hf.conv
    obtain ⟨ino', x1, rfl⟩ := hf.input p' hp
    rw [hl, e1] at x1
    cases x1
    refine .inr ⟨i, hc, s, hf.mem, p', ?_⟩
    have hne := hmode i s hf.mem p' hp
    cases ho : s.output with
    | none => exact absurd ho hf.named
    | some out =>
      cases out with
      | stdout => exact absurd ho hne
      | file q =>
        obtain ⟨k, y1, y2, -⟩ := hf.output q ho
        exact ⟨q, dir, o, flt, hp, hl, rfl, ⟨k, by rw [hI.glob.loc]; exact y1, y2⟩, hf.allows, hconv⟩

/-- C110. What they have in common they do not spoil for each other either: an entry there was in the beginning stays, or it was
an input, was converted, and deletion was allowed; no content of a file that there was in the beginning ever changes. -/
theorem instances_leave_the_rest (hforce : ∀ i, (cfg i).force = false) (hwf : fs0.WF) (hun : UnchainedAll cfg fs0)
    (h : InstancesRun cfg fs0 ls g) :
    (∀ n node, fs0.entry n = some node → g.fs.entry n = some node ∨ ∃ i s dir b o p, (i, Label.converted s dir b o) ∈ ls ∧
      s.input = .file p ∧ fs0.loc p = n ∧ Consent (cfg i) (eventsOf i ls)) ∧
    ∀ ino, ino < fs0.nextIno → g.fs.content ino = fs0.content ino := by
  obtain ⟨cur, hI⟩ := all_run hforce hwf hun h
  exact ⟨hI.glob.kept, hI.glob.old⟩

/-- C110. If an instance has converted a file, it has converted what was there in the beginning, and its output is there as it was
written, whatever the other instances do afterwards. -/
theorem converted_stays_converted (hforce : ∀ i, (cfg i).force = false) (hwf : fs0.WF) (hun : UnchainedAll cfg fs0)
    (h : InstancesRun cfg fs0 ls g) {i : ι} {s : Stream} {dir : Direction} {b o : Bytes}
    (hm : (i, Label.converted s dir b o) ∈ ls) : s ∈ (cfg i).streams ∧ (∀ p, s.input = .file p → fs0.holds p b) ∧
      (∀ q, s.output = some (.file q) → g.fs.holds q o) ∧ (cfg i).direction.allows dir ∧
      ∃ flt, Conversion (cfg i).lib b dir ⟨o, some (.ok ()), flt⟩ := by
  obtain ⟨cur, hI⟩ := all_run hforce hwf hun h
  have hf := hI.glob.facts i s dir b o hm
  refine ⟨hf.mem, ?_, ?_, hf.allows, hf.conv⟩
  · intro p hp
    obtain ⟨ino, x1, x2⟩ := hf.input p hp
    exact ⟨ino, x1, x2.symm⟩
  · intro q hq
    obtain ⟨k, y1, y2, -⟩ := hf.output q hq
    exact ⟨k, by rw [hI.glob.loc]; exact y1, y2⟩

/-- C110. Of all the instances, only one can convert to the same output, and only once. -/
theorem one_conversion_per_output (hforce : ∀ i, (cfg i).force = false) (hwf : fs0.WF) (hun : UnchainedAll cfg fs0)
    (h : InstancesRun cfg fs0 ls g) {l1 l2 l3 : List (ι × Label)} {i j : ι} {s s' : Stream} {dir dir' : Direction}
    {b o b' o' : Bytes} {q q' : Path} (hl : ls = l1 ++ (i, .converted s dir b o) :: l2 ++ (j, .converted s' dir' b' o') :: l3)
    (hq : s.output = some (.file q)) (hq' : s'.output = some (.file q')) : fs0.loc q ≠ fs0.loc q' := by
  obtain ⟨cur, hI⟩ := all_run hforce hwf hun h
  have ho := hI.glob.once
  rw [hl, List.append_assoc, List.pairwise_append] at ho
  exact (List.pairwise_cons.1 ho.2.1).1 (j, _) (by simp) s dir b o q s' dir' b' o' q' rfl hq rfl hq'

end

/-- C110. One instance alone is a special case. -/
theorem alone_is_an_instance {cfg : Config} {fs0 : FS} {ls : List Label} {st : State}
    (h : Run cfg (State.start cfg fs0) ls st) :
    ∃ g, InstancesRun (fun _ : Unit => cfg) fs0 (ls.map fun l => ((), l)) g ∧ g.st () = st ∧ g.fs = st.fs := by
  induction h with
  | refl => exact ⟨_, .start, rfl, rfl⟩
  | step ls t l u _ hs ih =>
    obtain ⟨g, h1, rfl, h3⟩ := ih
    rw [List.map_append]
    refine ⟨_, .step _ _ () l _ h1 (.step _ _ _ u ?_), rfl, rfl⟩
    rw [h3]
    exact hs

/-! ### Concrete cases, and what is not guaranteed -/

namespace Sample

/-- Two instances: "a" to "a.r" and "a" to "x". -/
def both (i : Bool) : Config := { job with streams := [⟨.file ['a'], some (.file (if i then ['a', '.', 'r'] else ['x']))⟩] }

theorem both_unchained : UnchainedAll both disk := by
  intro i j s hs s' hs' p q hp hq
  simp only [both, List.mem_singleton] at hs hs'
  subst hs hs'
  cases hp
  cases hq
  cases j <;> decide

theorem both_fileMode (i : Bool) : (both i).FileMode := by simp [Config.FileMode, both]

/-- C110: both have "a" open; one converts it and deletes it, then the other converts it. -/
theorem both_run : ∃ ls g, InstancesRun both disk ls g ∧ (g.st true).pc = .done true ∧ (g.st false).pc = .done true ∧
    g.fs.entry 0 = none ∧ g.fs.holds ['a', '.', 'r'] aEnc ∧ g.fs.holds ['x'] aEnc := by
  have r0 := InstancesRun.start (cfg := both) (fs0 := disk)
  have r1 := InstancesRun.step _ _ true _ _ r0 (.open1 _ _ rfl)
  have r2 := InstancesRun.step _ _ false _ _ r1 (.step _ _ _ _ (.openInput _ _ _ _ _ _ rfl rfl rfl a_plain))
  have r3 := InstancesRun.step _ _ true _ _ r2 (.open2 _ _ disk _ _ _ (.file 0) (some 2) rfl rfl rfl rfl rfl)
  have r4 := InstancesRun.step _ _ true _ _ r3 (.read _ _ _ _ _ _ _ (.encrypt opts 5 tape) [10, 20] rfl rfl ⟨rfl, by omega⟩
    (fun ino h _ => by cases h; rfl) (by rintro ⟨⟩))
  have r5 := InstancesRun.step _ _ true _ _ r4 (.step _ _ _ _ (.success _ _ _ _ _ _ _ aEnc false rfl List.nil_prefix
    (encrypted [10, 20]) (by rintro ⟨⟩)))
  have r6 := InstancesRun.step _ _ true _ _ r5 (.step _ _ _ _ (.endOfFile _ rfl))
  have r7 := InstancesRun.step _ _ true _ _ r6 (.step _ _ _ _ (.cleanups _ rfl rfl (by simp [inputCleanup])))
  have r8 := InstancesRun.step _ _ true _ _ r7 (.step _ _ _ _ (.delete _ rfl rfl))
  have r9 := InstancesRun.step _ _ true _ _ r8 (.step _ _ _ _ (.deleteInput _ ['a'] [] _ rfl rfl))
  have r10 := InstancesRun.step _ _ true _ _ r9 (.step _ _ _ _ (.allDeleted _ rfl))
  have r11 := InstancesRun.step _ _ false _ _ r10 (.step _ _ _ _ (.openOutput _ _ _ _ _ _ (.encrypt opts 5 tape) [10, 20] rfl rfl
    ⟨rfl, by omega⟩ (fun ino h _ => by cases h; rfl) (by rintro ⟨⟩)))
  have r12 := InstancesRun.step _ _ false _ _ r11 (.step _ _ _ _ (.success _ _ _ _ _ _ _ aEnc false rfl List.nil_prefix
    (encrypted [10, 20]) (by rintro ⟨⟩)))
  have r13 := InstancesRun.step _ _ false _ _ r12 (.step _ _ _ _ (.endOfFile _ rfl))
  have r14 := InstancesRun.step _ _ false _ _ r13 (.step _ _ _ _ (.cleanups _ rfl rfl (by simp [inputCleanup])))
  have r15 := InstancesRun.step _ _ false _ _ r14 (.step _ _ _ _ (.delete _ rfl rfl))
  have r16 := InstancesRun.step _ _ false _ _ r15 (.step _ _ _ _ (.deleteInputFails _ ['a'] [] rfl))
  have r17 := InstancesRun.step _ _ false _ _ r16 (.step _ _ _ _ (.allDeleted _ rfl))
  exact ⟨_, _, r17, rfl, rfl, rfl, ⟨2, rfl, rfl⟩, ⟨3, rfl, rfl⟩⟩

/-- Two instances, "a" to "a.r" and "a.r" to "x". -/
def chained (i : Bool) : Config :=
  { job with streams := [if i then ⟨.file ['a'], some (.file ['a', '.', 'r'])⟩ else ⟨.file ['a', '.', 'r'], some (.file ['x'])⟩] }

/-- The encryption of nothing. -/
def nilEnc : Bytes := Spec.file codec.crypto codec.payloadKey hdr chunkSize []

end Sample

/-- If one instance takes the output of another one as its input, data can be lost although both report success: an output that
is being written is encrypted as far as it is written, and deleted. In the end no file holds what "a" held or what it was converted to. -/
theorem chained_instances_lose_data : ∃ (cfg : Bool → Config) (fs0 : FS) (ls : List (Bool × Label)) (g : Instances Bool)
    (s : Stream) (dir : Direction) (b o : Bytes), (∀ i, (cfg i).force = false) ∧ (∀ i, (cfg i).FileMode) ∧
    (∀ i, (cfg i).Unchained fs0) ∧ fs0.WF ∧ InstancesRun cfg fs0 ls g ∧ (∀ i, (g.st i).pc = .done true) ∧
    fs0.holds ['a'] b ∧ s.input = .file ['a'] ∧ (true, Label.converted s dir b o) ∈ ls ∧
    ∀ n ino, g.fs.entry n = some (.file ino) → g.fs.content ino ≠ b ∧ g.fs.content ino ≠ o := by
  have r0 := InstancesRun.start (cfg := Sample.chained) (fs0 := Sample.disk)
  have r1 := InstancesRun.step _ _ true _ _ r0 (.step _ _ _ _ (.openInput _ _ _ _ _ _ rfl rfl rfl Sample.a_plain))
  have r2 := InstancesRun.step _ _ true _ _ r1 (.step _ _ _ _ (.openOutput _ _ _ _ _ _ (.encrypt Sample.opts 5 Sample.tape) [10, 20]
    rfl rfl ⟨rfl, by omega⟩ (fun ino h _ => by cases h; rfl) (by rintro ⟨⟩)))
  have r3 := InstancesRun.step _ _ false _ _ r2 (.step _ _ _ _ (.openInput _ _ _ _ (.file 2) (some 0) rfl rfl rfl rfl))
  have r4 := InstancesRun.step _ _ false _ _ r3 (.step _ _ _ _ (.openOutput _ _ _ _ _ _ (.encrypt Sample.opts 5 Sample.tape) []
    rfl rfl ⟨rfl, by omega⟩ (fun ino h _ => by cases h; rfl) (by rintro ⟨⟩)))
  have r5 := InstancesRun.step _ _ false _ _ r4 (.step _ _ _ _ (.success _ _ _ _ _ _ _ Sample.nilEnc false rfl List.nil_prefix
    (Sample.encrypted []) (by rintro ⟨⟩)))
  have r6 := InstancesRun.step _ _ false _ _ r5 (.step _ _ _ _ (.endOfFile _ rfl))
  have r7 := InstancesRun.step _ _ false _ _ r6 (.step _ _ _ _ (.cleanups _ rfl rfl (by simp [inputCleanup])))
  have r8 := InstancesRun.step _ _ false _ _ r7 (.step _ _ _ _ (.delete _ rfl rfl))
  have r9 := InstancesRun.step _ _ false _ _ r8 (.step _ _ _ _ (.deleteInput _ ['a', '.', 'r'] [] _ rfl rfl))
  have r10 := InstancesRun.step _ _ false _ _ r9 (.step _ _ _ _ (.allDeleted _ rfl))
  have r11 := InstancesRun.step _ _ true _ _ r10 (.step _ _ _ _ (.success _ _ _ _ _ _ _ Sample.aEnc false rfl List.nil_prefix
    (Sample.encrypted [10, 20]) (by rintro ⟨⟩)))
  have r12 := InstancesRun.step _ _ true _ _ r11 (.step _ _ _ _ (.endOfFile _ rfl))
  have r13 := InstancesRun.step _ _ true _ _ r12 (.step _ _ _ _ (.cleanups _ rfl rfl (by simp [inputCleanup])))
  have r14 := InstancesRun.step _ _ true _ _ r13 (.step _ _ _ _ (.delete _ rfl rfl))
  have r15 := InstancesRun.step _ _ true _ _ r14 (.step _ _ _ _ (.deleteInput _ ['a'] [] _ rfl rfl))
  have r16 := InstancesRun.step _ _ true _ _ r15 (.step _ _ _ _ (.allDeleted _ rfl))
  refine ⟨_, _, _, _, ⟨.file ['a'], some (.file ['a', '.', 'r'])⟩, _, [10, 20], Sample.aEnc, fun _ => rfl, ?_, ?_, Sample.disk_wf, r16,
    ?_, ⟨0, rfl, rfl⟩, rfl, by simp; rfl, ?_⟩
  · intro i
    cases i <;> simp [Config.FileMode, Sample.chained]
  · intro i s hs s' hs' p q hp hq
    simp only [Sample.chained, List.mem_singleton] at hs hs'
    subst hs hs'
    cases i <;> cases hp <;> cases hq <;> decide
  · intro i
    cases i <;> rfl
  · intro n ino he
    have he : (if n = 0 then none else if n = 4 then none else if n = 6 then some (.file 3) else if n = 4 then some (.file 2) else
      Sample.disk.entry n) = some (.file ino) := he
    repeat' split at he
    · cases he
    · cases he
    · cases he
      exact ⟨(by decide +kernel : Sample.nilEnc ≠ [10, 20]), (by decide +kernel : Sample.nilEnc ≠ Sample.aEnc)⟩
    · rename_i h0 _ _
      simp only [Sample.disk, if_neg h0] at he
      repeat' split at he
      all_goals cases he
      exact ⟨by decide, (by decide +kernel : ([30] : Bytes) ≠ Sample.aEnc)⟩

end Rypt.Props
