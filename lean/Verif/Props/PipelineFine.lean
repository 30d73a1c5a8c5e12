import Verif.Proofs.PipelineFine
import Verif.Props.Pipeline

/-!
Property C112: the pipeline when threads are started one by one, may fail to start, and let go of their channels in two steps.
-/

namespace Rypt.Props

open Pipeline Spec

section

variable {P : Params} {data : Bytes} {ls : List Label} {f : Fine}

/-- C112. Unless a thread cannot be started, every state of the finer model is one that an execution of the model of
C17–C25 with the same failures, retries and conversions reaches. -/
theorem fine_executions (h : FRun P (Fine.start data) ls f) (hf : f.failed = false) :
    ∃ ls', Run P (State.start data) ls' f.state ∧ ls'.filter (· ≠ .tau) = ls.filter (· ≠ .tau) := by
  obtain ⟨ls', h1, h2, -⟩ := (finv_run h).run hf
  exact ⟨ls', h1, h2⟩

/-- C112. The other way round: every execution of the model of C17–C25 is one of the finer model. -/
theorem executions_are_fine {s : State} (h : Run P (State.start data) ls s) :
    ∃ ls' f, FRun P (Fine.start data) ls' f ∧ f.state = s ∧ f.failed = false ∧ ls'.filter (· ≠ .tau) = ls.filter (· ≠ .tau) := by
  obtain ⟨ls', h1, h2⟩ := run_settled h
  exact ⟨ls', settled s, h1, rfl, rfl, h2⟩

/-- C112. The conversion returns `Ok` exactly if all threads could be started, no `read`, `write` or `flush` failed and every chunk
converts. Without failures of the system, output and result are those of converting chunk after chunk in one thread. -/
theorem fine_outcome (hL : P.conv.Lawful) (hN : 0 < P.inputBufferSize) {r : Res Unit} (h : FRun P (Fine.start data) ls f)
    (hm : f.state.returned r) :
    (r = .ok () ↔ Label.ioFault ∉ ls ∧ ∀ c ∈ chunks P.inputBufferSize data, ∃ c', P.conv.convert c = .ok c') ∧
      (r ≠ .ok () → ∃ e, r = .err e) ∧
      (Label.ioFault ∉ ls → (f.state.written, r) = convertStream P.conv.convert P.inputBufferSize data) := by
  cases hf : f.failed with
  | true =>
    obtain ⟨h1, h2, -⟩ := (finv_run h).abandoned hf
    have hr : r = .err .io := by
      have := hm.symm.trans h1.main
      cases this; rfl
    subst hr
    simp [h2]
  | false =>
    obtain ⟨ls', h1, h2⟩ := fine_executions h hf
    have hmem : Label.ioFault ∈ ls ↔ Label.ioFault ∈ ls' := by
      have a : ∀ l : List Label, Label.ioFault ∈ l ↔ Label.ioFault ∈ l.filter (· ≠ .tau) := fun l => by simp
      rw [a ls, a ls', h2]
    obtain ⟨k1, k2⟩ := faults_are_reported hL hN h1 hm
    rw [hmem]
    exact ⟨k1, k2, fun hn => refines_sequential hL hN h1 hm hn⟩

/-- C112. In every reachable state that has not returned some thread can take a step that is neither a failure nor a retry. -/
theorem fine_no_deadlock (hL : P.conv.Lawful) (hN : 0 < P.inputBufferSize) (h : FRun P (Fine.start data) ls f)
    (hm : ∀ r, ¬ f.state.returned r) : ∃ l f', FStep P f l f' ∧ l ≠ .eintr ∧ l ≠ .ioFault := by
  have hi := finv_run h
  have hf : f.failed = false := by
    cases hf : f.failed with
    | false => rfl
    | true => exact absurd (hi.abandoned hf).1.main (hm _)
  by_cases h0 : f.holding = 0
  · by_cases h3 : f.spawned < 3
    · exact ⟨_, _, .spawn f hf h3, by simp, by simp⟩
    · have hs := settled_of_holding h0 (by have := hi.spawned; omega) hf
      obtain ⟨ls', h1, -⟩ := fine_executions h hf
      obtain ⟨l, s', k1, k2, k3⟩ := pipeline_no_deadlock hL hN h1 hm
      rw [hs]
      exact ⟨l, _, settled_step k1, k2, k3⟩
  · obtain ⟨g, hg⟩ := holds_of_holding (P := P) h0
    exact ⟨_, g, hg, by simp, by simp⟩

/-- C112. The number of steps, not counting retries of interrupted calls, is bounded by the sizes. -/
theorem fine_terminates (hL : P.conv.Lawful) (hN : 0 < P.inputBufferSize) (h : FRun P (Fine.start data) ls f) :
    progressSteps ls ≤ ((chunks P.inputBufferSize data).length + 1) * (2 * P.inputBufferSize + P.conv.outputAsize + 28) + 7 := by
  have hi := finv_run h
  cases hf : f.failed with
  | false =>
    obtain ⟨ls', h1, -, h3⟩ := hi.run hf
    have h4 := pipeline_terminates hL hN h1
    have := gone_le f.state
    have := hi.spawned
    omega
  | true =>
    have h3 := (hi.abandoned hf).2.2
    have : 1 * 28 ≤ ((chunks P.inputBufferSize data).length + 1) * (2 * P.inputBufferSize + P.conv.outputAsize + 28) :=
      Nat.mul_le_mul (by omega) (by omega)
    omega

/-- C112. When the conversion has returned, all threads have ended and have let go of everything, unless one could not be
started. -/
theorem no_thread_left (h : FRun P (Fine.start data) ls f) (hf : f.failed = false) {r : Res Unit} (hm : f.state.returned r) :
    (∃ e, f.state.reader = .done e) ∧ (∃ e, f.state.codec = .done e) ∧ (∃ e, f.state.writer = .done e) ∧
      f.readerHolds = false ∧ f.codecHolds = false ∧ f.writerHolds = false ∧ f.mainHolds = false := by
  obtain ⟨h1, h2, h3, h4⟩ := over_run h hf r hm
  have k1 : ∃ e, f.state.reader = .done e := by
    unfold State.readerDone at h1
    split at h1
    · exact ⟨_, by assumption⟩
    · cases h1
  have k2 : ∃ e, f.state.codec = .done e := by
    unfold State.codecDone at h2
    split at h2
    · exact ⟨_, by assumption⟩
    · cases h2
  have k3 : ∃ e, f.state.writer = .done e := by
    unfold State.writerDone at h3
    split at h3
    · exact ⟨_, by assumption⟩
    · cases h3
  refine ⟨k1, k2, k3, ?_⟩
  revert h4
  unfold Fine.holding
  cases f.readerHolds <;> cases f.codecHolds <;> cases f.writerHolds <;> cases f.mainHolds <;> simp [one]

/-- C112. If a thread cannot be started, the conversion returns an error; nothing is ever read or written, no progress is reported and
nothing is converted, and the threads that were started can only end. -/
theorem unstarted_thread (h : FRun P (Fine.start data) ls f) (hf : f.failed = true) :
    f.state.returned (.err .io) ∧ f.state.input = data ∧ f.state.written = [] ∧ f.state.progress = [] ∧ Label.ioFault ∈ ls ∧
      (f.state.reader = .recv ∨ f.state.reader = .done .ok) ∧ (f.state.codec = .recv ∨ f.state.codec = .done .ok) ∧
      f.state.writer = .done .ok := by
  obtain ⟨h1, h2, -⟩ := (finv_run h).abandoned hf
  exact ⟨h1.main, h1.input, h1.written, h1.progress, h2, h1.reader, h1.codec, h1.writer⟩

/-- C112. For the rest of the program this is what a failure of the first `read` is: the same output, progress and result, and a
failure of the system. So everything said elsewhere about conversions that fail covers threads that cannot be started. -/
theorem unstarted_is_unread (h : FRun P (Fine.start data) ls f) (hf : f.failed = true) :
    ∃ ls' s, Run P (State.start data) ls' s ∧ s.returned (.err .io) ∧ f.state.returned (.err .io) ∧ s.written = f.state.written ∧
      s.progress = f.state.progress ∧ Label.ioFault ∈ ls' := by
  obtain ⟨h1, -, h3, h4, -⟩ := unstarted_thread h hf
  obtain ⟨ls', s, k1, k2, k3, k4, k5⟩ := read_failure P data
  exact ⟨ls', s, k1, k2, h1, by rw [k3, h3], by rw [k4, h4], k5⟩

end

/-! ### Samples -/

/-- The writer cannot be started; the reader ends when the main thread has dropped its sender, and then drops its own. -/
example : ∃ f, FRun samplePipe (Fine.start [10, 20]) [.tau, .tau, .ioFault, .tau, .tau, .tau, .tau] f ∧ f.failed = true ∧
    f.state.codec = .done .ok := by
  have r1 := FRun.step [] _ _ _ (FRun.refl (P := samplePipe) (f := Fine.start [10, 20])) (.spawn _ rfl (by decide))
  have r2 := r1.step _ _ _ _ (.spawn _ rfl (by decide))
  have r3 := r2.step _ _ _ _ (.spawnFails _ rfl (by decide))
  have r4 := r3.step _ _ _ _ (.mainLetsGo _ rfl)
  have r5 := r4.step _ _ _ _ (.work _ _ _ (.readerClosed _ rfl rfl rfl)
    ⟨by decide, by decide, by decide, by decide⟩ ⟨by decide, by decide, by decide, by decide, by decide⟩)
  have r6 := r5.step _ _ _ _ (.readerLetsGo _ rfl)
  have r7 := r6.step _ _ _ _ (.work _ _ _ (.codecClosed _ rfl rfl rfl)
    ⟨by decide, by decide, by decide, by decide⟩ ⟨by decide, by decide, by decide, by decide, by decide⟩)
  exact ⟨_, r7, rfl, rfl⟩

/-- A complete execution. -/
example : ∃ ls f, FRun samplePipe (Fine.start [10, 20, 30, 40, 50]) ls f ∧ f.failed = false ∧ ∃ r, f.state.returned r := by
  obtain ⟨ls', s', r, h, -, hm⟩ := pipeline_can_finish samplePipe_lawful (by decide)
    (Run.refl (P := samplePipe) (s := State.start [10, 20, 30, 40, 50]))
  obtain ⟨ls, f, h1, rfl, h3, -⟩ := executions_are_fine h
  exact ⟨ls, f, h1, h3, r, hm⟩

end Rypt.Props
