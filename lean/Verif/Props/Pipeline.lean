import Verif.Proofs.PipelineEnd
import Verif.Proofs.StreamCrypto
import Verif.Spec.Toy

/-!
Properties of the stream pipeline (C17–C25). All are about every execution (`Run`) from the start: every interleaving of
the four threads, every way the operating system splits reads and writes, interruptions, and failures of
`read`, `write`, `flush` or the converter at any point. `P` is any lawful converter with a chunk size; `data` any input.
-/

namespace Rypt.Props

open Pipeline Spec

section

variable {P : Params} {data : Bytes} {ls : List Label} {s : State}

/-- C17. What is handed to the converter is a beginning of the list of chunks of the input, which does not depend on
the execution; after success it is the whole list. -/
theorem chunking_schedule_independent (hL : P.conv.Lawful) (hN : 0 < P.inputBufferSize)
    (h : Run P (State.start data) ls s) :
    converted ls <+: chunks P.inputBufferSize data ∧
      (s.returned (.ok ()) → converted ls = chunks P.inputBufferSize data) := by
  obtain ⟨k, hk⟩ := inv_run hL hN h
  refine ⟨?_, fun hm => (final_ok hk hm).2.2.2.2.1⟩
  rw [hk.trace]
  exact List.take_prefix _ _

/-- C18. Chunk layout of a successful execution: the chunks handed to the converter, in order, concatenate to the input;
all but the last have exactly the buffer size and are not marked last; the last one is marked, has at most the buffer
size, and is empty only if the input is. -/
theorem chunk_layout (hL : P.conv.Lawful) (hN : 0 < P.inputBufferSize) (h : Run P (State.start data) ls s)
    (hm : s.returned (.ok ())) :
    converted ls ≠ [] ∧ ((converted ls).map (·.buffer)).flatten = data ∧
      ∀ (i : Nat) (c : Chunk), (converted ls)[i]? = some c →
        (i + 1 < (converted ls).length → c.buffer.length = P.inputBufferSize ∧ c.isLast = false) ∧
        (i + 1 = (converted ls).length →
          c.isLast = true ∧ c.buffer.length ≤ P.inputBufferSize ∧ (data ≠ [] → c.buffer ≠ [])) := by
  rw [(chunking_schedule_independent hL hN h).2 hm]
  refine ⟨chunksFrom_ne_nil _ _ _, bytesOf_chunksFrom hN 0 data, ?_⟩
  intro i c hc
  obtain ⟨h1, h2, h3⟩ := chunksFrom_layout hN 0 data i c hc
  refine ⟨fun hi => ?_, fun hi => ⟨h2 hi, h1, fun hd => chunksFrom_nonempty hN 0 data hd c (List.mem_of_getElem? hc)⟩⟩
  obtain ⟨a, b⟩ := h3 (by unfold chunks at hi; omega)
  exact ⟨b, a⟩

/-- C19. At every moment the bytes written are a beginning of the in-order concatenation of the converted chunks. -/
theorem written_in_order (hL : P.conv.Lawful) (hN : 0 < P.inputBufferSize) (h : Run P (State.start data) ls s) :
    s.written <+: bytesOf (convertedPrefix P.conv.convert (chunks P.inputBufferSize data)) := by
  obtain ⟨k, hk⟩ := inv_run hL hN h
  exact written_prefix hk

/-- C20. If the conversion returns `Ok`, every chunk of the input was converted successfully, the output received exactly
the results in order, and it was flushed after the last write. -/
theorem success_is_complete (hL : P.conv.Lawful) (hN : 0 < P.inputBufferSize) (h : Run P (State.start data) ls s)
    (hm : s.returned (.ok ())) :
    ∃ outs, List.Forall₂ (fun c c' => P.conv.convert c = .ok c') (chunks P.inputBufferSize data) outs ∧
      s.written = bytesOf outs ∧ s.flushed = true := by
  obtain ⟨k, hk⟩ := inv_run hL hN h
  obtain ⟨h1, h2, h3, -⟩ := final_ok hk hm
  exact ⟨_, forall2_of_convertedPrefix h2, h1, h3⟩

/-- C21. The conversion returns `Ok` exactly if no `read`, `write` or `flush` failed and every chunk converts; otherwise
it returns an error (it never panics). -/
theorem faults_are_reported (hL : P.conv.Lawful) (hN : 0 < P.inputBufferSize) {r : Res Unit}
    (h : Run P (State.start data) ls s) (hm : s.returned r) :
    (r = .ok () ↔ Label.ioFault ∉ ls ∧ ∀ c ∈ chunks P.inputBufferSize data, ∃ c', P.conv.convert c = .ok c') ∧
      (r ≠ .ok () → ∃ e, r = .err e) := by
  obtain ⟨k, hk⟩ := inv_run hL hN h
  by_cases hf : Label.ioFault ∈ ls
  · obtain ⟨e, he⟩ := final_fault hk hm hf
    subst he
    simp [hf]
  · have hr := (Prod.mk.inj (final_no_fault hk hm hf)).2
    refine ⟨?_, ?_⟩
    · rw [hr, convertOutcome_ok, all_convert_iff]
      simp [hf]
    · intro hne
      rw [hr] at hne ⊢
      generalize chunks P.inputBufferSize data = cs at hne ⊢
      induction cs with
      | nil => exact absurd rfl hne
      | cons c cs ih =>
        rw [convertOutcome] at hne ⊢
        cases hc : P.conv.convert c with
        | ok c' => rw [hc] at hne; exact ih hne
        | err e => exact ⟨e, rfl⟩
        | panic => exact ⟨_, rfl⟩

/-- C19–C21 for executions without I/O failures: the output and the result are those of converting chunk after chunk in
one thread, whatever the interleaving and the read sizes - also if the converter fails. -/
theorem refines_sequential (hL : P.conv.Lawful) (hN : 0 < P.inputBufferSize) {r : Res Unit}
    (h : Run P (State.start data) ls s) (hm : s.returned r) (hf : Label.ioFault ∉ ls) :
    (s.written, r) = convertStream P.conv.convert P.inputBufferSize data := by
  obtain ⟨k, hk⟩ := inv_run hL hN h
  exact final_no_fault hk hm hf

/-- C22. In every reachable state that has not returned some thread can take a step that is neither a failure nor a
retry. -/
theorem pipeline_no_deadlock (hL : P.conv.Lawful) (hN : 0 < P.inputBufferSize) (h : Run P (State.start data) ls s)
    (hm : ∀ r, ¬ s.returned r) : ∃ l s', Step P s l s' ∧ l ≠ .eintr ∧ l ≠ .ioFault := by
  obtain ⟨k, hk⟩ := inv_run hL hN h
  exact no_deadlock hL hk hm

/-- C22. The number of steps, not counting retries of interrupted calls, is bounded by the sizes: at most a constant times
(bytes per chunk) per chunk. -/
theorem pipeline_terminates (hL : P.conv.Lawful) (hN : 0 < P.inputBufferSize) (h : Run P (State.start data) ls s) :
    progressSteps ls ≤ ((chunks P.inputBufferSize data).length + 1) *
      (2 * P.inputBufferSize + P.conv.outputAsize + 28) := by
  obtain ⟨k, hk, hb⟩ := run_bound hL hN h
  refine Nat.le_trans (Nat.le_trans (Nat.le_add_right _ _) hb) ?_
  simp only [rank, State.start, Nat.sub_zero]
  ring_nf
  omega

/-- C22. Every execution can be continued, without further failures, until the conversion returns. -/
theorem pipeline_can_finish (hL : P.conv.Lawful) (hN : 0 < P.inputBufferSize) (h : Run P (State.start data) ls s) :
    ∃ ls' s' r, Run P s ls' s' ∧ Label.ioFault ∉ ls' ∧ s'.returned r := by
  obtain ⟨k, hk⟩ := inv_run hL hN h
  exact can_finish hL hN _ ls s k hk (Nat.le_refl _)

/-- C23. At every moment at most six buffers exist, none was reallocated (its capacity is still the initial one and its
length fits), and the main thread has not panicked. -/
theorem six_buffers (hL : P.conv.Lawful) (hN : 0 < P.inputBufferSize) (h : Run P (State.start data) ls s) :
    s.held.length ≤ 6 ∧
      (∀ c ∈ s.held, c.cap = P.bufferCapacity ∧ c.buffer.length ≤ P.bufferCapacity) ∧ s.main ≠ .panicked := by
  obtain ⟨k, hk⟩ := inv_run hL hN h
  refine ⟨held_count hk, held_cap hL hN hk, fun hp => ?_⟩
  have := hk.main
  simp [MainInv, hp] at this

/-- C24. The `i`-th chunk handed to the converter has index `i`. -/
theorem chunks_numbered (hL : P.conv.Lawful) (hN : 0 < P.inputBufferSize) (h : Run P (State.start data) ls s) :
    ∀ (i : Nat) (c : Chunk), (converted ls)[i]? = some c → c.idx = i := by
  intro i c hc
  obtain ⟨t, ht⟩ := (chunking_schedule_independent hL hN h).1
  have : (chunks P.inputBufferSize data)[i]? = some c := by
    rw [← ht, List.getElem?_append_left (List.getElem?_eq_some_iff.mp hc).1]; exact hc
  have := chunksFrom_idx hN 0 data i c this
  omega

/-- C25. On success the progress callback was given counts that add up to the size of the input. (A count whose
subtraction underflows is a panic of the main thread, excluded by `six_buffers`.) -/
theorem progress_adds_up (hL : P.conv.Lawful) (hN : 0 < P.inputBufferSize) (h : Run P (State.start data) ls s)
    (hm : s.returned (.ok ())) : s.progress.sum = data.length := by
  obtain ⟨k, hk⟩ := inv_run hL hN h
  rw [(final_ok hk hm).2.2.2.1]
  have := congrArg List.length (bytesOf_chunksFrom hN 0 data)
  rw [bytesOf, List.length_flatten, List.map_map] at this
  exact this

/-- C105. At every moment, the counts passed to the progress callback so far are the sizes of the first chunks of the input, in order, and
the results of these chunks have been written. -/
theorem progress_is_written (hL : P.conv.Lawful) (hN : 0 < P.inputBufferSize) (h : Run P (State.start data) ls s) :
    ∃ k, s.progress = ((chunks P.inputBufferSize data).take k).map (·.buffer.length) ∧
      k ≤ (convertedPrefix P.conv.convert (chunks P.inputBufferSize data)).length ∧
      bytesOf ((convertedPrefix P.conv.convert (chunks P.inputBufferSize data)).take k) <+: s.written := by
  obtain ⟨k, hk⟩ := inv_run hL hN h
  obtain ⟨m, hm, hp⟩ := progress_of hk
  refine ⟨m, hp, ?_, (bytesOf_take_mono _ hm).trans (written_covers hk)⟩
  have h1 := hk.q2_le
  have h2 : k.w3 ≤ k.w2 := w3_le hk
  exact le_trans hm (le_trans h2 (le_trans h1.1 h1.2))

end

/-- The converters of the crypto code are lawful, so all of the above apply to encryption and decryption. -/
theorem codec_is_lawful_converter {codec : HeaderCrypto.Codec} (h : codec.crypto.Lawful) :
    (Converter.ofCodec codec).Lawful := ofCodec_lawful h

/-! ### Concrete cases: encrypting five bytes in chunks of two, and decrypting a stream whose last chunk is too short -/

/-- Encrypting with the toy primitives, chunk size 2. -/
def samplePipe : Params := ⟨Converter.ofCodec ⟨Toy.crypto, [1, 2, 3], [4, 5], true⟩, 2⟩

theorem samplePipe_lawful : samplePipe.conv.Lawful := ofCodec_lawful Toy.lawful

/-- There is a complete successful execution, it writes 5 + 3·16 bytes (C17–C20, C24, C25 are not vacuous). -/
example : ∃ ls s, Run samplePipe (State.start [10, 20, 30, 40, 50]) ls s ∧ s.returned (.ok ()) ∧
    s.written.length = 53 ∧ (converted ls).length = 3 := by
  obtain ⟨ls', s', r, h, hf, hm⟩ := pipeline_can_finish samplePipe_lawful (by decide)
    (Run.refl (P := samplePipe) (s := State.start [10, 20, 30, 40, 50]))
  have he := refines_sequential samplePipe_lawful (by decide) h hm hf
  have hr := (Prod.mk.inj he).2
  have hw := (Prod.mk.inj he).1
  have hok : convertOutcome samplePipe.conv.convert (chunks samplePipe.inputBufferSize [10, 20, 30, 40, 50])
      = .ok () := by decide +kernel
  rw [hok] at hr
  subst hr
  refine ⟨ls', s', h, hm, ?_, ?_⟩
  · rw [hw]; decide +kernel
  · rw [(chunking_schedule_independent samplePipe_lawful (by decide) h).2 hm]; decide +kernel

/-- An execution with a failed `read` (the hypothesis `ioFault ∈ ls` of C21 can be met). -/
example : ∃ s, Run samplePipe (State.start [10, 20]) [.tau, .tau, .ioFault] s :=
  ⟨_, .step _ _ _ _ (.step _ _ _ _ (.step [] _ _ _ .refl
      (.mainInit _ 0 rfl (by decide)))
      (.readerRecv _ (freshChunk samplePipe 0) [] rfl rfl))
      (.readFault _ _ _ rfl (by decide))⟩

/-- Decrypting with the toy primitives. -/
def samplePipeDec : Params := ⟨Converter.ofCodec ⟨Toy.crypto, [1, 2, 3], [4, 5], false⟩, 8⟩

/-- The codec thread panics on a last chunk of fewer than 16 bytes; the conversion returns an error in every execution
(C21). -/
example {ls : List Label} {s : State} {r : Res Unit} (h : Run samplePipeDec (State.start [1, 2, 3]) ls s)
    (hm : s.returned r) (hf : Label.ioFault ∉ ls) : r = .err .threadPanic ∧ s.written = [] := by
  have he := refines_sequential (ofCodec_lawful Toy.lawful) (by decide) h hm hf
  have hs : convertStream samplePipeDec.conv.convert samplePipeDec.inputBufferSize [1, 2, 3]
      = ([], .err .threadPanic) := by decide +kernel
  rw [hs] at he
  exact ⟨(Prod.mk.inj he).2, (Prod.mk.inj he).1⟩

end Rypt.Props
