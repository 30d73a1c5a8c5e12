import Verif.Proofs.Pipeline

/-! Consequences of the pipeline invariant: the final state, absence of deadlock, a bound on the number of steps. -/

namespace Rypt.Pipeline

open Spec

section

variable {P : Params} {data : Bytes} {ls : List Label} {s : State} {k : Counts}

theorem slice_nil_le {α : Type} {l : List α} {a b : Nat} (h : (l.take b).drop a = []) (hb : b ≤ l.length) : b ≤ a := by
  have hl := congrArg List.length h
  simp only [List.length_nil, List.length_drop, List.length_take] at hl
  omega

/-- How the three threads can have ended. -/
theorem final_cases (h : Inv P data ls s k) {r : Res Unit} (hm : s.main = .done r) :
    ∃ er ec ew, s.reader = .done er ∧ s.codec = .done ec ∧ s.writer = .done ew ∧ r = joinResults [er, ec, ew] ∧
      s.q3 = [] ∧ s.progress = ((theChunks P data).take k.m3).map (·.buffer.length) := by
  have hmi := h.main
  simp only [MainInv, hm] at hmi
  obtain ⟨-, b, c, er, ec, ew, d, e, f, g⟩ := hmi
  exact ⟨er, ec, ew, d, e, f, g, b, c⟩

/-- If the writer ended well and the codec ended well, everything was read, converted and written. -/
theorem final_complete (h : Inv P data ls s k) {er : Exit} (hr : s.reader = .done er) (hc : s.codec = .done .ok)
    (hw : s.writer = .done .ok) (hne : ∀ x, er ≠ .err x) (h3 : s.q3 = []) :
    er = .ok ∧ s.written = bytesOf (theOuts P data) ∧ (theOuts P data).length = (theChunks P data).length ∧
      s.flushed = true ∧ k.m3 = (theChunks P data).length := by
  have hri := h.reader
  have hci := h.codec
  have hwi := h.writer
  simp only [ReaderInv, hr] at hri
  simp only [CodecInv, hc] at hci
  simp only [WriterInv, hw] at hwi
  have hcf : s.codecFailed = false := by simp [State.codecFailed, hc]
  have hf : s.failed = false := by simp [State.failed, State.codecFailed, State.writerFailed, hc, hw]
  have her : er = .ok := by
    cases er with
    | ok => rfl
    | sendError => have := hri.2.2.2.1 rfl; rw [hcf] at this; cases this
    | err x => exact absurd rfl (hne x)
    | panic => exact absurd rfl hri.2.2.2.2.1
  have hr1 : k.r1 = (theChunks P data).length := by
    rcases hri.2.2.1 her with hx | hx
    · rw [hf] at hx; cases hx
    · exact hx
  obtain ⟨hc12, -, hq1⟩ := hci.2.2.1 trivial
  obtain ⟨hw23, -, hq2, hwr, hfl⟩ := hwi.2.2.2.1 trivial
  have e1 := h.q1_eq
  rw [hq1] at e1
  have e1 := slice_nil_le e1.symm h.q1_le.2
  have e2 := h.q2_eq
  rw [hq2] at e2
  have e2 := slice_nil_le e2.symm h.q2_le.2
  have hle : (theOuts P data).length ≤ _ := convertedPrefix_length_le P.conv.convert (theChunks P data)
  have l1 := h.q1_le
  have l2 := h.q2_le
  have e3 := h.q3_eq
  rw [h3] at e3
  have e3 := slice_nil_le e3.symm (by omega)
  have l3 := h.q3_le
  refine ⟨her, ?_, by omega, hfl (by omega), by omega⟩
  rw [hwr, List.take_of_length_le (by omega)]

/-- The final state of an execution without I/O faults. -/
theorem final_no_fault (h : Inv P data ls s k) {r : Res Unit} (hm : s.main = .done r) (hnf : Label.ioFault ∉ ls) :
    (s.written, r) = convertStream P.conv.convert P.inputBufferSize data := by
  obtain ⟨er, ec, ew, hr, hc, hw, hres, h3, hp⟩ := final_cases h hm
  have hfa := mt h.faults.mpr hnf
  have hne : ∀ x, er ≠ .err x := fun x hx => hfa (Or.inl ⟨x, by rw [hr, hx]⟩)
  have hwi := h.writer
  simp only [WriterInv, hw] at hwi
  have hew : ew = .ok := by
    cases ew with
    | ok => rfl
    | sendError => exact absurd rfl hwi.2.2.2.2.1
    | panic => exact absurd rfl hwi.2.2.2.2.2.1
    | err x => exact absurd (Or.inr ⟨x, hw⟩) hfa
  subst hew
  have hci := h.codec
  simp only [CodecInv, hc] at hci
  have hri := h.reader
  simp only [ReaderInv, hr] at hri
  have hstop : ∀ x, (theChunks P data)[k.c2]? = some x → (∀ y, P.conv.convert x ≠ .ok y) →
      s.written = bytesOf (theOuts P data) ∧ (theOuts P data).length = k.c2 := by
    intro x hx hy
    have hl : (theOuts P data).length = _ := convertedPrefix_stop h.q2_le.2 hx hy
    obtain ⟨hw23, -, hq2, hwr, hfl⟩ := hwi.2.2.2.1 rfl
    have e2 := h.q2_eq
    rw [hq2] at e2
    have e2 := slice_nil_le e2.symm h.q2_le.2
    exact ⟨by rw [hwr, List.take_of_length_le (by omega)], hl⟩
  have hjoin : ∀ e, ec = e → r = joinResults [e] := by
    intro e he
    subst he
    rw [hres]
    cases er with
    | ok => cases ec <;> simp [joinResults]
    | sendError => cases ec <;> simp [joinResults]
    | err x => exact absurd rfl (hne x)
    | panic => exact absurd rfl hri.2.2.2.2.1
  unfold convertStream
  cases ec with
  | ok =>
    obtain ⟨-, h1, h2, -⟩ := final_complete h hr hc hw hne h3
    rw [h1, hjoin _ rfl, convertOutcome_ok.mpr h2]
    rfl
  | sendError =>
    have := hci.2.2.2.1 rfl
    simp [State.writerFailed, hw] at this
  | err x =>
    obtain ⟨c, hcx, hcc⟩ := hci.2.2.2.2.1 x rfl
    obtain ⟨h1, h2⟩ := hstop c hcx (by simp [hcc])
    rw [h1, hjoin _ rfl, convertOutcome_stop h2 hcx, hcc]
    rfl
  | panic =>
    obtain ⟨c, hcx, hcc⟩ := hci.2.2.2.2.2 rfl
    obtain ⟨h1, h2⟩ := hstop c hcx (by simp [hcc])
    rw [h1, hjoin _ rfl, convertOutcome_stop h2 hcx, hcc]
    rfl

theorem joinResults_err {a b c : Exit} (h : (∃ e, a = .err e) ∨ (∃ e, c = .err e)) :
    joinResults [a, b, c] ≠ .ok () := by
  rcases h with ⟨e, rfl⟩ | ⟨e, rfl⟩
  · simp [joinResults]
  · cases a <;> cases b <;> simp [joinResults]

/-- An I/O fault makes the conversion fail. -/
theorem final_fault (h : Inv P data ls s k) {r : Res Unit} (hm : s.main = .done r) (hf : Label.ioFault ∈ ls) :
    ∃ e, r = .err e := by
  obtain ⟨er, ec, ew, hr, hc, hw, hres, h3, hp⟩ := final_cases h hm
  have : r ≠ .ok () := by
    rw [hres]
    apply joinResults_err
    rcases h.faults.mp hf with ⟨e, he⟩ | ⟨e, he⟩
    · rw [hr] at he; injection he with he; exact Or.inl ⟨e, he⟩
    · rw [hw] at he; injection he with he; exact Or.inr ⟨e, he⟩
  cases r with
  | ok u => cases u; exact absurd rfl this
  | err e => exact ⟨e, rfl⟩
  | panic =>
    exfalso
    revert hres
    cases er <;> cases ec <;> cases ew <;> simp [joinResults]

/-- The state after success. -/
theorem final_ok (h : Inv P data ls s k) (hm : s.main = .done (.ok ())) :
    s.written = bytesOf (theOuts P data) ∧ (theOuts P data).length = (theChunks P data).length ∧
      s.flushed = true ∧ s.progress = (theChunks P data).map (·.buffer.length) ∧
      converted ls = theChunks P data ∧ Label.ioFault ∉ ls := by
  have hnf : Label.ioFault ∉ ls := by
    intro hf
    obtain ⟨e, he⟩ := final_fault h hm hf
    cases he
  obtain ⟨er, ec, ew, hr, hc, hw, hres, h3, hp⟩ := final_cases h hm
  have hfa := mt h.faults.mpr hnf
  have hne : ∀ x, er ≠ .err x := fun x hx => hfa (Or.inl ⟨x, by rw [hr, hx]⟩)
  have hwi := h.writer
  simp only [WriterInv, hw] at hwi
  have hew : ew = .ok := by
    cases ew with
    | ok => rfl
    | sendError => exact absurd rfl hwi.2.2.2.2.1
    | panic => exact absurd rfl hwi.2.2.2.2.2.1
    | err x => exact absurd (Or.inr ⟨x, hw⟩) hfa
  subst hew
  have hri := h.reader
  simp only [ReaderInv, hr] at hri
  have hci := h.codec
  simp only [CodecInv, hc] at hci
  have hec : ec = .ok := by
    cases ec with
    | ok => rfl
    | sendError =>
      have := hci.2.2.2.1 rfl
      simp [State.writerFailed, hw] at this
    | err x =>
      exfalso
      cases er with
      | ok => simp [joinResults] at hres
      | sendError => simp [joinResults] at hres
      | err x => simp [joinResults] at hres
      | panic => simp [joinResults] at hres
    | panic =>
      exfalso
      cases er with
      | ok => simp [joinResults] at hres
      | sendError => simp [joinResults] at hres
      | err x => simp [joinResults] at hres
      | panic => simp [joinResults] at hres
  subst hec
  obtain ⟨-, h1, h2, h4, h5⟩ := final_complete h hr hc hw hne h3
  refine ⟨h1, h2, h4, ?_, ?_, hnf⟩
  · rw [hp, List.take_of_length_le (by omega)]
  · have hcc := hci.2.2.1 rfl
    have := h.q3_le
    have hl2 := h.q2_le
    have hw' := hwi.2.2.2.1 rfl
    rw [h.trace, List.take_of_length_le]
    simp only [nConverted, hc]
    omega

/-! ### No deadlock -/

theorem no_deadlock (hL : P.conv.Lawful) (h : Inv P data ls s k)
    (hm : ∀ r, s.main ≠ .done r) : ∃ l s', Step P s l s' ∧ l ≠ .eintr ∧ l ≠ .ioFault := by
  have converting : ∀ c, s.codec = .converting c → ∃ l s', Step P s l s' ∧ l ≠ .eintr ∧ l ≠ .ioFault := by
    intro c hc
    cases hx : P.conv.convert c.toChunk with
    | ok c' => exact ⟨_, _, .convertOk s c c' hc hx, by simp, by simp⟩
    | err e => exact ⟨_, _, .convertErr s c e hc hx, by simp, by simp⟩
    | panic => exact ⟨_, _, .convertPanic s c hc hx, by simp, by simp⟩
  have reading : ∀ c ptr, s.reader = .reading c ptr → ∃ l s', Step P s l s' ∧ l ≠ .eintr ∧ l ≠ .ioFault := by
    intro c ptr hr
    by_cases hp : ptr < c.buffer.length
    · cases hi : s.input with
      | nil => exact ⟨_, _, .readEof s c ptr hr hp hi, by simp, by simp⟩
      | cons b bs =>
        exact ⟨_, _, .readSome s c ptr 1 hr hp (by omega) (by omega) (by simp [hi]), by simp, by simp⟩
    · exact ⟨_, _, .readFull s c ptr hr hp, by simp, by simp⟩
  have hmi := h.main
  have hci := h.codec
  have hri := h.reader
  have hwi := h.writer
  cases hmain : s.main with
  | init j =>
    by_cases hj : j < NUM_CHUNKS_IN_PIPELINE
    · exact ⟨_, _, .mainInit s j hmain hj, by simp, by simp⟩
    · exact ⟨_, _, .mainStart s j hmain hj, by simp, by simp⟩
  | got c =>
    obtain ⟨x, hx, hw, ho, hg⟩ := got_facts hL h hmain
    exact ⟨_, _, .mainResend s c hmain ho hg, by simp, by simp⟩
  | done r => exact absurd hmain (hm r)
  | panicked => simp [MainInv, hmain] at hmi
  | loop =>
    have hml : s.mainLeft = false := by simp [State.mainLeft, hmain]
    simp only [MainInv, hmain] at hmi
    cases hq3 : s.q3 with
    | cons c rest => exact ⟨_, _, .mainRecv s c rest hmain hq3, by simp, by simp⟩
    | nil =>
    cases hw : s.writer with
    | done e => exact ⟨_, _, .mainLeave s hmain hq3 (by simp [State.writerDone, hw]), by simp, by simp⟩
    | writing c ptr =>
      by_cases hp : ptr < c.buffer.length
      · exact ⟨_, _, .writeSome s c ptr 1 hw (by omega) (by omega), by simp, by simp⟩
      · exact ⟨_, _, .writeDone s c ptr hw hp, by simp, by simp⟩
    | flushing c => exact ⟨_, _, .flush s c hw, by simp, by simp⟩
    | sending c => exact ⟨_, _, .writerSend s c hw hml, by simp, by simp⟩
    | recv =>
    have hwd : s.writerDone = false := by simp [State.writerDone, hw]
    cases hq2 : s.q2 with
    | cons c rest => exact ⟨_, _, .writerRecv s c rest hw hq2, by simp, by simp⟩
    | nil =>
    cases hc : s.codec with
    | done e => exact ⟨_, _, .writerClosed s hw hq2 (by simp [State.codecDone, hc]), by simp, by simp⟩
    | converting c => exact converting c hc
    | sending c => exact ⟨_, _, .codecSend s c hc hwd hq2, by simp, by simp⟩
    | recv =>
    have hcd : s.codecDone = false := by simp [State.codecDone, hc]
    cases hq1 : s.q1 with
    | cons c rest => exact ⟨_, _, .codecRecv s c rest hc hq1, by simp, by simp⟩
    | nil =>
    cases hr : s.reader with
    | done e => exact ⟨_, _, .codecClosed s hc hq1 (by simp [State.readerDone, hr]), by simp, by simp⟩
    | reading c ptr => exact reading c ptr hr
    | sending c last => exact ⟨_, _, .readerSend s c last hr hcd hq1, by simp, by simp⟩
    | recv =>
    cases hq0 : s.q0 with
    | cons c rest => exact ⟨_, _, .readerRecv s c rest hr hq0, by simp, by simp⟩
    | nil =>
      exfalso
      have := h.q0_len (by simp [State.readerDone, hr])
      rw [hq0] at this
      simp only [ReaderInv, hr] at hri
      simp only [CodecInv, hc] at hci
      simp only [WriterInv, hw] at hwi
      have e1 := h.q1_eq
      rw [hq1] at e1
      have e1 := slice_nil_le e1.symm h.q1_le.2
      have e2 := h.q2_eq
      rw [hq2] at e2
      have e2 := slice_nil_le e2.symm h.q2_le.2
      have e3 := h.q3_eq
      have l2 := h.q2_le
      rw [hq3] at e3
      have e3 := slice_nil_le e3.symm (by omega)
      simp at this
      omega
  | joining =>
    have hml : s.mainLeft = true := by simp [State.mainLeft, hmain]
    obtain ⟨ew, hw⟩ := mainLeft_done h hml
    have hwd : s.writerDone = true := by simp [State.writerDone, hw]
    have codecStep : s.codecDone = false → s.q1 ≠ [] ∨ s.readerDone = true →
        ∃ l s', Step P s l s' ∧ l ≠ .eintr ∧ l ≠ .ioFault := by
      intro hcd hor
      cases hc : s.codec with
      | done e => simp [State.codecDone, hc] at hcd
      | converting c => exact converting c hc
      | sending c => exact ⟨_, _, .codecSendError s c hc hwd, by simp, by simp⟩
      | recv =>
        cases hq1 : s.q1 with
        | cons c rest => exact ⟨_, _, .codecRecv s c rest hc hq1, by simp, by simp⟩
        | nil =>
          rcases hor with hne | hd
          · exact absurd hq1 hne
          · exact ⟨_, _, .codecClosed s hc hq1 hd, by simp, by simp⟩
    cases hr : s.reader with
    | reading c ptr => exact reading c ptr hr
    | recv =>
      cases hq0 : s.q0 with
      | cons c rest => exact ⟨_, _, .readerRecv s c rest hr hq0, by simp, by simp⟩
      | nil => exact ⟨_, _, .readerClosed s hr hq0 hml, by simp, by simp⟩
    | sending c last =>
      cases hcd : s.codecDone with
      | true => exact ⟨_, _, .readerSendError s c last hr hcd, by simp, by simp⟩
      | false =>
        by_cases hq1 : s.q1 = []
        · exact ⟨_, _, .readerSend s c last hr hcd hq1, by simp, by simp⟩
        · exact codecStep hcd (Or.inl hq1)
    | done er =>
      cases hcd : s.codecDone with
      | false => exact codecStep hcd (Or.inr (by simp [State.readerDone, hr]))
      | true =>
        unfold State.codecDone at hcd
        cases hc : s.codec with
        | done ec => exact ⟨_, _, .mainJoin s er ec ew hmain hr hc hw, by simp, by simp⟩
        | _ => simp [hc] at hcd

/-! ### A bound on the number of steps -/

/-- Decreases with every step other than a retry of an interrupted call. `T` chunks, `N` bytes per input chunk, `M` per
output chunk. -/
def rank (T N M : Nat) (s : State) (k : Counts) : Nat :=
  ((T - k.r1) * (N + 10) + match s.reader with
    | .recv => N + 5
    | .reading _ ptr => N + 1 - ptr + 3
    | .sending _ _ => 2
    | .done _ => 0) +
  ((T - k.c2) * 5 + match s.codec with
    | .recv => 3
    | .converting _ => 2
    | .sending _ => 1
    | .done _ => 0) +
  ((T - k.w3) * (M + 10) + match s.writer with
    | .recv => M + 6
    | .writing c ptr => c.buffer.length - ptr + 4
    | .flushing _ => 3
    | .sending _ => 2
    | .done _ => 0) +
  ((T - k.m3) * 3 + match s.main with
    | .init j => 6 - j + 4
    | .loop => 3
    | .got _ => 4
    | .joining => 1
    | .done _ => 0
    | .panicked => 0)

theorem sub_mul_succ {T r : Nat} (c : Nat) (h : r < T) : (T - r) * c = (T - (r + 1)) * c + c := by
  have : T - r = T - (r + 1) + 1 := by omega
  rw [this, Nat.add_mul]; simp

/-- Every transition preserves the invariant and, unless a call was interrupted, decreases the rank. -/
theorem inv_step_rank (hL : P.conv.Lawful) (hN : 0 < P.inputBufferSize) {s' : State} {l : Label}
    (h : Inv P data ls s k) (hs : Step P s l s') :
    ∃ k', Inv P data (ls ++ [l]) s' k' ∧ (l ≠ .eintr →
      rank (theChunks P data).length P.inputBufferSize (P.inputBufferSize + P.conv.outputAsize) s' k' <
      rank (theChunks P data).length P.inputBufferSize (P.inputBufferSize + P.conv.outputAsize) s k) := by
  have hmi := h.main
  have hci := h.codec
  have hri := h.reader
  have hwi := h.writer
  have hle : (theOuts P data).length ≤ (theChunks P data).length :=
    convertedPrefix_length_le P.conv.convert (theChunks P data)
  have q1l := h.q1_le
  have q2l := h.q2_le
  have q3l := h.q3_le
  have hout : ∀ (i : Nat) (c : PChunk), (theOuts P data)[i]? = some c.toChunk →
      c.buffer.length ≤ P.inputBufferSize + P.conv.outputAsize ∧ i < (theOuts P data).length := by
    intro i c hc
    obtain ⟨x, hx, hxc⟩ := convertedPrefix_get _ _ _ _ hc
    have h1 : c.buffer.length + _ = _ := hL.size _ _ hxc
    have h2 := (chunksFrom_layout hN 0 data _ _ hx).1
    exact ⟨by omega, (List.getElem?_eq_some_iff.mp hc).1⟩
  cases hs with
  | readerRecv c rest h1 h2 =>
    refine ⟨_, step_readerRecv hN h h1 h2, fun _ => ?_⟩
    simp only [rank, h1]; omega
  | readerClosed h1 h2 h3 =>
    refine ⟨_, inv_readerClosed h h1 h3, fun _ => ?_⟩
    simp only [rank, h1]; omega
  | readSome c ptr n h1 h2 h3 h4 h5 =>
    refine ⟨_, inv_readSome h h1 h4 h5 h2, fun _ => ?_⟩
    simp only [ReaderInv, h1] at hri
    simp only [rank, h1]; omega
  | readEof c ptr h1 h2 h3 =>
    refine ⟨_, inv_readEof h h1 h2 h3, fun _ => ?_⟩
    simp only [rank, h1]; omega
  | readEintr c ptr h1 h2 => exact ⟨_, inv_eintr h, fun hx => absurd rfl hx⟩
  | readFault c ptr h1 h2 =>
    refine ⟨_, inv_readFault h h1, fun _ => ?_⟩
    simp only [rank, h1]; omega
  | readFull c ptr h1 h2 =>
    refine ⟨_, inv_readFull hN h h1 h2, fun _ => ?_⟩
    simp only [rank, h1]; omega
  | readerSend c last h1 h2 h3 =>
    have hi := inv_readerSend h h1 h2 h3
    refine ⟨_, hi, fun _ => ?_⟩
    have := hi.q1_le.2
    simp only at this
    have := sub_mul_succ (P.inputBufferSize + 10) (show k.r1 < (theChunks P data).length by omega)
    cases last <;> simp only [rank, h1, Bool.false_eq_true, if_true, if_false] <;> omega
  | readerSendError c last h1 h2 =>
    refine ⟨_, inv_readerSendError h h1 h2, fun _ => ?_⟩
    simp only [rank, h1]; omega
  | codecRecv c rest h1 h2 =>
    refine ⟨_, inv_codecRecv h h1 h2, fun _ => ?_⟩
    simp only [rank, h1]; omega
  | codecClosed h1 h2 h3 =>
    refine ⟨_, inv_codecClosed h h1 h2 h3, fun _ => ?_⟩
    simp only [rank, h1]; omega
  | convertOk c c' h1 h2 =>
    refine ⟨_, inv_convertOk hL hN h h1 h2, fun _ => ?_⟩
    simp only [rank, h1]; omega
  | convertErr c e h1 h2 =>
    refine ⟨_, inv_convertErr h h1 h2, fun _ => ?_⟩
    simp only [rank, h1]; omega
  | convertPanic c h1 h2 =>
    refine ⟨_, inv_convertPanic h h1 h2, fun _ => ?_⟩
    simp only [rank, h1]; omega
  | codecSend c h1 h2 h3 =>
    refine ⟨_, inv_codecSend h h1 h2 h3, fun _ => ?_⟩
    simp only [CodecInv, h1] at hci
    have := (hout _ _ hci.2.1).2
    simp only [rank, h1]; omega
  | codecSendError c h1 h2 =>
    refine ⟨_, inv_codecSendError h h1 h2, fun _ => ?_⟩
    simp only [rank, h1]; omega
  | writerRecv c rest h1 h2 =>
    have hi := inv_writerRecv h h1 h2
    refine ⟨_, hi, fun _ => ?_⟩
    have hw := hi.writer
    simp only [WriterInv] at hw
    have := (hout _ _ hw.2.1).1
    simp only [rank, h1]; omega
  | writerClosed h1 h2 h3 =>
    refine ⟨_, inv_writerClosed h h1 h2 h3, fun _ => ?_⟩
    simp only [rank, h1]; omega
  | writeSome c ptr n h1 h2 h3 =>
    refine ⟨_, inv_writeSome h h1 h3, fun _ => ?_⟩
    simp only [rank, h1]; omega
  | writeEintr c ptr h1 h2 => exact ⟨_, inv_eintr h, fun hx => absurd rfl hx⟩
  | writeFault c ptr h1 h2 =>
    refine ⟨_, inv_writeFault h h1, fun _ => ?_⟩
    simp only [rank, h1]; omega
  | writeDone c ptr h1 h2 =>
    refine ⟨_, inv_writeDone hL hN h h1 h2, fun _ => ?_⟩
    cases hl : c.isLast <;> simp only [rank, h1, Bool.false_eq_true, if_true, if_false] <;> omega
  | flush c h1 =>
    refine ⟨_, inv_flush h h1, fun _ => ?_⟩
    simp only [rank, h1]; omega
  | flushFault c h1 =>
    refine ⟨_, inv_flushFault h h1, fun _ => ?_⟩
    simp only [rank, h1]; omega
  | writerSend c h1 h2 =>
    refine ⟨_, inv_writerSend h h1 h2, fun _ => ?_⟩
    simp only [WriterInv, h1] at hwi
    have := (hout _ _ hwi.2.1).2
    have := sub_mul_succ (P.inputBufferSize + P.conv.outputAsize + 10)
      (show k.w3 < (theChunks P data).length by omega)
    simp only [rank, h1]; omega
  | writerSendError c h1 h2 =>
    obtain ⟨e, he⟩ := mainLeft_done h h2
    rw [he] at h1; cases h1
  | mainInit j h1 h2 =>
    refine ⟨_, inv_mainInit h h1 h2, fun _ => ?_⟩
    unfold NUM_CHUNKS_IN_PIPELINE at h2
    simp only [rank, h1]; omega
  | mainStart j h1 h2 =>
    refine ⟨_, inv_mainStart h h1 h2, fun _ => ?_⟩
    simp only [rank, h1]; omega
  | mainRecv c rest h1 h2 =>
    have hi := inv_mainRecv h h1 h2
    refine ⟨_, hi, fun _ => ?_⟩
    have hw := hi.main
    simp only [MainInv] at hw
    have := (hout _ _ hw.2.2.1).2
    simp only [rank, h1]; omega
  | mainResend c h1 h2 h3 =>
    refine ⟨_, inv_mainResend hL h h1, fun _ => ?_⟩
    simp only [rank, h1]; omega
  | mainPanic c h1 h2 => exact (inv_mainPanic hL h h1 h2).elim
  | mainLeave h1 h2 h3 =>
    refine ⟨_, inv_mainLeave h h1 h2 h3, fun _ => ?_⟩
    simp only [rank, h1]; omega
  | mainJoin r c w h1 h2 h3 h4 =>
    refine ⟨_, inv_mainJoin h h1 h2 h3 h4, fun _ => ?_⟩
    simp only [rank, h1]; omega

theorem run_bound (hL : P.conv.Lawful) (hN : 0 < P.inputBufferSize) (h : Run P (State.start data) ls s) :
    ∃ k, Inv P data ls s k ∧
      progressSteps ls +
        rank (theChunks P data).length P.inputBufferSize (P.inputBufferSize + P.conv.outputAsize) s k ≤
        rank (theChunks P data).length P.inputBufferSize (P.inputBufferSize + P.conv.outputAsize)
          (State.start data) ⟨0, 0, 0, 0, 0, 0, 0⟩ := by
  induction h with
  | refl => exact ⟨_, inv_start P data, by simp [progressSteps]⟩
  | step ls t l u _ hs ih =>
    obtain ⟨k, hk, hb⟩ := ih
    unfold progressSteps at hb ⊢
    rw [List.filter_append, List.length_append]
    by_cases hl : l = .eintr
    · subst hl
      have hu : u = t := by cases hs <;> rfl
      subst hu
      exact ⟨k, inv_eintr hk, by simpa using hb⟩
    · obtain ⟨k', hk', hr⟩ := inv_step_rank hL hN hk hs
      have := hr hl
      refine ⟨k', hk', ?_⟩
      have h1 : ([l].filter (· ≠ .eintr)).length = 1 := by simp [hl]
      rw [h1]
      omega

/-- A run can always be completed without faults. -/
theorem can_finish (hL : P.conv.Lawful) (hN : 0 < P.inputBufferSize) (n : Nat) :
    ∀ (ls : List Label) (s : State) (k : Counts), Inv P data ls s k →
      rank (theChunks P data).length P.inputBufferSize (P.inputBufferSize + P.conv.outputAsize) s k ≤ n →
      ∃ ls' s' r, Run P s ls' s' ∧ Label.ioFault ∉ ls' ∧ s'.main = .done r := by
  induction n with
  | zero =>
    intro ls s k h hr
    by_cases hd : ∃ r, s.main = .done r
    · obtain ⟨r, hd⟩ := hd
      exact ⟨[], s, r, .refl, by simp, hd⟩
    · obtain ⟨l, s', hs, hl, hf⟩ := no_deadlock hL h (fun r hr => hd ⟨r, hr⟩)
      obtain ⟨k', hk', hlt⟩ := inv_step_rank hL hN h hs
      have := hlt hl
      omega
  | succ n ih =>
    intro ls s k h hr
    by_cases hd : ∃ r, s.main = .done r
    · obtain ⟨r, hd⟩ := hd
      exact ⟨[], s, r, .refl, by simp, hd⟩
    · obtain ⟨l, s', hs, hl, hf⟩ := no_deadlock hL h (fun r hr => hd ⟨r, hr⟩)
      obtain ⟨k', hk', hlt⟩ := inv_step_rank hL hN h hs
      have := hlt hl
      obtain ⟨ls', s'', r, hrun, hnf, hm⟩ := ih _ _ _ hk' (by omega)
      refine ⟨l :: ls', s'', r, ?_, by simp [hnf, Ne.symm hf], hm⟩
      clear hm hnf ih hk' hlt
      induction hrun with
      | refl => exact .step [] s l s' .refl hs
      | step ls t l' u _ hstep ih => exact .step (l :: ls) t l' u ih hstep

/-! ### Buffers -/

theorem held_count (h : Inv P data ls s k) : s.held.length ≤ 6 := by
  have hmi := h.main
  have hci := h.codec
  have hri := h.reader
  have hwi := h.writer
  have l1 := congrArg List.length h.q1_eq
  have l2 := congrArg List.length h.q2_eq
  have l3 := congrArg List.length h.q3_eq
  simp only [List.length_map, List.length_drop, List.length_take] at l1 l2 l3
  have q0l := h.q0_len'
  have q1l := h.q1_le
  have q2l := h.q2_le
  have q3l := h.q3_le
  have r : s.reader.held.length + k.r1 ≤ k.r0 := by
    cases hs : s.reader <;> simp only [hs, ReaderInv] at hri <;> simp [ReaderPc.held] <;> omega
  have c : s.codec.held.length + k.c2 ≤ k.c1 := by
    cases hs : s.codec <;> simp only [hs, CodecInv] at hci <;> simp [CodecPc.held] <;> omega
  have w : s.writer.held.length + k.w3 ≤ k.w2 := by
    cases hs : s.writer <;> simp only [hs, WriterInv] at hwi <;> simp [WriterPc.held] <;> omega
  have m : s.nextIdx + s.main.held.length ≤ 6 + k.m3 := by
    cases hs : s.main <;> simp only [hs, MainInv] at hmi <;> simp [MainPc.held] <;> omega
  simp only [State.held, List.length_append]
  omega

theorem held_cap (hL : P.conv.Lawful) (hN : 0 < P.inputBufferSize) (h : Inv P data ls s k) :
    ∀ c ∈ s.held, c.cap = P.bufferCapacity ∧ c.buffer.length ≤ P.bufferCapacity := by
  have hmi := h.main
  have hci := h.codec
  have hri := h.reader
  have hwi := h.writer
  have hcap := inputBufferSize_lt P
  have hin : ∀ (i : Nat) (c : Chunk), (theChunks P data)[i]? = some c → c.buffer.length ≤ P.bufferCapacity := by
    intro i c hc
    have := (chunksFrom_layout hN 0 data _ _ hc).1
    omega
  have hout : ∀ (i : Nat) (c : Chunk), (theOuts P data)[i]? = some c →
      c.buffer.length ≤ P.bufferCapacity := by
    intro i c hc
    obtain ⟨x, hx, hxc⟩ := convertedPrefix_get _ _ _ _ hc
    have h1 := hL.size _ _ hxc
    have h2 := (chunksFrom_layout hN 0 data _ _ hx).1
    unfold Params.inputBufferSize at h2
    unfold Params.bufferCapacity
    omega
  have hslice : ∀ (q : List PChunk) (l : List Chunk) (a b : Nat), q.map PChunk.toChunk = (l.take b).drop a →
      ∀ c ∈ q, ∃ i : Nat, l[i]? = some c.toChunk := by
    intro q l a b he c hc
    have : c.toChunk ∈ (l.take b).drop a := by rw [← he]; exact List.mem_map_of_mem hc
    have := List.mem_of_mem_take (List.mem_of_mem_drop this)
    exact List.getElem?_of_mem this
  intro c hc
  simp only [State.held, List.mem_append] at hc
  rcases hc with ((((((hc | hc) | hc) | hc) | hc) | hc) | hc) | hc
  · obtain ⟨h1, h2⟩ := h.q0_buf c hc
    exact ⟨h2, by omega⟩
  · cases hs : s.reader with
    | reading x p =>
      simp only [hs, ReaderInv] at hri
      simp [hs, ReaderPc.held] at hc; subst hc
      exact ⟨hri.2.2.2.1, by omega⟩
    | sending x p =>
      simp only [hs, ReaderInv] at hri
      simp [hs, ReaderPc.held] at hc; subst hc
      refine ⟨hri.2.1, hin k.r1 c.toChunk ?_⟩
      have := congrArg (·[0]?) hri.2.2
      simpa using this
    | _ => simp [hs, ReaderPc.held] at hc
  · obtain ⟨i, hi⟩ := hslice _ _ _ _ h.q1_eq c hc
    exact ⟨h.q1_cap c hc, hin i _ hi⟩
  · cases hs : s.codec with
    | converting x =>
      simp only [hs, CodecInv] at hci
      simp [hs, CodecPc.held] at hc; subst hc
      exact ⟨hci.2.2, hin _ _ hci.2.1⟩
    | sending x =>
      simp only [hs, CodecInv] at hci
      simp [hs, CodecPc.held] at hc; subst hc
      exact ⟨hci.2.2, hout _ _ hci.2.1⟩
    | _ => simp [hs, CodecPc.held] at hc
  · obtain ⟨i, hi⟩ := hslice _ _ _ _ h.q2_eq c hc
    exact ⟨h.q2_cap c hc, hout i _ hi⟩
  · cases hs : s.writer with
    | writing x p =>
      simp only [hs, WriterInv] at hwi
      simp [hs, WriterPc.held] at hc; subst hc
      exact ⟨hwi.2.2.1, hout _ _ hwi.2.1⟩
    | flushing x =>
      simp only [hs, WriterInv] at hwi
      simp [hs, WriterPc.held] at hc; subst hc
      exact ⟨hwi.2.2.1, hout _ _ hwi.2.1⟩
    | sending x =>
      simp only [hs, WriterInv] at hwi
      simp [hs, WriterPc.held] at hc; subst hc
      exact ⟨hwi.2.2.1, hout _ _ hwi.2.1⟩
    | _ => simp [hs, WriterPc.held] at hc
  · obtain ⟨i, hi⟩ := hslice _ _ _ _ h.q3_eq c hc
    exact ⟨h.q3_cap c hc, hout i _ hi⟩
  · cases hs : s.main with
    | got x =>
      simp only [hs, MainInv] at hmi
      simp [hs, MainPc.held] at hc; subst hc
      exact ⟨hmi.2.2.2.1, hout _ _ hmi.2.2.1⟩
    | _ => simp [hs, MainPc.held] at hc

end

end Rypt.Pipeline
