import Verif.Spec.Pipeline
import Verif.Proofs.Chunking
import Mathlib.Tactic.Common

/-! The inductive invariant of the pipeline. -/

namespace Rypt.Pipeline

open Spec

/-- Numbers of chunks that have passed: taken from `q0`, put into `q1`, taken from `q1`, put into `q2`, taken from `q2`,
put into `q3`, taken from `q3`. -/
structure Counts where
  r0 : Nat
  r1 : Nat
  c1 : Nat
  c2 : Nat
  w2 : Nat
  w3 : Nat
  m3 : Nat

section

variable (P : Params) (data : Bytes)

/-- The codec thread ended, and not because its input ended. -/
def State.codecFailed (s : State) : Bool :=
  match s.codec with | .done .ok => false | .done _ => true | _ => false
/-- The writer thread ended, and not because its input ended. -/
def State.writerFailed (s : State) : Bool :=
  match s.writer with | .done .ok => false | .done _ => true | _ => false
def State.failed (s : State) : Bool := s.codecFailed || s.writerFailed

/-- The chunks of the input. -/
abbrev theChunks : List Chunk := chunks P.inputBufferSize data
/-- Their conversions, up to the first failure. -/
abbrev theOuts : List Chunk := convertedPrefix P.conv.convert (theChunks P data)

def ReaderInv (pc : ReaderPc) (lastByte : Option UInt8) (input : Bytes) (failed codecFailed : Bool)
    (r0 r1 : Nat) : Prop :=
  match pc with
  | .recv => r0 = r1 ∧ chunksFrom P.inputBufferSize r1 (lastByte.toList ++ input) = (theChunks P data).drop r1
  | .reading c ptr => r0 = r1 + 1 ∧ c.idx = r1 ∧ c.buffer.length = P.inputBufferSize + 1 ∧
      c.cap = P.bufferCapacity ∧ ptr ≤ P.inputBufferSize + 1 ∧
      chunksFrom P.inputBufferSize r1 (c.buffer.take ptr ++ input) = (theChunks P data).drop r1
  | .sending c last => r0 = r1 + 1 ∧ c.cap = P.bufferCapacity ∧
      (theChunks P data).drop r1 = c.toChunk ::
        (if last then [] else chunksFrom P.inputBufferSize (r1 + 1) (lastByte.toList ++ input))
  | .done e => r1 ≤ r0 ∧ r0 ≤ r1 + 1 ∧ (e = .ok → failed = true ∨ r1 = (theChunks P data).length) ∧
      (e = .sendError → codecFailed = true) ∧ e ≠ .panic ∧ (∀ x, e = .err x → x = .io)

def CodecInv (pc : CodecPc) (readerDone writerFailed : Bool) (q1 : List PChunk) (c1 c2 : Nat) : Prop :=
  match pc with
  | .recv => c1 = c2
  | .converting c => c1 = c2 + 1 ∧ (theChunks P data)[c2]? = some c.toChunk ∧ c.cap = P.bufferCapacity
  | .sending c => c1 = c2 + 1 ∧ (theOuts P data)[c2]? = some c.toChunk ∧ c.cap = P.bufferCapacity
  | .done e => c2 ≤ c1 ∧ c1 ≤ c2 + 1 ∧ (e = .ok → c1 = c2 ∧ readerDone = true ∧ q1 = []) ∧
      (e = .sendError → writerFailed = true) ∧
      (∀ x, e = .err x → ∃ c, (theChunks P data)[c2]? = some c ∧ P.conv.convert c = .err x) ∧
      (e = .panic → ∃ c, (theChunks P data)[c2]? = some c ∧ P.conv.convert c = .panic)

def WriterInv (pc : WriterPc) (written : Bytes) (flushed codecDone : Bool) (q2 : List PChunk) (w2 w3 : Nat) : Prop :=
  match pc with
  | .recv => w2 = w3 ∧ written = bytesOf ((theOuts P data).take w3) ∧
      (w3 = (theChunks P data).length → flushed = true)
  | .writing c ptr => w2 = w3 + 1 ∧ (theOuts P data)[w3]? = some c.toChunk ∧ c.cap = P.bufferCapacity ∧
      ptr ≤ c.buffer.length ∧ written = bytesOf ((theOuts P data).take w3) ++ c.buffer.take ptr
  | .flushing c => w2 = w3 + 1 ∧ (theOuts P data)[w3]? = some c.toChunk ∧ c.cap = P.bufferCapacity ∧
      written = bytesOf ((theOuts P data).take (w3 + 1))
  | .sending c => w2 = w3 + 1 ∧ (theOuts P data)[w3]? = some c.toChunk ∧ c.cap = P.bufferCapacity ∧
      written = bytesOf ((theOuts P data).take (w3 + 1)) ∧ (w3 + 1 = (theChunks P data).length → flushed = true)
  | .done e => w3 ≤ w2 ∧ w2 ≤ w3 + 1 ∧ written <+: bytesOf (theOuts P data) ∧
      (e = .ok → w2 = w3 ∧ codecDone = true ∧ q2 = [] ∧ written = bytesOf ((theOuts P data).take w3) ∧
        (w3 = (theChunks P data).length → flushed = true)) ∧
      e ≠ .sendError ∧ e ≠ .panic ∧ (∀ x, e = .err x → x = .io) ∧ bytesOf ((theOuts P data).take w3) <+: written

def MainInv (pc : MainPc) (reader : ReaderPc) (codec : CodecPc) (writer : WriterPc) (nextIdx : Nat)
    (q3 : List PChunk) (progress : List Nat) (m3 : Nat) : Prop :=
  match pc with
  | .init j => j ≤ 6 ∧ nextIdx = j ∧ m3 = 0 ∧ progress = []
  | .loop => nextIdx = 6 + m3 ∧ progress = ((theChunks P data).take m3).map (·.buffer.length)
  | .got c => 1 ≤ m3 ∧ nextIdx = 5 + m3 ∧ (theOuts P data)[m3 - 1]? = some c.toChunk ∧ c.cap = P.bufferCapacity ∧
      progress = ((theChunks P data).take (m3 - 1)).map (·.buffer.length)
  | .joining => nextIdx = 6 + m3 ∧ (∃ e, writer = .done e) ∧ q3 = [] ∧
      progress = ((theChunks P data).take m3).map (·.buffer.length)
  | .done r => nextIdx = 6 + m3 ∧ q3 = [] ∧ progress = ((theChunks P data).take m3).map (·.buffer.length) ∧
      ∃ er ec ew, reader = .done er ∧ codec = .done ec ∧ writer = .done ew ∧ r = joinResults [er, ec, ew]
  | .panicked => False

/-- How many chunks have been handed to the converter. -/
def nConverted (codec : CodecPc) (k : Counts) : Nat :=
  match codec with
  | .converting _ => k.c2
  | _ => k.c1

structure Inv (ls : List Label) (s : State) (k : Counts) : Prop where
  reader : ReaderInv P data s.reader s.lastByte s.input s.failed s.codecFailed k.r0 k.r1
  codec : CodecInv P data s.codec s.readerDone s.writerFailed s.q1 k.c1 k.c2
  writer : WriterInv P data s.writer s.written s.flushed s.codecDone s.q2 k.w2 k.w3
  main : MainInv P data s.main s.reader s.codec s.writer s.nextIdx s.q3 s.progress k.m3
  q0_len : s.readerDone = false → s.q0.length + k.r0 = s.nextIdx
  q0_len' : s.q0.length + k.r0 ≤ s.nextIdx
  q0_idx : ∀ i c, s.q0[i]? = some c → c.idx = k.r0 + i
  q0_buf : ∀ c ∈ s.q0, c.buffer.length = P.inputBufferSize ∧ c.cap = P.bufferCapacity
  q1_le : k.c1 ≤ k.r1 ∧ k.r1 ≤ (theChunks P data).length
  q1_eq : s.q1.map PChunk.toChunk = ((theChunks P data).take k.r1).drop k.c1
  q1_cap : ∀ c ∈ s.q1, c.cap = P.bufferCapacity
  q2_le : k.w2 ≤ k.c2 ∧ k.c2 ≤ (theOuts P data).length
  q2_eq : s.q2.map PChunk.toChunk = ((theOuts P data).take k.c2).drop k.w2
  q2_cap : ∀ c ∈ s.q2, c.cap = P.bufferCapacity
  q3_le : k.m3 ≤ k.w3
  q3_eq : s.q3.map PChunk.toChunk = ((theOuts P data).take k.w3).drop k.m3
  q3_cap : ∀ c ∈ s.q3, c.cap = P.bufferCapacity
  trace : converted ls = (theChunks P data).take (nConverted s.codec k)
  faults : Label.ioFault ∈ ls ↔ (∃ e, s.reader = .done (.err e)) ∨ (∃ e, s.writer = .done (.err e))

end

/-! ### Small lemmas -/

theorem converted_append (a b : List Label) : converted (a ++ b) = converted a ++ converted b := by
  induction a with
  | nil => rfl
  | cons l a ih => cases l <;> simp [converted, ih]

theorem slice_cons {α : Type} {l : List α} {a b : Nat} {x : α} {xs : List α} (h : (l.take b).drop a = x :: xs) :
    l[a]? = some x ∧ a < b ∧ (l.take b).drop (a + 1) = xs := by
  have ha : a < (l.take b).length := by
    by_contra hge
    rw [List.drop_eq_nil_of_le (by omega)] at h
    cases h
  have hb : a < b := by rw [List.length_take] at ha; omega
  rw [List.drop_eq_getElem_cons ha] at h
  injection h with h1 h2
  refine ⟨?_, hb, h2⟩
  rw [List.getElem_take] at h1
  rw [← h1]
  exact List.getElem?_eq_getElem _

theorem slice_snoc {α : Type} {l : List α} {a b : Nat} {x : α} (h : l[b]? = some x) (hab : a ≤ b) :
    (l.take (b + 1)).drop a = (l.take b).drop a ++ [x] := by
  obtain ⟨hlt, rfl⟩ := List.getElem?_eq_some_iff.mp h
  rw [List.take_succ_eq_append_getElem hlt, List.drop_append_of_le_length]
  rw [List.length_take]; omega

theorem slice_self {α : Type} {l : List α} {a : Nat} : (l.take a).drop a = [] := by
  apply List.drop_eq_nil_of_le; rw [List.length_take]; omega

theorem bytesOf_take_succ {l : List Chunk} {n : Nat} {x : Chunk} (h : l[n]? = some x) :
    bytesOf (l.take (n + 1)) = bytesOf (l.take n) ++ x.buffer := by
  obtain ⟨hlt, rfl⟩ := List.getElem?_eq_some_iff.mp h
  unfold bytesOf
  rw [List.take_succ_eq_append_getElem hlt, List.map_append, List.flatten_append]; simp

theorem bytesOf_take_mono (l : List Chunk) {m n : Nat} (h : m ≤ n) : bytesOf (l.take m) <+: bytesOf (l.take n) := by
  have := List.take_prefix m (l.take n)
  rw [List.take_take, Nat.min_eq_left h] at this
  obtain ⟨t, ht⟩ := this
  unfold bytesOf
  rw [← ht, List.map_append, List.flatten_append]
  exact List.prefix_append _ _

theorem bytesOf_take_prefix (l : List Chunk) (n : Nat) : bytesOf (l.take n) <+: bytesOf l := by
  unfold bytesOf
  refine ⟨((l.drop n).map Chunk.buffer).flatten, ?_⟩
  rw [← List.flatten_append, ← List.map_append, List.take_append_drop]

theorem growCap_le {cap n : Nat} (h : n ≤ cap) : growCap cap n = cap := by unfold growCap; rw [if_pos h]

theorem inputBufferSize_lt (P : Params) : P.inputBufferSize + 1 ≤ P.bufferCapacity := by
  unfold Params.inputBufferSize Params.bufferCapacity; omega

/-- The invariant holds at the start. -/
theorem inv_start (P : Params) (data : Bytes) : Inv P data [] (State.start data) ⟨0, 0, 0, 0, 0, 0, 0⟩ where
  reader := ⟨rfl, by simp [State.start, chunks]⟩
  codec := rfl
  writer := ⟨rfl, by simp [State.start, bytesOf], by
    intro h
    have := chunksFrom_ne_nil P.inputBufferSize 0 data
    exact absurd (List.length_eq_zero_iff.mp h.symm) this⟩
  main := ⟨by omega, rfl, rfl, rfl⟩
  q0_len := by intro _; rfl
  q0_len' := by simp [State.start]
  q0_idx := by simp [State.start]
  q0_buf := by simp [State.start]
  q1_le := by simp
  q1_eq := by simp [State.start]
  q1_cap := by simp [State.start]
  q2_le := by simp
  q2_eq := by simp [State.start]
  q2_cap := by simp [State.start]
  q3_le := by simp
  q3_eq := by simp [State.start]
  q3_cap := by simp [State.start]
  trace := by simp [State.start, converted, nConverted]
  faults := by simp [State.start]

/-! ### Preservation, thread by thread -/

section

variable {P : Params} {data : Bytes} {ls : List Label} {s : State} {k : Counts}

theorem trace_tau (h : Inv P data ls s k) {n : Nat} (hn : nConverted s.codec k = n) :
    converted (ls ++ [Label.tau]) = (theChunks P data).take n := by
  rw [converted_append, h.trace, hn]; simp [converted]

theorem trace_other (h : Inv P data ls s k) {n : Nat} (hn : nConverted s.codec k = n) {l : Label}
    (hl : ∀ c, l ≠ .convert c) : converted (ls ++ [l]) = (theChunks P data).take n := by
  rw [converted_append, h.trace, hn]
  cases l with
  | convert c => exact absurd rfl (hl c)
  | _ => simp [converted]

theorem mainInv_change {pc : MainPc} {r r' : ReaderPc} {c c' : CodecPc} {w w' : WriterPc} {n : Nat} {q3 : List PChunk}
    {pr : List Nat} {m : Nat} (h : MainInv P data pc r c w n q3 pr m) (hr : ∀ e, r = .done e → r' = .done e)
    (hc : ∀ e, c = .done e → c' = .done e) (hw : ∀ e, w = .done e → w' = .done e) :
    MainInv P data pc r' c' w' n q3 pr m := by
  unfold MainInv at h ⊢
  cases pc with
  | joining => obtain ⟨h1, ⟨e, h2⟩, h3⟩ := h; exact ⟨h1, ⟨e, hw e h2⟩, h3⟩
  | done x =>
    obtain ⟨h1, h2, h3, er, ec, ew, h4, h5, h6, h7⟩ := h
    exact ⟨h1, h2, h3, er, ec, ew, hr _ h4, hc _ h5, hw _ h6, h7⟩
  | _ => exact h

theorem readerInv_mono {pc : ReaderPc} {lb : Option UInt8} {inp : Bytes} {a b a' b' : Bool} {r0 r1 : Nat}
    (h : ReaderInv P data pc lb inp a b r0 r1) (ha : a = true → a' = true) (hb : b = true → b' = true) :
    ReaderInv P data pc lb inp a' b' r0 r1 := by
  unfold ReaderInv at h ⊢
  cases pc with
  | done e =>
    obtain ⟨h1, h2, h3, h4, h5⟩ := h
    exact ⟨h1, h2, fun he => (h3 he).imp ha id, fun he => hb (h4 he), h5⟩
  | _ => exact h

theorem codecInv_mono {pc : CodecPc} {q1 : List PChunk} {a b a' b' : Bool} {c1 c2 : Nat}
    (h : CodecInv P data pc a b q1 c1 c2) (ha : a = true → a' = true) (hb : b = true → b' = true) :
    CodecInv P data pc a' b' q1 c1 c2 := by
  unfold CodecInv at h ⊢
  cases pc with
  | done e =>
    obtain ⟨h1, h1', h2, h3, h4⟩ := h
    exact ⟨h1, h1', fun he => ⟨(h2 he).1, ha (h2 he).2.1, (h2 he).2.2⟩, fun he => hb (h3 he), h4⟩
  | _ => exact h

theorem writerInv_mono {pc : WriterPc} {wr : Bytes} {fl : Bool} {q2 : List PChunk} {a a' : Bool} {w2 w3 : Nat}
    (h : WriterInv P data pc wr fl a q2 w2 w3) (ha : a = true → a' = true) :
    WriterInv P data pc wr fl a' q2 w2 w3 := by
  unfold WriterInv at h ⊢
  cases pc with
  | done e =>
    obtain ⟨h1, h1', h2, h3, h4⟩ := h
    exact ⟨h1, h1', h2, fun he => ⟨(h3 he).1, ha (h3 he).2.1, (h3 he).2.2⟩, h4⟩
  | _ => exact h

theorem codec_notdone {c : CodecPc} (hs : s.codec = c) (hc : ∀ e, c ≠ .done e) : s.codecDone = false := by
  unfold State.codecDone
  rw [hs]
  cases c with
  | done e => exact absurd rfl (hc e)
  | _ => rfl

theorem writer_notdone {c : WriterPc} (hs : s.writer = c) (hc : ∀ e, c ≠ .done e) : s.writerDone = false := by
  unfold State.writerDone
  rw [hs]
  cases c with
  | done e => exact absurd rfl (hc e)
  | _ => rfl

theorem codecFailed_iff : s.codecFailed = true ↔ ∃ e, s.codec = .done e ∧ e ≠ .ok := by
  unfold State.codecFailed
  cases hs : s.codec with
  | done e => cases e <;> simp
  | _ => simp

theorem writerFailed_iff : s.writerFailed = true ↔ ∃ e, s.writer = .done e ∧ e ≠ .ok := by
  unfold State.writerFailed
  cases hs : s.writer with
  | done e => cases e <;> simp
  | _ => simp

theorem failed_mono {s s' : State} (hc : ∀ e, s.codec = .done e → s'.codec = .done e)
    (hw : ∀ e, s.writer = .done e → s'.writer = .done e) :
    (s.failed = true → s'.failed = true) ∧ (s.codecFailed = true → s'.codecFailed = true) ∧
      (s.writerFailed = true → s'.writerFailed = true) := by
  have h1 : s.codecFailed = true → s'.codecFailed = true := by
    rw [codecFailed_iff, codecFailed_iff]
    rintro ⟨e, h, hne⟩
    exact ⟨e, hc e h, hne⟩
  have h2 : s.writerFailed = true → s'.writerFailed = true := by
    rw [writerFailed_iff, writerFailed_iff]
    rintro ⟨e, h, hne⟩
    exact ⟨e, hw e h, hne⟩
  refine ⟨?_, h1, h2⟩
  unfold State.failed
  simp only [Bool.or_eq_true]
  exact Or.imp h1 h2

theorem readerInv_codec {s s' : State} {pc : ReaderPc} {lb : Option UInt8} {inp : Bytes} {r0 r1 : Nat}
    (h : ReaderInv P data pc lb inp s.failed s.codecFailed r0 r1) (hnd : ∀ e, s.codec ≠ .done e)
    (hw : s'.writer = s.writer) : ReaderInv P data pc lb inp s'.failed s'.codecFailed r0 r1 :=
  have hm := failed_mono (s := s) (s' := s') (fun e he => absurd he (hnd e)) (fun _ he => hw.trans he)
  readerInv_mono h hm.1 hm.2.1

theorem readerInv_writer {s s' : State} {pc : ReaderPc} {lb : Option UInt8} {inp : Bytes} {r0 r1 : Nat}
    (h : ReaderInv P data pc lb inp s.failed s.codecFailed r0 r1) (hnd : ∀ e, s.writer ≠ .done e)
    (hc : s'.codec = s.codec) : ReaderInv P data pc lb inp s'.failed s'.codecFailed r0 r1 :=
  have hm := failed_mono (s := s) (s' := s') (fun _ he => hc.trans he) (fun e he => absurd he (hnd e))
  readerInv_mono h hm.1 hm.2.1

theorem codecInv_writer {s s' : State} {pc : CodecPc} {rd : Bool} {q1 : List PChunk} {c1 c2 : Nat}
    (h : CodecInv P data pc rd s.writerFailed q1 c1 c2) (hnd : ∀ e, s.writer ≠ .done e)
    (hc : s'.codec = s.codec) : CodecInv P data pc rd s'.writerFailed q1 c1 c2 :=
  have hm := failed_mono (s := s) (s' := s') (fun _ he => hc.trans he) (fun e he => absurd he (hnd e))
  codecInv_mono h id hm.2.2

/-- A step that only changes the reader, its input and the byte kept: what has to be shown. -/
theorem step_reader (h : Inv P data ls s k) {r : ReaderPc} {lb : Option UInt8} {inp : Bytes} {l : Label}
    (hnd : ∀ e, s.reader ≠ .done e) (hl : ∀ c, l ≠ .convert c)
    (hr : ReaderInv P data r lb inp s.failed s.codecFailed k.r0 k.r1)
    (hf : l = .ioFault ↔ ∃ e, r = .done (.err e)) :
    Inv P data (ls ++ [l]) { s with reader := r, lastByte := lb, input := inp } k where
  reader := hr
  codec := codecInv_mono h.codec (by
    intro he
    unfold State.readerDone at he
    cases hs : s.reader <;> simp [hs] at he
    exact absurd hs (hnd _)) id
  writer := h.writer
  main := mainInv_change h.main (fun e he => absurd he (hnd e)) (fun _ he => he) (fun _ he => he)
  q0_len := by
    intro _
    apply h.q0_len
    unfold State.readerDone
    cases hs : s.reader with
    | done e => exact absurd hs (hnd e)
    | _ => rfl
  q0_len' := h.q0_len'
  q0_idx := h.q0_idx
  q0_buf := h.q0_buf
  q1_le := h.q1_le
  q1_eq := h.q1_eq
  q1_cap := h.q1_cap
  q2_le := h.q2_le
  q2_eq := h.q2_eq
  q2_cap := h.q2_cap
  q3_le := h.q3_le
  q3_eq := h.q3_eq
  q3_cap := h.q3_cap
  trace := trace_other h rfl hl
  faults := by
    have := h.faults
    have hno : ¬ ∃ e, s.reader = .done (.err e) := fun ⟨e, he⟩ => hnd _ he
    rw [List.mem_append, this, List.mem_singleton]
    simp only [hno, false_or, eq_comm (a := Label.ioFault), hf]
    exact or_comm

/-- Taking a buffer does not change anything else. -/
theorem step_readerRecv (hN : 0 < P.inputBufferSize) (h : Inv P data ls s k) {c : PChunk} {rest : List PChunk}
    (hpc : s.reader = .recv) (hq : s.q0 = c :: rest) :
    Inv P data (ls ++ [.tau]) { s with
        q0 := rest, reader := .reading (startReading s.lastByte c).1 (startReading s.lastByte c).2 }
      { k with r0 := k.r0 + 1 } where
  reader := by
    have hr := h.reader
    simp only [ReaderInv, hpc] at hr
    obtain ⟨h1, h2⟩ := hr
    have hb := h.q0_buf c (by rw [hq]; simp)
    have hi := h.q0_idx 0 c (by rw [hq]; simp)
    have hcap : growCap c.cap (c.buffer.length + 1) = P.bufferCapacity := by
      rw [growCap_le (by rw [hb.1, hb.2]; exact inputBufferSize_lt P), hb.2]
    cases hl : s.lastByte with
    | none =>
      rw [hl] at h2
      refine ⟨by simp only; omega, by simp [startReading]; omega, by simp [startReading, hb.1], ?_, by simp [startReading],
        by simpa [startReading] using h2⟩
      simpa [startReading] using hcap
    | some b =>
      rw [hl] at h2
      refine ⟨by simp only; omega, by simp [startReading]; omega, by simp [startReading, hb.1], ?_, by simp [startReading],
        ?_⟩
      · simpa [startReading] using hcap
      · have : ((c.buffer ++ [0]).set 0 b).take 1 = [b] := by
          cases hcb : c.buffer with
          | nil => rw [hcb] at hb; simp at hb; omega
          | cons x xs => simp
        simp only [startReading]
        rw [this]
        simpa using h2
  codec := codecInv_mono h.codec (by intro he; simp [State.readerDone, hpc] at he) id
  writer := h.writer
  main := mainInv_change h.main (by intro e he; rw [hpc] at he; cases he) (fun _ he => he) (fun _ he => he)
  q0_len := by
    intro _
    have := h.q0_len (by simp [State.readerDone, hpc])
    rw [hq] at this; simp at this ⊢; omega
  q0_len' := by have := h.q0_len'; rw [hq] at this; simp at this ⊢; omega
  q0_idx := by
    intro i x hx
    have := h.q0_idx (i + 1) x (by rw [hq]; simpa using hx)
    simp only; omega
  q0_buf := fun x hx => h.q0_buf x (by rw [hq]; exact List.mem_cons_of_mem _ hx)
  q1_le := h.q1_le
  q1_eq := h.q1_eq
  q1_cap := h.q1_cap
  q2_le := h.q2_le
  q2_eq := h.q2_eq
  q2_cap := h.q2_cap
  q3_le := h.q3_le
  q3_eq := h.q3_eq
  q3_cap := h.q3_cap
  trace := trace_tau h rfl
  faults := by
    have := h.faults
    simp [hpc] at this
    simp [this]

/-- Reading. -/
theorem inv_readSome (h : Inv P data ls s k) {c : PChunk} {ptr n : Nat} (hpc : s.reader = .reading c ptr)
    (h1 : n ≤ c.buffer.length - ptr) (h2 : n ≤ s.input.length) (h3 : ptr < c.buffer.length) :
    Inv P data (ls ++ [.tau]) { s with
        reader := .reading (storeRead c ptr (s.input.take n)) (ptr + n), input := s.input.drop n } k := by
  have hr := h.reader
  simp only [ReaderInv, hpc] at hr
  obtain ⟨a1, a2, a3, a4, a5, a6⟩ := hr
  apply step_reader h (by simp [hpc]) (by simp) _ (by simp)
  have hl : (s.input.take n).length = n := by simp; omega
  refine ⟨a1, a2, ?_, a4, by omega, ?_⟩
  · simp only [storeRead, List.length_append, List.length_take, List.length_drop]; omega
  · rw [← a6]
    congr 1
    simp only [storeRead]
    rw [List.take_left' (by rw [List.length_append, hl, List.length_take]; omega), List.append_assoc,
      List.take_append_drop]

theorem inv_readEof (h : Inv P data ls s k) {c : PChunk} {ptr : Nat} (hpc : s.reader = .reading c ptr)
    (h1 : ptr < c.buffer.length) (h2 : s.input = []) :
    Inv P data (ls ++ [.tau]) { s with
      reader := .sending { c with buffer := c.buffer.take ptr, isLast := true } true } k := by
  have hr := h.reader
  simp only [ReaderInv, hpc] at hr
  obtain ⟨a1, a2, a3, a4, a5, a6⟩ := hr
  apply step_reader h (by simp [hpc]) (by simp) _ (by simp)
  refine ⟨a1, a4, ?_⟩
  rw [← a6, h2, List.append_nil, chunksFrom_le (by simp; omega)]
  simp [a2]

theorem inv_readFull (hN : 0 < P.inputBufferSize) (h : Inv P data ls s k) {c : PChunk} {ptr : Nat}
    (hpc : s.reader = .reading c ptr) (h1 : ¬ ptr < c.buffer.length) :
    Inv P data (ls ++ [.tau]) { s with
        lastByte := c.buffer.getLast?
        reader := .sending { c with buffer := c.buffer.dropLast, isLast := false } false } k := by
  have hr := h.reader
  simp only [ReaderInv, hpc] at hr
  obtain ⟨a1, a2, a3, a4, a5, a6⟩ := hr
  apply step_reader h (by simp [hpc]) (by simp) _ (by simp)
  refine ⟨a1, a4, ?_⟩
  have hne : c.buffer ≠ [] := by intro he; rw [he] at a3; simp at a3
  have hb : c.buffer = c.buffer.dropLast ++ [c.buffer.getLast hne] := (List.dropLast_concat_getLast hne).symm
  have hdl : c.buffer.dropLast.length = P.inputBufferSize := by simp [a3]
  have e1 : (c.buffer ++ s.input).take P.inputBufferSize = c.buffer.dropLast := by
    conv_lhs => rw [hb]
    rw [List.append_assoc, List.take_append_of_le_length (by omega), List.take_of_length_le (by omega)]
  have e2 : (c.buffer ++ s.input).drop P.inputBufferSize = c.buffer.getLast?.toList ++ s.input := by
    conv_lhs => rw [hb]
    rw [List.append_assoc, List.drop_append_of_le_length (by omega), List.drop_of_length_le (by omega),
      List.getLast?_eq_some_getLast hne]
    rfl
  rw [← a6, List.take_of_length_le (by omega), chunksFrom_gt hN (by simp; omega), e1, e2]
  simp [a2]

theorem inv_readFault (h : Inv P data ls s k) {c : PChunk} {ptr : Nat} (hpc : s.reader = .reading c ptr) :
    Inv P data (ls ++ [.ioFault]) { s with reader := .done (.err .io) } k := by
  have hr := h.reader
  simp only [ReaderInv, hpc] at hr
  apply step_reader h (by simp [hpc]) (by simp) _ (by simp)
  refine ⟨by omega, by omega, by simp, by simp, by simp, by simp⟩

theorem mainLeft_done (h : Inv P data ls s k) (hm : s.mainLeft = true) : ∃ e, s.writer = .done e := by
  have := h.main
  unfold MainInv at this
  unfold State.mainLeft at hm
  cases hs : s.main with
  | joining => rw [hs] at this; exact this.2.1
  | done r => rw [hs] at this; obtain ⟨-, -, -, _, _, ew, -, -, hw, -⟩ := this; exact ⟨ew, hw⟩
  | panicked => rw [hs] at this; exact this.elim
  | _ => simp [hs] at hm

theorem codec_failed_of_done (h : Inv P data ls s k) (hd : s.codecDone = true) (hnd : ∀ e, s.reader ≠ .done e) :
    s.codecFailed = true := by
  rw [codecFailed_iff]
  have hc := h.codec
  unfold State.codecDone at hd
  cases hs : s.codec with
  | done e =>
    refine ⟨e, rfl, fun he => ?_⟩
    simp only [CodecInv, hs] at hc
    have := (hc.2.2.1 he).2.1
    unfold State.readerDone at this
    cases hr : s.reader with
    | done e => exact hnd e hr
    | _ => simp [hr] at this
  | _ => simp [hs] at hd

theorem writer_failed_of_done (h : Inv P data ls s k) (hd : s.writerDone = true) (hnd : s.codecDone = false) :
    s.writerFailed = true := by
  rw [writerFailed_iff]
  have hc := h.writer
  unfold State.writerDone at hd
  cases hs : s.writer with
  | done e =>
    refine ⟨e, rfl, fun he => ?_⟩
    simp only [WriterInv, hs] at hc
    have := (hc.2.2.2.1 he).2.1
    rw [hnd] at this
    cases this
  | _ => simp [hs] at hd

theorem failed_of_mainLeft (h : Inv P data ls s k) (hm : s.mainLeft = true) (hnd : ∀ e, s.reader ≠ .done e) :
    s.failed = true := by
  obtain ⟨e, he⟩ := mainLeft_done h hm
  unfold State.failed
  rw [Bool.or_eq_true]
  cases hcd : s.codecDone with
  | true => exact Or.inl (codec_failed_of_done h hcd hnd)
  | false => exact Or.inr (writer_failed_of_done h (by simp [State.writerDone, he]) hcd)

theorem inv_readerClosed (h : Inv P data ls s k) (hpc : s.reader = .recv) (hm : s.mainLeft = true) :
    Inv P data (ls ++ [.tau]) { s with reader := .done .ok } k := by
  have hr := h.reader
  simp only [ReaderInv, hpc] at hr
  apply step_reader h (by simp [hpc]) (by simp) _ (by simp)
  refine ⟨by omega, by omega, fun _ => Or.inl (failed_of_mainLeft h hm (by simp [hpc])), by simp, by simp, by simp⟩

theorem inv_readerSendError (h : Inv P data ls s k) {c : PChunk} {last : Bool} (hpc : s.reader = .sending c last)
    (hm : s.codecDone = true) : Inv P data (ls ++ [.tau]) { s with reader := .done .sendError } k := by
  have hr := h.reader
  simp only [ReaderInv, hpc] at hr
  apply step_reader h (by simp [hpc]) (by simp) _ (by simp)
  refine ⟨by omega, by omega, by simp, fun _ => codec_failed_of_done h hm (by simp [hpc]), by simp, by simp⟩

theorem inv_eintr (h : Inv P data ls s k) : Inv P data (ls ++ [.eintr]) s k :=
  { h with
    trace := trace_other h rfl (by simp)
    faults := by rw [List.mem_append]; simpa using h.faults }

theorem inv_readerSend (h : Inv P data ls s k) {c : PChunk} {last : Bool} (hpc : s.reader = .sending c last)
    (hcd : s.codecDone = false) (hq : s.q1 = []) :
    Inv P data (ls ++ [.tau]) { s with q1 := [c], reader := if last then .done .ok else .recv }
      { k with r1 := k.r1 + 1 } := by
  have hr := h.reader
  simp only [ReaderInv, hpc] at hr
  obtain ⟨a1, a2, a3⟩ := hr
  have hget : (theChunks P data)[k.r1]? = some c.toChunk := by
    have := congrArg (·[0]?) a3
    simpa using this
  have hlt := (List.getElem?_eq_some_iff.mp hget).1
  have htail : (theChunks P data).drop (k.r1 + 1) =
      if last then [] else chunksFrom P.inputBufferSize (k.r1 + 1) (s.lastByte.toList ++ s.input) := by
    rw [← List.drop_drop, a3]; simp
  have hc1 : k.r1 = k.c1 := by
    have := h.q1_eq
    rw [hq] at this
    have hl := congrArg List.length this
    simp only [List.map_nil, List.length_nil, List.length_drop, List.length_take] at hl
    have := h.q1_le
    omega
  have hnd : ∀ e, s.reader ≠ .done e := by simp [hpc]
  refine
  { reader := ?_
    codec := ?_
    writer := h.writer
    main := mainInv_change h.main (fun e he => absurd he (hnd e)) (fun _ he => he) (fun _ he => he)
    q0_len := fun _ => h.q0_len (by simp [State.readerDone, hpc])
    q0_len' := h.q0_len'
    q0_idx := h.q0_idx
    q0_buf := h.q0_buf
    q1_le := ⟨by have := h.q1_le; simp only; omega, by simp only; omega⟩
    q1_eq := ?_
    q1_cap := by intro x hx; simp at hx; rw [hx]; exact a2
    q2_le := h.q2_le
    q2_eq := h.q2_eq
    q2_cap := h.q2_cap
    q3_le := h.q3_le
    q3_eq := h.q3_eq
    q3_cap := h.q3_cap
    trace := trace_tau h rfl
    faults := ?_ }
  · cases last with
    | true =>
      simp only [if_true] at htail ⊢
      refine ⟨by omega, by omega, fun _ => Or.inr ?_, by simp, by simp, by simp⟩
      have := congrArg List.length htail
      simp only [List.length_drop, List.length_nil] at this
      omega
    | false =>
      simp only [Bool.false_eq_true, if_false] at htail ⊢
      exact ⟨by omega, htail.symm⟩
  · have hc := h.codec
    unfold CodecInv at hc ⊢
    cases hs : s.codec with
    | done e => simp [State.codecDone, hs] at hcd
    | _ => simpa [hs] using hc
  · show _ = ((theChunks P data).take (k.r1 + 1)).drop k.c1
    rw [slice_snoc hget (by omega), ← h.q1_eq, hq]; simp
  · have := h.faults
    simp only [hpc, reduceCtorEq, exists_false, false_or] at this
    simp only [List.mem_append, this, List.mem_singleton, reduceCtorEq, or_false]
    cases last <;> simp

/-! ### Codec -/

/-- A step that only changes the codec thread. -/
theorem step_codec (h : Inv P data ls s k) {c : CodecPc} {l : Label} (hnd : ∀ e, s.codec ≠ .done e)
    (hc : CodecInv P data c s.readerDone s.writerFailed s.q1 k.c1 k.c2)
    (ht : converted (ls ++ [l]) = (theChunks P data).take (nConverted c k)) (hl : l ≠ .ioFault) :
    Inv P data (ls ++ [l]) { s with codec := c } k where
  reader := readerInv_codec h.reader hnd rfl
  codec := hc
  writer := writerInv_mono h.writer (by rw [codec_notdone rfl hnd]; simp)
  main := mainInv_change h.main (fun _ he => he) (fun e he => absurd he (hnd e)) (fun _ he => he)
  q0_len := h.q0_len
  q0_len' := h.q0_len'
  q0_idx := h.q0_idx
  q0_buf := h.q0_buf
  q1_le := h.q1_le
  q1_eq := h.q1_eq
  q1_cap := h.q1_cap
  q2_le := h.q2_le
  q2_eq := h.q2_eq
  q2_cap := h.q2_cap
  q3_le := h.q3_le
  q3_eq := h.q3_eq
  q3_cap := h.q3_cap
  trace := ht
  faults := by
    rw [List.mem_append, h.faults, List.mem_singleton]
    simp [Ne.symm hl]

theorem inv_codecRecv (h : Inv P data ls s k) {c : PChunk} {rest : List PChunk} (hpc : s.codec = .recv)
    (hq : s.q1 = c :: rest) :
    Inv P data (ls ++ [.tau]) { s with q1 := rest, codec := .converting c } { k with c1 := k.c1 + 1 } := by
  have hc := h.codec
  simp only [CodecInv, hpc] at hc
  have hs := h.q1_eq
  rw [hq, List.map_cons] at hs
  obtain ⟨b1, b2, b3⟩ := slice_cons hs.symm
  have hnd : ∀ e, s.codec ≠ .done e := by simp [hpc]
  refine
  { reader := readerInv_codec h.reader (by simp [hpc]) rfl
    codec := ⟨by simp only; omega, by rw [← hc]; exact b1, h.q1_cap c (by rw [hq]; simp)⟩
    writer := writerInv_mono h.writer (by rw [codec_notdone hpc (by simp)]; simp)
    main := mainInv_change h.main (fun _ he => he) (fun e he => absurd he (hnd e)) (fun _ he => he)
    q0_len := h.q0_len
    q0_len' := h.q0_len'
    q0_idx := h.q0_idx
    q0_buf := h.q0_buf
    q1_le := ⟨by simp only; omega, h.q1_le.2⟩
    q1_eq := b3.symm
    q1_cap := fun x hx => h.q1_cap x (by rw [hq]; exact List.mem_cons_of_mem _ hx)
    q2_le := h.q2_le
    q2_eq := h.q2_eq
    q2_cap := h.q2_cap
    q3_le := h.q3_le
    q3_eq := h.q3_eq
    q3_cap := h.q3_cap
    trace := trace_tau h (by simp [nConverted, hpc, hc])
    faults := by rw [List.mem_append, h.faults]; simp }

theorem inv_codecClosed (h : Inv P data ls s k) (hpc : s.codec = .recv) (hq : s.q1 = []) (hd : s.readerDone = true) :
    Inv P data (ls ++ [.tau]) { s with codec := .done .ok } k := by
  have hc := h.codec
  simp only [CodecInv, hpc] at hc
  apply step_codec h (by simp [hpc]) _ (trace_tau h (by simp [nConverted, hpc])) (by simp)
  exact ⟨by omega, by omega, fun _ => ⟨hc, hd, hq⟩, by simp, by simp, by simp⟩

theorem trace_convert (h : Inv P data ls s k) {c : PChunk} (hpc : s.codec = .converting c) :
    converted (ls ++ [.convert c.toChunk]) = (theChunks P data).take k.c1 := by
  have hc := h.codec
  simp only [CodecInv, hpc] at hc
  obtain ⟨a1, a2, a3⟩ := hc
  obtain ⟨hlt, he⟩ := List.getElem?_eq_some_iff.mp a2
  rw [converted_append, h.trace, a1, List.take_succ_eq_append_getElem hlt, he]
  simp [nConverted, hpc, converted]

theorem inv_convertOk (hL : P.conv.Lawful) (hN : 0 < P.inputBufferSize) (h : Inv P data ls s k) {c : PChunk} {c' : Chunk}
    (hpc : s.codec = .converting c) (hok : P.conv.convert c.toChunk = .ok c') :
    Inv P data (ls ++ [.convert c.toChunk]) { s with
      codec := .sending { c' with cap := growCap c.cap (P.conv.peak c.buffer.length) } } k := by
  have hc := h.codec
  simp only [CodecInv, hpc] at hc
  obtain ⟨a1, a2, a3⟩ := hc
  apply step_codec h (by simp [hpc]) _ (trace_convert h hpc) (by simp)
  refine ⟨a1, convertedPrefix_next h.q2_le.2 a2 hok, ?_⟩
  have hlen := (chunksFrom_layout hN 0 data k.c2 c.toChunk a2).1
  have hp := hL.peak c.buffer.length
  rw [growCap_le, a3]
  rw [a3]
  unfold Params.bufferCapacity
  unfold Params.inputBufferSize at hlen
  omega

theorem inv_convertErr (h : Inv P data ls s k) {c : PChunk} {e : Err}
    (hpc : s.codec = .converting c) (herr : P.conv.convert c.toChunk = .err e) :
    Inv P data (ls ++ [.convert c.toChunk]) { s with codec := .done (.err e) } k := by
  have hc := h.codec
  simp only [CodecInv, hpc] at hc
  obtain ⟨a1, a2, a3⟩ := hc
  apply step_codec h (by simp [hpc]) _ (trace_convert h hpc) (by simp)
  refine ⟨by omega, by omega, by simp, by simp, ?_, by simp⟩
  intro x hx
  injection hx with hx
  subst hx
  exact ⟨_, a2, herr⟩

theorem inv_convertPanic (h : Inv P data ls s k) {c : PChunk}
    (hpc : s.codec = .converting c) (herr : P.conv.convert c.toChunk = .panic) :
    Inv P data (ls ++ [.convert c.toChunk]) { s with codec := .done .panic } k := by
  have hc := h.codec
  simp only [CodecInv, hpc] at hc
  obtain ⟨a1, a2, a3⟩ := hc
  apply step_codec h (by simp [hpc]) _ (trace_convert h hpc) (by simp)
  exact ⟨by omega, by omega, by simp, by simp, by simp, fun _ => ⟨_, a2, herr⟩⟩

theorem inv_codecSendError (h : Inv P data ls s k) {c : PChunk} (hpc : s.codec = .sending c)
    (hd : s.writerDone = true) : Inv P data (ls ++ [.tau]) { s with codec := .done .sendError } k := by
  have hc := h.codec
  simp only [CodecInv, hpc] at hc
  obtain ⟨a1, a2, a3⟩ := hc
  apply step_codec h (by simp [hpc]) _ (trace_tau h (by simp [nConverted, hpc])) (by simp)
  exact ⟨by omega, by omega, by simp, fun _ => writer_failed_of_done h hd (codec_notdone hpc (by simp)), by simp, by simp⟩

theorem inv_codecSend (h : Inv P data ls s k) {c : PChunk} (hpc : s.codec = .sending c)
    (hwd : s.writerDone = false) (hq : s.q2 = []) :
    Inv P data (ls ++ [.tau]) { s with q2 := [c], codec := .recv } { k with c2 := k.c2 + 1 } := by
  have hc := h.codec
  simp only [CodecInv, hpc] at hc
  obtain ⟨a1, a2, a3⟩ := hc
  have hlt := (List.getElem?_eq_some_iff.mp a2).1
  have hw2 : k.c2 = k.w2 := by
    have := h.q2_eq
    rw [hq] at this
    have hl := congrArg List.length this
    simp only [List.map_nil, List.length_nil, List.length_drop, List.length_take] at hl
    have := h.q2_le
    omega
  refine
  { reader := readerInv_codec h.reader (by simp [hpc]) rfl
    codec := a1
    writer := ?_
    main := mainInv_change h.main (fun _ he => he) (by simp [hpc]) (fun _ he => he)
    q0_len := h.q0_len
    q0_len' := h.q0_len'
    q0_idx := h.q0_idx
    q0_buf := h.q0_buf
    q1_le := h.q1_le
    q1_eq := h.q1_eq
    q1_cap := h.q1_cap
    q2_le := ⟨by simp only; omega, by simp only; omega⟩
    q2_eq := ?_
    q2_cap := by intro x hx; simp at hx; rw [hx]; exact a3
    q3_le := h.q3_le
    q3_eq := h.q3_eq
    q3_cap := h.q3_cap
    trace := trace_tau h (by simp [nConverted, hpc])
    faults := by rw [List.mem_append, h.faults]; simp }
  · have hw := h.writer
    unfold WriterInv at hw ⊢
    cases hs : s.writer with
    | done e => simp [State.writerDone, hs] at hwd
    | _ => simpa [hs] using hw
  · show _ = ((theOuts P data).take (k.c2 + 1)).drop k.w2
    rw [slice_snoc a2 (by omega), ← h.q2_eq, hq]; simp

/-! ### Writer -/

/-- A step that only changes the writer thread and what it wrote. -/
theorem step_writer (h : Inv P data ls s k) {w : WriterPc} {wr : Bytes} {fl : Bool} {l : Label}
    (hnd : ∀ e, s.writer ≠ .done e) (hl : ∀ c, l ≠ .convert c)
    (hw : WriterInv P data w wr fl s.codecDone s.q2 k.w2 k.w3)
    (hf : l = .ioFault ↔ ∃ e, w = .done (.err e)) :
    Inv P data (ls ++ [l]) { s with writer := w, written := wr, flushed := fl } k where
  reader := readerInv_writer h.reader hnd rfl
  codec := codecInv_writer h.codec hnd rfl
  writer := hw
  main := mainInv_change h.main (fun _ he => he) (fun _ he => he) (fun e he => absurd he (hnd e))
  q0_len := h.q0_len
  q0_len' := h.q0_len'
  q0_idx := h.q0_idx
  q0_buf := h.q0_buf
  q1_le := h.q1_le
  q1_eq := h.q1_eq
  q1_cap := h.q1_cap
  q2_le := h.q2_le
  q2_eq := h.q2_eq
  q2_cap := h.q2_cap
  q3_le := h.q3_le
  q3_eq := h.q3_eq
  q3_cap := h.q3_cap
  trace := trace_other h rfl hl
  faults := by
    have hno : ¬ ∃ e, s.writer = .done (.err e) := fun ⟨e, he⟩ => hnd _ he
    rw [List.mem_append, h.faults, List.mem_singleton]
    simp only [hno, or_false, eq_comm (a := Label.ioFault), hf]

theorem inv_writerRecv (h : Inv P data ls s k) {c : PChunk} {rest : List PChunk} (hpc : s.writer = .recv)
    (hq : s.q2 = c :: rest) :
    Inv P data (ls ++ [.tau]) { s with q2 := rest, writer := .writing c 0 } { k with w2 := k.w2 + 1 } := by
  have hw := h.writer
  simp only [WriterInv, hpc] at hw
  obtain ⟨a1, a2, a3⟩ := hw
  have hs := h.q2_eq
  rw [hq, List.map_cons] at hs
  obtain ⟨b1, b2, b3⟩ := slice_cons hs.symm
  have hnd : ∀ e, s.writer ≠ .done e := by simp [hpc]
  refine
  { reader := readerInv_writer h.reader (by simp [hpc]) rfl
    codec := codecInv_writer h.codec (by simp [hpc]) rfl
    writer := ⟨by simp only; omega, by rw [← a1]; exact b1, h.q2_cap c (by rw [hq]; simp), by omega, by simpa using a2⟩
    main := mainInv_change h.main (fun _ he => he) (fun _ he => he) (fun e he => absurd he (hnd e))
    q0_len := h.q0_len
    q0_len' := h.q0_len'
    q0_idx := h.q0_idx
    q0_buf := h.q0_buf
    q1_le := h.q1_le
    q1_eq := h.q1_eq
    q1_cap := h.q1_cap
    q2_le := ⟨by simp only; omega, h.q2_le.2⟩
    q2_eq := b3.symm
    q2_cap := fun x hx => h.q2_cap x (by rw [hq]; exact List.mem_cons_of_mem _ hx)
    q3_le := h.q3_le
    q3_eq := h.q3_eq
    q3_cap := h.q3_cap
    trace := trace_tau h rfl
    faults := by
      have := h.faults
      simp only [hpc, reduceCtorEq, exists_false, or_false] at this
      rw [List.mem_append, this]; simp }

theorem inv_writerClosed (h : Inv P data ls s k) (hpc : s.writer = .recv) (hq : s.q2 = []) (hd : s.codecDone = true) :
    Inv P data (ls ++ [.tau]) { s with writer := .done .ok } k := by
  have hw := h.writer
  simp only [WriterInv, hpc] at hw
  obtain ⟨a1, a2, a3⟩ := hw
  apply step_writer h (by simp [hpc]) (by simp) _ (by simp)
  exact ⟨by omega, by omega, by rw [a2]; exact bytesOf_take_prefix _ _, fun _ => ⟨a1, hd, hq, a2, a3⟩, by simp, by simp,
    by simp, by rw [a2]; exact List.prefix_refl _⟩

theorem inv_writeSome (h : Inv P data ls s k) {c : PChunk} {ptr n : Nat} (hpc : s.writer = .writing c ptr)
    (hn : ptr + n ≤ c.buffer.length) :
    Inv P data (ls ++ [.tau]) { s with
      writer := .writing c (ptr + n), written := s.written ++ (c.buffer.drop ptr).take n, flushed := false } k := by
  have hw := h.writer
  simp only [WriterInv, hpc] at hw
  obtain ⟨a1, a2, a3, a4, a5⟩ := hw
  apply step_writer h (by simp [hpc]) (by simp) _ (by simp)
  refine ⟨a1, a2, a3, hn, ?_⟩
  rw [a5, List.append_assoc, List.take_add]

theorem written_prefix (h : Inv P data ls s k) : s.written <+: bytesOf (theOuts P data) := by
  have hw := h.writer
  unfold WriterInv at hw
  cases hs : s.writer with
  | recv => rw [hs] at hw; rw [hw.2.1]; exact bytesOf_take_prefix _ _
  | writing c ptr =>
    rw [hs] at hw
    obtain ⟨a1, a2, a3, a4, a5⟩ := hw
    refine List.IsPrefix.trans ?_ (bytesOf_take_prefix _ (k.w3 + 1))
    rw [bytesOf_take_succ a2, a5]
    exact (List.prefix_append_right_inj _).mpr (List.take_prefix _ _)
  | flushing c => rw [hs] at hw; rw [hw.2.2.2]; exact bytesOf_take_prefix _ _
  | sending c => rw [hs] at hw; rw [hw.2.2.2.1]; exact bytesOf_take_prefix _ _
  | done e => rw [hs] at hw; exact hw.2.2.1

/-- What was reported has been written. -/
theorem written_covers (h : Inv P data ls s k) : bytesOf ((theOuts P data).take k.w3) <+: s.written := by
  have hw := h.writer
  unfold WriterInv at hw
  split at hw
  · rw [hw.2.1]; exact List.prefix_refl _
  · rw [hw.2.2.2.2]; exact List.prefix_append _ _
  · rw [hw.2.2.2, bytesOf_take_succ hw.2.1]; exact List.prefix_append _ _
  · rw [hw.2.2.2.1, bytesOf_take_succ hw.2.1]; exact List.prefix_append _ _
  · exact hw.2.2.2.2.2.2.2

theorem w3_le (h : Inv P data ls s k) : k.w3 ≤ k.w2 := by
  have hw := h.writer
  unfold WriterInv at hw
  split at hw <;> omega

/-- The chunks that were reported. -/
theorem progress_of (h : Inv P data ls s k) :
    ∃ m, m ≤ k.w3 ∧ s.progress = ((theChunks P data).take m).map (·.buffer.length) := by
  have hm := h.main
  have hq := h.q3_le
  unfold MainInv at hm
  split at hm
  · exact ⟨0, by omega, by rw [hm.2.2.2]; rfl⟩
  · exact ⟨_, hq, hm.2⟩
  · exact ⟨k.m3 - 1, by omega, hm.2.2.2.2⟩
  · exact ⟨_, hq, hm.2.2.2⟩
  · exact ⟨_, hq, hm.2.2.1⟩
  · exact hm.elim

theorem inv_writeFault (h : Inv P data ls s k) {c : PChunk} {ptr : Nat} (hpc : s.writer = .writing c ptr) :
    Inv P data (ls ++ [.ioFault]) { s with writer := .done (.err .io) } k := by
  have hp := written_prefix h
  have hw := h.writer
  simp only [WriterInv, hpc] at hw
  apply step_writer h (by simp [hpc]) (by simp) _ (by simp)
  exact ⟨by omega, by omega, hp, by simp, by simp, by simp, by simp,
    by rw [hw.2.2.2.2]; exact List.prefix_append _ _⟩

theorem inv_flushFault (h : Inv P data ls s k) {c : PChunk} (hpc : s.writer = .flushing c) :
    Inv P data (ls ++ [.ioFault]) { s with writer := .done (.err .io) } k := by
  have hp := written_prefix h
  have hw := h.writer
  simp only [WriterInv, hpc] at hw
  apply step_writer h (by simp [hpc]) (by simp) _ (by simp)
  exact ⟨by omega, by omega, hp, by simp, by simp, by simp, by simp,
    by rw [hw.2.2.2, bytesOf_take_succ hw.2.1]; exact List.prefix_append _ _⟩

theorem inv_writeDone (hL : P.conv.Lawful) (hN : 0 < P.inputBufferSize) (h : Inv P data ls s k) {c : PChunk} {ptr : Nat}
    (hpc : s.writer = .writing c ptr) (hp : ¬ ptr < c.buffer.length) :
    Inv P data (ls ++ [.tau]) { s with writer := if c.isLast then .flushing c else .sending c } k := by
  have hw := h.writer
  simp only [WriterInv, hpc] at hw
  obtain ⟨a1, a2, a3, a4, a5⟩ := hw
  have hwr : s.written = bytesOf ((theOuts P data).take (k.w3 + 1)) := by
    rw [bytesOf_take_succ a2, a5, List.take_of_length_le (l := c.buffer) (by omega)]
  have hlast : k.w3 + 1 = (theChunks P data).length → c.isLast = true := by
    intro he
    obtain ⟨x, hx, hxc⟩ := convertedPrefix_get _ _ _ _ a2
    rw [hL.keeps_last _ _ hxc]
    exact (chunksFrom_layout hN 0 data _ _ hx).2.1 he
  apply step_writer h (by simp [hpc]) (by simp) _ (by cases c.isLast <;> simp)
  cases hcl : c.isLast with
  | true => exact ⟨a1, a2, a3, hwr⟩
  | false => exact ⟨a1, a2, a3, hwr, fun he => by rw [hlast he] at hcl; cases hcl⟩

theorem inv_flush (h : Inv P data ls s k) {c : PChunk} (hpc : s.writer = .flushing c) :
    Inv P data (ls ++ [.tau]) { s with flushed := true, writer := .sending c } k := by
  have hw := h.writer
  simp only [WriterInv, hpc] at hw
  obtain ⟨a1, a2, a3, a4⟩ := hw
  apply step_writer h (by simp [hpc]) (by simp) _ (by simp)
  exact ⟨a1, a2, a3, a4, fun _ => rfl⟩

theorem inv_writerSend (h : Inv P data ls s k) {c : PChunk} (hpc : s.writer = .sending c) (hm : s.mainLeft = false) :
    Inv P data (ls ++ [.tau]) { s with q3 := s.q3 ++ [c], writer := .recv } { k with w3 := k.w3 + 1 } := by
  have hw := h.writer
  simp only [WriterInv, hpc] at hw
  obtain ⟨a1, a2, a3, a4, a5⟩ := hw
  have hq := h.q3_le
  refine
  { reader := readerInv_writer h.reader (by simp [hpc]) rfl
    codec := codecInv_writer h.codec (by simp [hpc]) rfl
    writer := ⟨a1, a4, a5⟩
    main := ?_
    q0_len := h.q0_len
    q0_len' := h.q0_len'
    q0_idx := h.q0_idx
    q0_buf := h.q0_buf
    q1_le := h.q1_le
    q1_eq := h.q1_eq
    q1_cap := h.q1_cap
    q2_le := h.q2_le
    q2_eq := h.q2_eq
    q2_cap := h.q2_cap
    q3_le := by simp only; omega
    q3_eq := ?_
    q3_cap := by
      intro x hx
      rcases List.mem_append.mp hx with hx | hx
      · exact h.q3_cap x hx
      · simp at hx; rw [hx]; exact a3
    trace := trace_tau h rfl
    faults := by
      have := h.faults
      simp only [hpc, reduceCtorEq, exists_false, or_false] at this
      rw [List.mem_append, this]; simp }
  · have hmi := h.main
    unfold MainInv at hmi ⊢
    unfold State.mainLeft at hm
    cases hs : s.main with
    | joining => simp [hs] at hm
    | done r => simp [hs] at hm
    | panicked => simp [hs] at hm
    | _ => simpa [hs] using hmi
  · show _ = ((theOuts P data).take (k.w3 + 1)).drop k.m3
    rw [slice_snoc a2 hq, ← h.q3_eq]; simp

/-! ### Main -/

/-- A step that only changes the main thread's position. -/
theorem step_main (h : Inv P data ls s k) {m : MainPc}
    (hm : MainInv P data m s.reader s.codec s.writer s.nextIdx s.q3 s.progress k.m3) :
    Inv P data (ls ++ [.tau]) { s with main := m } k :=
  { h with
    reader := h.reader
    main := hm
    trace := trace_tau h rfl
    faults := by rw [List.mem_append, h.faults]; simp }

/-- A buffer is handed to the reader. -/
theorem step_supply (h : Inv P data ls s k) {m : MainPc} {c : PChunk} {pr : List Nat}
    (hm : MainInv P data m s.reader s.codec s.writer (s.nextIdx + 1) s.q3 pr k.m3)
    (hidx : c.idx = s.nextIdx) (hb : c.buffer.length = P.inputBufferSize) (hcap : c.cap = P.bufferCapacity) :
    Inv P data (ls ++ [.tau]) { s with
        q0 := if s.readerDone then s.q0 else s.q0 ++ [c]
        nextIdx := s.nextIdx + 1
        progress := pr
        main := m } k := by
  refine
  { h with
    reader := h.reader
    main := hm
    q0_len := ?_
    q0_len' := ?_
    q0_idx := ?_
    q0_buf := ?_
    trace := trace_tau h rfl
    faults := by rw [List.mem_append, h.faults]; simp }
  · intro hd
    have hd : s.readerDone = false := hd
    have := h.q0_len hd
    simp only [hd, Bool.false_eq_true, if_false, List.length_append, List.length_cons, List.length_nil]
    omega
  · have := h.q0_len'
    simp only
    split <;> simp <;> omega
  · intro i x
    simp only
    split
    · exact h.q0_idx i x
    · rename_i hd
      intro hx
      rw [List.getElem?_append] at hx
      split at hx
      · exact h.q0_idx i x hx
      · rename_i hge
        have := h.q0_len (by simpa using hd)
        have hi : i - s.q0.length = 0 := by
          by_contra hne
          rw [List.getElem?_eq_none (by simp; omega)] at hx
          cases hx
        rw [hi] at hx
        simp at hx
        subst hx
        omega
  · intro x
    simp only
    split
    · exact h.q0_buf x
    · intro hx
      rcases List.mem_append.mp hx with hx | hx
      · exact h.q0_buf x hx
      · simp at hx; rw [hx]; exact ⟨hb, hcap⟩

theorem resize_length (n : Nat) (b : Bytes) : (resize n b).length = n := by
  simp only [resize, List.length_append, List.length_take, List.length_replicate]; omega

theorem inv_mainInit (h : Inv P data ls s k) {j : Nat} (hpc : s.main = .init j) (hj : j < NUM_CHUNKS_IN_PIPELINE) :
    Inv P data (ls ++ [.tau]) { s with
        q0 := if s.readerDone then s.q0 else s.q0 ++ [freshChunk P s.nextIdx]
        nextIdx := s.nextIdx + 1
        main := .init (j + 1) } k := by
  have hm := h.main
  simp only [MainInv, hpc] at hm
  obtain ⟨a1, a2, a3, a4⟩ := hm
  unfold NUM_CHUNKS_IN_PIPELINE at hj
  have hcap := inputBufferSize_lt P
  apply step_supply h _ rfl _ rfl
  · exact ⟨by omega, by omega, a3, a4⟩
  · simp [freshChunk]; omega

theorem inv_mainStart (h : Inv P data ls s k) {j : Nat} (hpc : s.main = .init j) (hj : ¬ j < NUM_CHUNKS_IN_PIPELINE) :
    Inv P data (ls ++ [.tau]) { s with main := .loop } k := by
  have hm := h.main
  simp only [MainInv, hpc] at hm
  obtain ⟨a1, a2, a3, a4⟩ := hm
  unfold NUM_CHUNKS_IN_PIPELINE at hj
  apply step_main h
  exact ⟨by omega, by rw [a3, a4]; simp⟩

theorem inv_mainRecv (h : Inv P data ls s k) {c : PChunk} {rest : List PChunk} (hpc : s.main = .loop)
    (hq : s.q3 = c :: rest) :
    Inv P data (ls ++ [.tau]) { s with q3 := rest, main := .got c } { k with m3 := k.m3 + 1 } := by
  have hm := h.main
  simp only [MainInv, hpc] at hm
  obtain ⟨a1, a2⟩ := hm
  have hs := h.q3_eq
  rw [hq, List.map_cons] at hs
  obtain ⟨b1, b2, b3⟩ := slice_cons hs.symm
  exact
  { h with
    reader := h.reader
    main := ⟨by simp only; omega, by simp only; omega, by simpa using b1, h.q3_cap c (by rw [hq]; simp), by simpa using a2⟩
    q3_le := by simp only; omega
    q3_eq := b3.symm
    q3_cap := fun x hx => h.q3_cap x (by rw [hq]; exact List.mem_cons_of_mem _ hx)
    trace := trace_tau h rfl
    faults := by rw [List.mem_append, h.faults]; simp }

/-- The chunk handled by the main thread: the sizes fit and the count of bytes is that of the input chunk. -/
theorem got_facts (hL : P.conv.Lawful) (h : Inv P data ls s k) {c : PChunk} (hpc : s.main = .got c) :
    ∃ x, (theChunks P data)[k.m3 - 1]? = some x ∧ writtenBytes P c = x.buffer.length ∧
      P.conv.outputAsize ≤ c.buffer.length ∧ growCap c.cap P.inputBufferSize = P.bufferCapacity := by
  have hm := h.main
  simp only [MainInv, hpc] at hm
  obtain ⟨a1, a2, a3, a4, a5⟩ := hm
  obtain ⟨x, hx, hxc⟩ := convertedPrefix_get _ _ _ _ a3
  have hs : c.buffer.length + _ = _ := hL.size _ _ hxc
  have hr := hL.room _ _ hxc
  have := inputBufferSize_lt P
  refine ⟨x, hx, ?_, by omega, by rw [growCap_le (by omega), a4]⟩
  unfold writtenBytes
  omega

theorem inv_mainResend (hL : P.conv.Lawful) (h : Inv P data ls s k) {c : PChunk} (hpc : s.main = .got c) :
    Inv P data (ls ++ [.tau]) { s with
        q0 := if s.readerDone then s.q0 else s.q0 ++ [recycle P c s.nextIdx]
        nextIdx := s.nextIdx + 1
        progress := s.progress ++ [writtenBytes P c]
        main := .loop } k := by
  obtain ⟨x, hx, hw, ho, hg⟩ := got_facts hL h hpc
  have hm := h.main
  simp only [MainInv, hpc] at hm
  obtain ⟨a1, a2, a3, a4, a5⟩ := hm
  apply step_supply h _ rfl (resize_length _ _) hg
  refine ⟨by omega, ?_⟩
  obtain ⟨hlt, hxe⟩ := List.getElem?_eq_some_iff.mp hx
  have hk : k.m3 = k.m3 - 1 + 1 := by omega
  rw [a5, hw, hk, List.take_succ_eq_append_getElem hlt, hxe]
  simp

theorem inv_mainPanic (hL : P.conv.Lawful) (h : Inv P data ls s k) {c : PChunk} (hpc : s.main = .got c)
    (hn : ¬ (P.conv.outputAsize ≤ c.buffer.length ∧ growCap c.cap P.inputBufferSize = P.bufferCapacity)) : False := by
  obtain ⟨x, hx, hw, ho, hg⟩ := got_facts hL h hpc
  exact hn ⟨ho, hg⟩

theorem inv_mainLeave (h : Inv P data ls s k) (hpc : s.main = .loop) (hq : s.q3 = []) (hw : s.writerDone = true) :
    Inv P data (ls ++ [.tau]) { s with main := .joining } k := by
  have hm := h.main
  simp only [MainInv, hpc] at hm
  apply step_main h
  refine ⟨hm.1, ?_, hq, hm.2⟩
  unfold State.writerDone at hw
  cases hs : s.writer with
  | done e => exact ⟨e, rfl⟩
  | _ => simp [hs] at hw

theorem inv_mainJoin (h : Inv P data ls s k) {r c w : Exit} (hpc : s.main = .joining) (hr : s.reader = .done r)
    (hc : s.codec = .done c) (hw : s.writer = .done w) :
    Inv P data (ls ++ [.tau]) { s with main := .done (joinResults [r, c, w]) } k := by
  have hm := h.main
  simp only [MainInv, hpc] at hm
  apply step_main h
  exact ⟨hm.1, hm.2.2.1, hm.2.2.2, r, c, w, hr, hc, hw, rfl⟩

end

/-- Every transition preserves the invariant. -/
theorem inv_step {P : Params} {data : Bytes} (hL : P.conv.Lawful) (hN : 0 < P.inputBufferSize) {ls : List Label}
    {s s' : State} {k : Counts} {l : Label} (h : Inv P data ls s k) (hs : Step P s l s') :
    ∃ k', Inv P data (ls ++ [l]) s' k' := by
  cases hs with
  | readerRecv c rest h1 h2 => exact ⟨_, step_readerRecv hN h h1 h2⟩
  | readerClosed h1 h2 h3 => exact ⟨_, inv_readerClosed h h1 h3⟩
  | readSome c ptr n h1 h2 h3 h4 h5 => exact ⟨_, inv_readSome h h1 h4 h5 h2⟩
  | readEof c ptr h1 h2 h3 => exact ⟨_, inv_readEof h h1 h2 h3⟩
  | readEintr c ptr h1 h2 => exact ⟨_, inv_eintr h⟩
  | readFault c ptr h1 h2 => exact ⟨_, inv_readFault h h1⟩
  | readFull c ptr h1 h2 => exact ⟨_, inv_readFull hN h h1 h2⟩
  | readerSend c last h1 h2 h3 => exact ⟨_, inv_readerSend h h1 h2 h3⟩
  | readerSendError c last h1 h2 => exact ⟨_, inv_readerSendError h h1 h2⟩
  | codecRecv c rest h1 h2 => exact ⟨_, inv_codecRecv h h1 h2⟩
  | codecClosed h1 h2 h3 => exact ⟨_, inv_codecClosed h h1 h2 h3⟩
  | convertOk c c' h1 h2 => exact ⟨_, inv_convertOk hL hN h h1 h2⟩
  | convertErr c e h1 h2 => exact ⟨_, inv_convertErr h h1 h2⟩
  | convertPanic c h1 h2 => exact ⟨_, inv_convertPanic h h1 h2⟩
  | codecSend c h1 h2 h3 => exact ⟨_, inv_codecSend h h1 h2 h3⟩
  | codecSendError c h1 h2 => exact ⟨_, inv_codecSendError h h1 h2⟩
  | writerRecv c rest h1 h2 => exact ⟨_, inv_writerRecv h h1 h2⟩
  | writerClosed h1 h2 h3 => exact ⟨_, inv_writerClosed h h1 h2 h3⟩
  | writeSome c ptr n h1 h2 h3 => exact ⟨_, inv_writeSome h h1 h3⟩
  | writeEintr c ptr h1 h2 => exact ⟨_, inv_eintr h⟩
  | writeFault c ptr h1 h2 => exact ⟨_, inv_writeFault h h1⟩
  | writeDone c ptr h1 h2 => exact ⟨_, inv_writeDone hL hN h h1 h2⟩
  | flush c h1 => exact ⟨_, inv_flush h h1⟩
  | flushFault c h1 => exact ⟨_, inv_flushFault h h1⟩
  | writerSend c h1 h2 => exact ⟨_, inv_writerSend h h1 h2⟩
  | writerSendError c h1 h2 =>
    obtain ⟨e, he⟩ := mainLeft_done h h2
    rw [he] at h1; cases h1
  | mainInit j h1 h2 => exact ⟨_, inv_mainInit h h1 h2⟩
  | mainStart j h1 h2 => exact ⟨_, inv_mainStart h h1 h2⟩
  | mainRecv c rest h1 h2 => exact ⟨_, inv_mainRecv h h1 h2⟩
  | mainResend c h1 h2 h3 => exact ⟨_, inv_mainResend hL h h1⟩
  | mainPanic c h1 h2 => exact (inv_mainPanic hL h h1 h2).elim
  | mainLeave h1 h2 h3 => exact ⟨_, inv_mainLeave h h1 h2 h3⟩
  | mainJoin r c w h1 h2 h3 h4 => exact ⟨_, inv_mainJoin h h1 h2 h3 h4⟩

/-- The invariant holds in every reachable state. -/
theorem inv_run {P : Params} {data : Bytes} (hL : P.conv.Lawful) (hN : 0 < P.inputBufferSize) {ls : List Label}
    {s : State} (h : Run P (State.start data) ls s) : ∃ k, Inv P data ls s k := by
  induction h with
  | refl => exact ⟨_, inv_start P data⟩
  | step ls t l u _ hs ih => obtain ⟨k, hk⟩ := ih; exact inv_step hL hN hk hs

end Rypt.Pipeline
