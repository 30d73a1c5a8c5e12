import Verif.Model.StreamCrypto

/-!
Model of src/stream_pipeline.rs: the reader, codec and writer threads and the main thread, connected by four
crossbeam channels, as a labelled transition system. One transition is one channel operation, one `read`/`write`/`flush`
call, one `convert_chunk` call or one piece of local computation; all interleavings are possible.

Simplifications: a thread's exit closes both its channel ends in one step and all threads are there in the beginning
(Model/PipelineFine.lean does without these two: there threads are started one by one, and starting one can fail); chunk
indices are natural numbers (the code's `u64` would wrap after 2^64 chunks); the progress callback does not panic (see C57).
-/

namespace Rypt.Pipeline

/-- src/stream_pipeline.rs:24-27 `StreamConverter` with src/stream_pipeline.rs:18-22 `ChunkConfig`. `peak n` is the
greatest length the buffer takes while converting a chunk of `n` bytes (it decides whether the `Vec` reallocates). -/
structure Converter where
  inputAsize : Nat
  outputAsize : Nat
  convert : Chunk → Res Chunk
  peak : Nat → Nat

/-- src/stream_pipeline.rs:9. -/
def NUM_CHUNKS_IN_PIPELINE : Nat := 6

/-- A chunk with the capacity of its buffer (`Vec::capacity`). src/stream_pipeline.rs:12-16, 86. -/
structure PChunk extends Chunk where
  cap : Nat
  deriving DecidableEq, Repr

/-- Capacity of a `Vec` (std) of capacity `cap` after growing to `len`: unchanged if it fits, otherwise amortized
growth. Asserted about in src/stream_pipeline.rs:104. -/
def growCap (cap len : Nat) : Nat := if len ≤ cap then cap else max (2 * cap) len

/-- `Vec::resize(n, 0)` (std). src/stream_pipeline.rs:103. -/
def resize (n : Nat) (b : Bytes) : Bytes := b.take n ++ List.replicate (n - b.length) 0

/-- The parameters of `convert_stream` (src/stream_pipeline.rs:52-58). -/
structure Params where
  conv : Converter
  chunkSize : Nat

/-- src/stream_pipeline.rs:82. -/
def Params.inputBufferSize (P : Params) : Nat := P.chunkSize + P.conv.inputAsize

/-- src/stream_pipeline.rs:83. -/
def Params.bufferCapacity (P : Params) : Nat := P.chunkSize + max P.conv.inputAsize P.conv.outputAsize + 1

/-- How a worker thread ended: `Ok(())`, an error downcasting to `SendError<Chunk>`, another error, a panic.
The results joined in src/stream_pipeline.rs:120-149. -/
inductive Exit where
  | ok
  | sendError
  | err (e : Err)
  | panic
  deriving DecidableEq, Repr

/-- Where the reader thread is in `read_stream` (src/stream_pipeline.rs:156-205): at the head of the loop, in the inner
`while` with `read_ptr`, in `output.send` (`last`: the one before `return Ok(())`), or finished. -/
inductive ReaderPc where
  | recv
  | reading (c : PChunk) (ptr : Nat)
  | sending (c : PChunk) (last : Bool)
  | done (e : Exit)
  deriving DecidableEq, Repr

/-- Where the codec thread is in `convert_chunks` (src/stream_pipeline.rs:207-216). -/
inductive CodecPc where
  | recv
  | converting (c : PChunk)
  | sending (c : PChunk)
  | done (e : Exit)
  deriving DecidableEq, Repr

/-- Where the writer thread is in `write_stream` (src/stream_pipeline.rs:218-231); `ptr` is the progress of
`write_all`. -/
inductive WriterPc where
  | recv
  | writing (c : PChunk) (ptr : Nat)
  | flushing (c : PChunk)
  | sending (c : PChunk)
  | done (e : Exit)
  deriving DecidableEq, Repr

/-- Where the main thread is in `convert_stream` (src/stream_pipeline.rs:80-154): sending the `k`-th initial chunk,
waiting in the loop, handling a chunk, joining the threads, returned, panicked. -/
inductive MainPc where
  | init (k : Nat)
  | loop
  | got (c : PChunk)
  | joining
  | done (r : Res Unit)
  | panicked
  deriving DecidableEq, Repr

/-- State of the pipeline. `q0`..`q3` are the contents of the four channels (src/stream_pipeline.rs:65-68), oldest first;
`input` is what the input stream will still deliver; `written` what the output stream received; `flushed` whether it was
flushed after the last write; `progress` the counts passed to the progress callback. -/
structure State where
  reader : ReaderPc
  lastByte : Option UInt8
  codec : CodecPc
  writer : WriterPc
  main : MainPc
  nextIdx : Nat
  q0 : List PChunk
  q1 : List PChunk
  q2 : List PChunk
  q3 : List PChunk
  input : Bytes
  written : Bytes
  flushed : Bool
  progress : List Nat
  deriving DecidableEq, Repr

/-- src/stream_pipeline.rs:70-84 and 157: all threads spawned, nothing sent yet. -/
def State.start (input : Bytes) : State where
  reader := .recv
  lastByte := none
  codec := .recv
  writer := .recv
  main := .init 0
  nextIdx := 0
  q0 := []
  q1 := []
  q2 := []
  q3 := []
  input := input
  written := []
  flushed := false
  progress := []

/-- The reader has ended: it holds neither the receiver of `q0` nor the sender of `q1` any more.
src/stream_pipeline.rs:73, 183-204. -/
def State.readerDone (s : State) : Bool := match s.reader with | .done _ => true | _ => false
/-- The converter has ended and dropped its channels, src/stream_pipeline.rs:76, 213-215. -/
def State.codecDone (s : State) : Bool := match s.codec with | .done _ => true | _ => false
/-- The writer has ended and dropped its channels, src/stream_pipeline.rs:79, 224-230. -/
def State.writerDone (s : State) : Bool := match s.writer with | .done _ => true | _ => false

/-- The main thread has left its loop: `initial_sender` and `final_receiver` are dropped
(src/stream_pipeline.rs:98-116). -/
def State.mainLeft (s : State) : Bool :=
  match s.main with
  | .joining => true
  | .done _ => true
  | .panicked => true
  | _ => false

/-- src/stream_pipeline.rs:86-92: a fresh chunk, of capacity `buffer_capacity`, truncated to the input size. -/
def freshChunk (P : Params) (idx : Nat) : PChunk where
  buffer := (List.replicate P.bufferCapacity 0).take P.inputBufferSize
  isLast := false
  idx := idx
  cap := P.bufferCapacity

/-- src/stream_pipeline.rs:163-170: make room for one more byte and put the byte kept from the previous chunk in
front. Gives the chunk and `read_ptr`. -/
def startReading (lastByte : Option UInt8) (c : PChunk) : PChunk × Nat :=
  let c := { c with buffer := c.buffer ++ [0], cap := growCap c.cap (c.buffer.length + 1) }
  match lastByte with
  | some b => ({ c with buffer := c.buffer.set 0 b }, 1)
  | none => (c, 0)

/-- A successful `read` (src/stream_pipeline.rs:173) storing `bs` at `ptr`. -/
def storeRead (c : PChunk) (ptr : Nat) (bs : Bytes) : PChunk :=
  { c with buffer := c.buffer.take ptr ++ bs ++ c.buffer.drop (ptr + bs.length) }

/-- src/stream_pipeline.rs:103-106: resize the buffer to the input size, renumber. -/
def recycle (P : Params) (c : PChunk) (idx : Nat) : PChunk :=
  { c with buffer := resize P.inputBufferSize c.buffer, cap := growCap c.cap P.inputBufferSize, idx := idx }

/-- src/stream_pipeline.rs:100 `written_bytes`; the subtraction panics (debug) if it underflows. -/
def writtenBytes (P : Params) (c : PChunk) : Nat := c.buffer.length - P.conv.outputAsize + P.conv.inputAsize

/-- src/stream_pipeline.rs:128-151: the first thread that ended with a real error or a panic decides. -/
def joinResults : List Exit → Res Unit
  | [] => .ok ()
  | .ok :: rest => joinResults rest
  | .sendError :: rest => joinResults rest
  | .err e :: _ => .err e
  | .panic :: _ => .err .threadPanic

/-- What a transition shows: internal step, interrupted system call, failed read / write / flush, call of
`convert_chunk`. The effects of src/stream_pipeline.rs:112, 156-231. -/
inductive Label where
  | tau
  | eintr
  | ioFault
  | convert (c : Chunk)
  deriving DecidableEq, Repr

/-- The transitions. src/stream_pipeline.rs:81-231, see the constructors. -/
inductive Step (P : Params) : State → Label → State → Prop where
  -- reader thread, src/stream_pipeline.rs:156-205
  /-- line 162: next buffer; lines 163-170. -/
  | readerRecv (s : State) (c : PChunk) (rest : List PChunk) : s.reader = .recv → s.q0 = c :: rest →
      Step P s .tau { s with
        q0 := rest, reader := .reading (startReading s.lastByte c).1 (startReading s.lastByte c).2 }
  /-- lines 162, 202-204: no buffers left and the main thread has dropped its sender. -/
  | readerClosed (s : State) : s.reader = .recv → s.q0 = [] → s.mainLeft = true →
      Step P s .tau { s with reader := .done .ok }
  /-- lines 173-178: `read` returns `k > 0` bytes, any number up to the space and the data left. -/
  | readSome (s : State) (c : PChunk) (ptr k : Nat) : s.reader = .reading c ptr → ptr < c.buffer.length →
      0 < k → k ≤ c.buffer.length - ptr → k ≤ s.input.length →
      Step P s .tau { s with
        reader := .reading (storeRead c ptr (s.input.take k)) (ptr + k), input := s.input.drop k }
  /-- lines 179-184: end of stream. -/
  | readEof (s : State) (c : PChunk) (ptr : Nat) : s.reader = .reading c ptr → ptr < c.buffer.length →
      s.input = [] →
      Step P s .tau { s with
        reader := .sending { c with buffer := c.buffer.take ptr, isLast := true } true }
  /-- lines 187-190: interrupted, retry. -/
  | readEintr (s : State) (c : PChunk) (ptr : Nat) : s.reader = .reading c ptr → ptr < c.buffer.length →
      Step P s .eintr s
  /-- line 191: any other error. -/
  | readFault (s : State) (c : PChunk) (ptr : Nat) : s.reader = .reading c ptr → ptr < c.buffer.length →
      Step P s .ioFault { s with reader := .done (.err .io) }
  /-- lines 172, 197-198: buffer full; keep the last byte. -/
  | readFull (s : State) (c : PChunk) (ptr : Nat) : s.reader = .reading c ptr → ¬ ptr < c.buffer.length →
      Step P s .tau { s with
        lastByte := c.buffer.getLast?
        reader := .sending { c with buffer := c.buffer.dropLast, isLast := false } false }
  /-- lines 183-184, 199: the chunk is sent (channel of capacity 1). -/
  | readerSend (s : State) (c : PChunk) (last : Bool) : s.reader = .sending c last → s.codecDone = false →
      s.q1 = [] →
      Step P s .tau { s with q1 := [c], reader := if last then .done .ok else .recv }
  /-- lines 183, 199: the codec thread has gone. -/
  | readerSendError (s : State) (c : PChunk) (last : Bool) : s.reader = .sending c last → s.codecDone = true →
      Step P s .tau { s with reader := .done .sendError }
  -- codec thread, src/stream_pipeline.rs:207-216
  | codecRecv (s : State) (c : PChunk) (rest : List PChunk) : s.codec = .recv → s.q1 = c :: rest →
      Step P s .tau { s with q1 := rest, codec := .converting c }
  | codecClosed (s : State) : s.codec = .recv → s.q1 = [] → s.readerDone = true →
      Step P s .tau { s with codec := .done .ok }
  /-- line 213: `convert_chunk` succeeds. -/
  | convertOk (s : State) (c : PChunk) (c' : Chunk) : s.codec = .converting c → P.conv.convert c.toChunk = .ok c' →
      Step P s (.convert c.toChunk) { s with
        codec := .sending { c' with cap := growCap c.cap (P.conv.peak c.buffer.length) } }
  /-- line 213: `convert_chunk` fails. -/
  | convertErr (s : State) (c : PChunk) (e : Err) : s.codec = .converting c → P.conv.convert c.toChunk = .err e →
      Step P s (.convert c.toChunk) { s with codec := .done (.err e) }
  /-- `convert_chunk` panics. -/
  | convertPanic (s : State) (c : PChunk) : s.codec = .converting c → P.conv.convert c.toChunk = .panic →
      Step P s (.convert c.toChunk) { s with codec := .done .panic }
  | codecSend (s : State) (c : PChunk) : s.codec = .sending c → s.writerDone = false → s.q2 = [] →
      Step P s .tau { s with q2 := [c], codec := .recv }
  | codecSendError (s : State) (c : PChunk) : s.codec = .sending c → s.writerDone = true →
      Step P s .tau { s with codec := .done .sendError }
  -- writer thread, src/stream_pipeline.rs:218-231
  | writerRecv (s : State) (c : PChunk) (rest : List PChunk) : s.writer = .recv → s.q2 = c :: rest →
      Step P s .tau { s with q2 := rest, writer := .writing c 0 }
  | writerClosed (s : State) : s.writer = .recv → s.q2 = [] → s.codecDone = true →
      Step P s .tau { s with writer := .done .ok }
  /-- line 224: `write` inside `write_all` takes `k > 0` bytes. -/
  | writeSome (s : State) (c : PChunk) (ptr k : Nat) : s.writer = .writing c ptr → 0 < k →
      ptr + k ≤ c.buffer.length →
      Step P s .tau { s with
        writer := .writing c (ptr + k), written := s.written ++ (c.buffer.drop ptr).take k, flushed := false }
  /-- line 224: interrupted, `write_all` retries. -/
  | writeEintr (s : State) (c : PChunk) (ptr : Nat) : s.writer = .writing c ptr → ptr < c.buffer.length →
      Step P s .eintr s
  /-- line 224: any other error. -/
  | writeFault (s : State) (c : PChunk) (ptr : Nat) : s.writer = .writing c ptr → ptr < c.buffer.length →
      Step P s .ioFault { s with writer := .done (.err .io) }
  /-- line 225: `write_all` is done. -/
  | writeDone (s : State) (c : PChunk) (ptr : Nat) : s.writer = .writing c ptr → ¬ ptr < c.buffer.length →
      Step P s .tau { s with writer := if c.isLast then .flushing c else .sending c }
  /-- line 226. -/
  | flush (s : State) (c : PChunk) : s.writer = .flushing c →
      Step P s .tau { s with flushed := true, writer := .sending c }
  /-- line 226: flushing fails. -/
  | flushFault (s : State) (c : PChunk) : s.writer = .flushing c →
      Step P s .ioFault { s with writer := .done (.err .io) }
  /-- line 228 (unbounded channel). -/
  | writerSend (s : State) (c : PChunk) : s.writer = .sending c → s.mainLeft = false →
      Step P s .tau { s with q3 := s.q3 ++ [c], writer := .recv }
  | writerSendError (s : State) (c : PChunk) : s.writer = .sending c → s.mainLeft = true →
      Step P s .tau { s with writer := .done .sendError }
  -- main thread, src/stream_pipeline.rs:80-154
  /-- lines 85-95: one initial chunk; sending to a finished reader drops it. -/
  | mainInit (s : State) (k : Nat) : s.main = .init k → k < NUM_CHUNKS_IN_PIPELINE →
      Step P s .tau { s with
        q0 := if s.readerDone then s.q0 else s.q0 ++ [freshChunk P s.nextIdx]
        nextIdx := s.nextIdx + 1
        main := .init (k + 1) }
  | mainStart (s : State) (k : Nat) : s.main = .init k → ¬ k < NUM_CHUNKS_IN_PIPELINE →
      Step P s .tau { s with main := .loop }
  /-- line 98. -/
  | mainRecv (s : State) (c : PChunk) (rest : List PChunk) : s.main = .loop → s.q3 = c :: rest →
      Step P s .tau { s with q3 := rest, main := .got c }
  /-- lines 100-112. -/
  | mainResend (s : State) (c : PChunk) : s.main = .got c → P.conv.outputAsize ≤ c.buffer.length →
      growCap c.cap P.inputBufferSize = P.bufferCapacity →
      Step P s .tau { s with
        q0 := if s.readerDone then s.q0 else s.q0 ++ [recycle P c s.nextIdx]
        nextIdx := s.nextIdx + 1
        progress := s.progress ++ [writtenBytes P c]
        main := .loop }
  /-- line 100 (underflow) or line 104 (assertion). -/
  | mainPanic (s : State) (c : PChunk) : s.main = .got c →
      ¬ (P.conv.outputAsize ≤ c.buffer.length ∧ growCap c.cap P.inputBufferSize = P.bufferCapacity) →
      Step P s .tau { s with main := .panicked }
  /-- lines 98, 116: the writer has gone and nothing is left in the channel. -/
  | mainLeave (s : State) : s.main = .loop → s.q3 = [] → s.writerDone = true →
      Step P s .tau { s with main := .joining }
  /-- lines 120-153: all threads have ended. -/
  | mainJoin (s : State) (r c w : Exit) : s.main = .joining → s.reader = .done r → s.codec = .done c →
      s.writer = .done w →
      Step P s .tau { s with main := .done (joinResults [r, c, w]) }

/-- Executions with the labels of their steps. Interleavings of the threads of src/stream_pipeline.rs:71-153. -/
inductive Run (P : Params) (s : State) : List Label → State → Prop where
  | refl : Run P s [] s
  | step (ls : List Label) (t : State) (l : Label) (u : State) : Run P s ls t → Step P t l u → Run P s (ls ++ [l]) u

/-- The chunks handed to the converter during an execution. The arguments of `convert_chunk` in src/stream_pipeline.rs:213. -/
def converted : List Label → List Chunk
  | [] => []
  | .convert c :: ls => c :: converted ls
  | _ :: ls => converted ls

/-- The chunk converter of src/stream_crypto.rs:37-73 for the pipeline; encrypting grows the buffer by the MAC
(line 54). -/
def Converter.ofCodec (codec : HeaderCrypto.Codec) : Converter where
  inputAsize := StreamCrypto.inputAsize codec
  outputAsize := StreamCrypto.outputAsize codec
  convert := StreamCrypto.convertChunk codec
  peak := fun n => if codec.isEncrypting then n + AEAD_MAC_LEN else n

end Rypt.Pipeline
