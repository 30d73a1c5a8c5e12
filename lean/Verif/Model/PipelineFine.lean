import Verif.Model.Pipeline

/-!
A finer model of src/stream_pipeline.rs, for two things that Model/Pipeline.lean leaves out: threads are started one after the other
and starting may fail, and a thread that ends lets go of the receiver of its channel first and of the sender later.
-/

namespace Rypt.Pipeline

/-- The state of the pipeline with the number of threads that have been started (`failed`: the next one could not be), and who has let
go of its receiver (in `state`: the thread has ended, the main thread has left its loop) but still holds its sender.
src/stream_pipeline.rs:65-81 and the ends of the functions in lines 116, 156-231. -/
structure Fine where
  state : State
  spawned : Nat
  failed : Bool
  readerHolds : Bool
  codecHolds : Bool
  writerHolds : Bool
  mainHolds : Bool

/-- src/stream_pipeline.rs:65-70: nothing started yet. -/
def Fine.start (input : Bytes) : Fine := ⟨State.start input, 0, false, false, false, false, false⟩

/-- src/stream_pipeline.rs:71-79: starting thread number `k` (from 0) fails, `?` returns the error. The threads that were not
started do not exist; the streams, the converter and the channel ends that were meant for them are dropped. -/
def State.abandon (s : State) (k : Nat) : State :=
  { s with
    main := .done (.err .io)
    reader := if k ≤ 0 then .done .ok else s.reader
    codec := if k ≤ 1 then .done .ok else s.codec
    writer := if k ≤ 2 then .done .ok else s.writer }

/-- A thread has to be started to do anything, and the main thread goes on when all are. src/stream_pipeline.rs:71-79. -/
structure Fine.Runs (f : Fine) (s' : State) : Prop where
  reader : s'.reader ≠ f.state.reader → 1 ≤ f.spawned
  codec : s'.codec ≠ f.state.codec → 2 ≤ f.spawned
  writer : s'.writer ≠ f.state.writer → 3 ≤ f.spawned
  main : s'.main ≠ f.state.main → f.spawned = 3

/-- A loop over a channel ends when the sender has been dropped, and a thread can be joined when it has dropped everything; the main
thread joins after dropping its sender. src/stream_pipeline.rs:98, 116-122, 162, 212, 223. -/
structure Fine.Sees (f : Fine) (s' : State) : Prop where
  reader : f.state.reader = .recv → s'.reader = .done .ok → f.mainHolds = false
  codec : f.state.codec = .recv → s'.codec = .done .ok → f.readerHolds = false
  writer : f.state.writer = .recv → s'.writer = .done .ok → f.codecHolds = false
  main : f.state.main = .loop → s'.main = .joining → f.writerHolds = false
  join : f.state.main = .joining → s'.main ≠ .joining →
    f.readerHolds = false ∧ f.codecHolds = false ∧ f.writerHolds = false ∧ f.mainHolds = false

/-- After a step of Model/Pipeline.lean: who ended (or left the loop) has dropped the receiver, which belongs to the loop, and not yet
the sender, which is a parameter (or a variable). src/stream_pipeline.rs:98, 116, 159, 162, 210, 212, 221, 223. -/
def Fine.after (f : Fine) (s' : State) : Fine :=
  { f with
    state := s'
    readerHolds := if s'.readerDone && !f.state.readerDone then true else f.readerHolds
    codecHolds := if s'.codecDone && !f.state.codecDone then true else f.codecHolds
    writerHolds := if s'.writerDone && !f.state.writerDone then true else f.writerHolds
    mainHolds := if s'.mainLeft && !f.state.mainLeft then true else f.mainHolds }

/-- The transitions. src/stream_pipeline.rs:65-231, see the constructors. -/
inductive FStep (P : Params) : Fine → Label → Fine → Prop where
  /-- lines 71-79: the next thread starts. -/
  | spawn (f : Fine) : f.failed = false → f.spawned < 3 → FStep P f .tau { f with spawned := f.spawned + 1 }
  /-- lines 71-79: the next thread cannot be started. -/
  | spawnFails (f : Fine) : f.failed = false → f.spawned < 3 →
      FStep P f .ioFault { f with state := f.state.abandon f.spawned, failed := true, mainHolds := true }
  /-- what threads that have been started do -/
  | work (f : Fine) (l : Label) (s' : State) : Step P f.state l s' → f.Runs s' → f.Sees s' → FStep P f l (f.after s')
  /-- line 204 and the other ends of `read_stream`: the sender is dropped. -/
  | readerLetsGo (f : Fine) : f.readerHolds = true → FStep P f .tau { f with readerHolds := false }
  /-- line 215 and the other ends of `convert_chunks`. -/
  | codecLetsGo (f : Fine) : f.codecHolds = true → FStep P f .tau { f with codecHolds := false }
  /-- line 230 and the other ends of `write_stream`. -/
  | writerLetsGo (f : Fine) : f.writerHolds = true → FStep P f .tau { f with writerHolds := false }
  /-- line 116, or the end of `convert_stream` after an error or a panic. -/
  | mainLetsGo (f : Fine) : f.mainHolds = true → FStep P f .tau { f with mainHolds := false }

/-- Executions with the labels of their steps. Interleavings of the threads of src/stream_pipeline.rs:71-153. -/
inductive FRun (P : Params) (f : Fine) : List Label → Fine → Prop where
  | refl : FRun P f [] f
  | step (ls : List Label) (g : Fine) (l : Label) (h : Fine) : FRun P f ls g → FStep P g l h → FRun P f (ls ++ [l]) h

end Rypt.Pipeline
