import Verif.Model.Pipeline
import Verif.Spec.Chunking

/-! Notions used to state the properties of the pipeline. -/

namespace Rypt.Pipeline

/-- What the pipeline relies on: a converter keeps the last-chunk mark, changes the size by the announced amounts (and
fails on chunks smaller than these) and stays within the announced space. -/
structure Converter.Lawful (conv : Converter) : Prop where
  keeps_last : ∀ c c', conv.convert c = .ok c' → c'.isLast = c.isLast
  size : ∀ c c', conv.convert c = .ok c' → c'.buffer.length + conv.inputAsize = c.buffer.length + conv.outputAsize
  room : ∀ c c', conv.convert c = .ok c' → conv.inputAsize ≤ c.buffer.length
  peak : ∀ n, conv.peak n + conv.inputAsize ≤ n + max conv.inputAsize conv.outputAsize

/-- The number of steps that are not retries of interrupted calls. -/
def progressSteps (ls : List Label) : Nat := (ls.filter (· ≠ .eintr)).length

def ReaderPc.held : ReaderPc → List PChunk
  | .reading c _ => [c]
  | .sending c _ => [c]
  | _ => []

def CodecPc.held : CodecPc → List PChunk
  | .converting c => [c]
  | .sending c => [c]
  | _ => []

def WriterPc.held : WriterPc → List PChunk
  | .writing c _ => [c]
  | .flushing c => [c]
  | .sending c => [c]
  | _ => []

def MainPc.held : MainPc → List PChunk
  | .got c => [c]
  | _ => []

/-- Every chunk buffer that exists: in a channel or in the hands of a thread. -/
def State.held (s : State) : List PChunk :=
  s.q0 ++ s.reader.held ++ s.q1 ++ s.codec.held ++ s.q2 ++ s.writer.held ++ s.q3 ++ s.main.held

/-- The conversion has returned `r`. -/
def State.returned (s : State) (r : Res Unit) : Prop := s.main = .done r

end Rypt.Pipeline
