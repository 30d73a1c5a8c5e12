import Verif.Model.StreamCrypto

/-!
Specification of chunking and of converting a stream chunk by chunk, without threads, buffers or read sizes.
-/

namespace Rypt.Spec

/-- `data` cut into pieces of `size` bytes, numbered from `idx`; the final piece, of at most `size` bytes, is marked. -/
def chunksFrom (size idx : Nat) (data : Bytes) : List Chunk :=
  if data.length ≤ size ∨ size = 0 then [⟨data, true, idx⟩]
  else ⟨data.take size, false, idx⟩ :: chunksFrom size (idx + 1) (data.drop size)
termination_by data.length
decreasing_by
  rename_i h
  simp only [List.length_drop]
  omega

/-- `data` cut into chunks. -/
def chunks (size : Nat) (data : Bytes) : List Chunk := chunksFrom size 0 data

/-- The results of converting chunks in order, up to the first one that fails. -/
def convertedPrefix (convert : Chunk → Res Chunk) : List Chunk → List Chunk
  | [] => []
  | c :: cs =>
    match convert c with
    | .ok c' => c' :: convertedPrefix convert cs
    | _ => []

/-- The outcome of converting chunks in order: the first failure, if any; a panic of the converter is reported
as an error. -/
def convertOutcome (convert : Chunk → Res Chunk) : List Chunk → Res Unit
  | [] => .ok ()
  | c :: cs =>
    match convert c with
    | .ok _ => convertOutcome convert cs
    | .err e => .err e
    | .panic => .err .threadPanic

/-- The bytes of chunks in order. -/
def bytesOf (cs : List Chunk) : Bytes := (cs.map Chunk.buffer).flatten

/-- Converting a stream: the bytes written and the outcome. -/
def convertStream (convert : Chunk → Res Chunk) (size : Nat) (data : Bytes) : Bytes × Res Unit :=
  (bytesOf (convertedPrefix convert (chunks size data)), convertOutcome convert (chunks size data))

end Rypt.Spec
