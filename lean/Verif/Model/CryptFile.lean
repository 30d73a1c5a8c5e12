import Verif.Model.HeaderIO
import Verif.Model.Pipeline

/-!
Model of the conversion of one stream, src/commands/crypt.rs:47-68: header, then the pipeline. Streams are already open.
-/

namespace Rypt.CryptFile

open HeaderCrypto Pipeline

/-- src/commands/mod.rs:32-36 `CryptDirectionOpts`; for encryption with the random choices. -/
inductive Direction where
  | encrypt (opts : EncryptOptions) (draw : Nat) (tape : Tape)
  | decrypt (credentials : List Credential)

/-- What can be observed of a conversion at some moment: the bytes the output has received, the result if it has returned,
whether a `read`, `write` or `flush` failed. The effects of src/commands/crypt.rs:47-68. -/
structure Obs where
  written : Bytes
  result : Option (Res Unit)
  faulted : Bool

/-- The result of the pipeline, if it has one. src/commands/crypt.rs:62-68. -/
def resultOf (s : State) : Option (Res Unit) :=
  match s.main with
  | .done r => some r
  | .panicked => some .panic
  | _ => none

/-- The pipeline started by src/commands/crypt.rs:62-68. -/
def pipe (codec : Codec) (chunkSize : Nat) : Params := ⟨Converter.ofCodec codec, chunkSize⟩

/-- Observations of the conversion of `input` (src/commands/crypt.rs:47-68), at any moment, under any schedule and any
I/O failures. Simplified: a failing write may leave any beginning of the header in the output. -/
inductive Conversion (L : CryptoLib) (input : Bytes) : Direction → Obs → Prop where
  | started (d : Direction) : Conversion L input d ⟨[], none, false⟩
  /-- line 50 -/
  | encryptHeaderErr (opts : EncryptOptions) (draw : Nat) (tape : Tape) (e : Err) :
      encryptHeader L opts draw tape = .err e →
      Conversion L input (.encrypt opts draw tape) ⟨[], some (.err e), false⟩
  | encryptHeaderPanic (opts : EncryptOptions) (draw : Nat) (tape : Tape) :
      encryptHeader L opts draw tape = .panic →
      Conversion L input (.encrypt opts draw tape) ⟨[], some .panic, false⟩
  /-- line 51 -/
  | writeHeaderErr (opts : EncryptOptions) (draw : Nat) (tape : Tape) (hdr : Bytes) (codec : Codec) (cs : Nat) (e : Err) :
      encryptHeader L opts draw tape = .ok (hdr, codec, cs) → HeaderIO.writeHeader hdr = .err e →
      Conversion L input (.encrypt opts draw tape) ⟨[], some (.err e), false⟩
  | writingHeader (opts : EncryptOptions) (draw : Nat) (tape : Tape) (hdr : Bytes) (codec : Codec) (cs : Nat)
      (pieces : List Bytes) (out : Bytes) :
      encryptHeader L opts draw tape = .ok (hdr, codec, cs) → HeaderIO.writeHeader hdr = .ok pieces →
      out <+: pieces.flatten →
      Conversion L input (.encrypt opts draw tape) ⟨out, none, false⟩
  | writeHeaderFault (opts : EncryptOptions) (draw : Nat) (tape : Tape) (hdr : Bytes) (codec : Codec) (cs : Nat)
      (pieces : List Bytes) (out : Bytes) :
      encryptHeader L opts draw tape = .ok (hdr, codec, cs) → HeaderIO.writeHeader hdr = .ok pieces →
      out <+: pieces.flatten →
      Conversion L input (.encrypt opts draw tape) ⟨out, some (.err .io), true⟩
  /-- lines 62-68 -/
  | encrypting (opts : EncryptOptions) (draw : Nat) (tape : Tape) (hdr : Bytes) (codec : Codec) (cs : Nat)
      (pieces : List Bytes) (ls : List Label) (s : State) :
      encryptHeader L opts draw tape = .ok (hdr, codec, cs) → HeaderIO.writeHeader hdr = .ok pieces →
      Run (pipe codec cs) (State.start input) ls s →
      Conversion L input (.encrypt opts draw tape) ⟨pieces.flatten ++ s.written, resultOf s, decide (.ioFault ∈ ls)⟩
  /-- line 55 -/
  | readHeaderFault (S : List Credential) : Conversion L input (.decrypt S) ⟨[], some (.err .io), true⟩
  | readHeaderErr (S : List Credential) (e : Err) : (HeaderIO.readHeader { data := input }).1 = .err e →
      Conversion L input (.decrypt S) ⟨[], some (.err e), false⟩
  | readHeaderPanic (S : List Credential) : (HeaderIO.readHeader { data := input }).1 = .panic →
      Conversion L input (.decrypt S) ⟨[], some .panic, false⟩
  /-- line 57 -/
  | decryptHeaderErr (S : List Credential) (hdr : Bytes) (n : Nat) (r : Reader) (e : Err) :
      HeaderIO.readHeader { data := input } = (.ok (hdr, n), r) → decryptHeader L hdr S = .err e →
      Conversion L input (.decrypt S) ⟨[], some (.err e), false⟩
  | decryptHeaderPanic (S : List Credential) (hdr : Bytes) (n : Nat) (r : Reader) :
      HeaderIO.readHeader { data := input } = (.ok (hdr, n), r) → decryptHeader L hdr S = .panic →
      Conversion L input (.decrypt S) ⟨[], some .panic, false⟩
  /-- lines 62-68 -/
  | decrypting (S : List Credential) (hdr : Bytes) (n : Nat) (r : Reader) (codec : Codec) (cs : Nat) (ls : List Label)
      (s : State) :
      HeaderIO.readHeader { data := input } = (.ok (hdr, n), r) → decryptHeader L hdr S = .ok (codec, cs) →
      Run (pipe codec cs) (State.start r.data) ls s →
      Conversion L input (.decrypt S) ⟨s.written, resultOf s, decide (.ioFault ∈ ls)⟩

end Rypt.CryptFile
