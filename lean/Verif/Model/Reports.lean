import Verif.Model.CryptFile

/-! The conversion of one stream, with what the progress display is told meanwhile. -/

namespace Rypt.CryptFile

open HeaderCrypto Pipeline

/-- As `Conversion`, with the byte counts passed to `print_progress` so far (src/commands/crypt.rs:56, 67; the latter is called in
src/stream_pipeline.rs:112). -/
inductive Told (L : CryptoLib) (input : Bytes) : Direction → Obs → List Nat → Prop where
  | started (d : Direction) : Told L input d ⟨[], none, false⟩ []
  /-- line 50 -/
  | encryptHeaderErr (opts : EncryptOptions) (draw : Nat) (tape : Tape) (e : Err) :
      encryptHeader L opts draw tape = .err e →
      Told L input (.encrypt opts draw tape) ⟨[], some (.err e), false⟩ []
  | encryptHeaderPanic (opts : EncryptOptions) (draw : Nat) (tape : Tape) :
      encryptHeader L opts draw tape = .panic →
      Told L input (.encrypt opts draw tape) ⟨[], some .panic, false⟩ []
  /-- line 51 -/
  | writeHeaderErr (opts : EncryptOptions) (draw : Nat) (tape : Tape) (hdr : Bytes) (codec : Codec) (cs : Nat) (e : Err) :
      encryptHeader L opts draw tape = .ok (hdr, codec, cs) → HeaderIO.writeHeader hdr = .err e →
      Told L input (.encrypt opts draw tape) ⟨[], some (.err e), false⟩ []
  | writingHeader (opts : EncryptOptions) (draw : Nat) (tape : Tape) (hdr : Bytes) (codec : Codec) (cs : Nat)
      (pieces : List Bytes) (out : Bytes) :
      encryptHeader L opts draw tape = .ok (hdr, codec, cs) → HeaderIO.writeHeader hdr = .ok pieces →
      out <+: pieces.flatten →
      Told L input (.encrypt opts draw tape) ⟨out, none, false⟩ []
  | writeHeaderFault (opts : EncryptOptions) (draw : Nat) (tape : Tape) (hdr : Bytes) (codec : Codec) (cs : Nat)
      (pieces : List Bytes) (out : Bytes) :
      encryptHeader L opts draw tape = .ok (hdr, codec, cs) → HeaderIO.writeHeader hdr = .ok pieces →
      out <+: pieces.flatten →
      Told L input (.encrypt opts draw tape) ⟨out, some (.err .io), true⟩ []
  /-- lines 62-68 -/
  | encrypting (opts : EncryptOptions) (draw : Nat) (tape : Tape) (hdr : Bytes) (codec : Codec) (cs : Nat)
      (pieces : List Bytes) (ls : List Label) (s : State) :
      encryptHeader L opts draw tape = .ok (hdr, codec, cs) → HeaderIO.writeHeader hdr = .ok pieces →
      Run (pipe codec cs) (State.start input) ls s →
      Told L input (.encrypt opts draw tape) ⟨pieces.flatten ++ s.written, resultOf s, decide (.ioFault ∈ ls)⟩ s.progress
  /-- line 55 -/
  | readHeaderFault (S : List Credential) : Told L input (.decrypt S) ⟨[], some (.err .io), true⟩ []
  | readHeaderErr (S : List Credential) (e : Err) : (HeaderIO.readHeader { data := input }).1 = .err e →
      Told L input (.decrypt S) ⟨[], some (.err e), false⟩ []
  | readHeaderPanic (S : List Credential) : (HeaderIO.readHeader { data := input }).1 = .panic →
      Told L input (.decrypt S) ⟨[], some .panic, false⟩ []
  /-- line 56 -/
  | headerRead (S : List Credential) (hdr : Bytes) (n : Nat) (r : Reader) :
      HeaderIO.readHeader { data := input } = (.ok (hdr, n), r) →
      Told L input (.decrypt S) ⟨[], none, false⟩ [n]
  /-- line 57 -/
  | decryptHeaderErr (S : List Credential) (hdr : Bytes) (n : Nat) (r : Reader) (e : Err) :
      HeaderIO.readHeader { data := input } = (.ok (hdr, n), r) → decryptHeader L hdr S = .err e →
      Told L input (.decrypt S) ⟨[], some (.err e), false⟩ [n]
  | decryptHeaderPanic (S : List Credential) (hdr : Bytes) (n : Nat) (r : Reader) :
      HeaderIO.readHeader { data := input } = (.ok (hdr, n), r) → decryptHeader L hdr S = .panic →
      Told L input (.decrypt S) ⟨[], some .panic, false⟩ [n]
  /-- lines 62-68 -/
  | decrypting (S : List Credential) (hdr : Bytes) (n : Nat) (r : Reader) (codec : Codec) (cs : Nat) (ls : List Label)
      (s : State) :
      HeaderIO.readHeader { data := input } = (.ok (hdr, n), r) → decryptHeader L hdr S = .ok (codec, cs) →
      Run (pipe codec cs) (State.start r.data) ls s →
      Told L input (.decrypt S) ⟨s.written, resultOf s, decide (.ioFault ∈ ls)⟩ (n :: s.progress)

end Rypt.CryptFile
