import Verif.Proofs.Proto

/-!
Property C29: the protobuf messages of the header survive serialization.
-/

namespace Rypt.Props

open Proto

/-- Decoding the serialization of a header message gives the message back, for every composite key tree. The side
conditions only say that the integers fit their Rust types (`i32`, `u64`) and that the serialization is shorter
than 2^64 bytes. -/
theorem header_wire_roundtrip (h : RyptFileHeader) (hfits : h.Fits) (hlen : (encodeHeader h).length < 2 ^ 64) :
    decodeHeader (encodeHeader h) = some h :=
  decodeHeader_encodeHeader h hfits hlen

/-- The same for the protected header. -/
theorem protected_header_wire_roundtrip (p : ProtectedHeader) (h1 : p.plaintextChunkSize < 2 ^ 64)
    (h2 : p.senderAuthType < 2 ^ 32) (h3 : p.senderPk.length < 2 ^ 64) :
    decodeProtectedHeader (encodeProtectedHeader p) = some p :=
  decodeProtectedHeader_encode p h1 h2 h3

/-- A nested tree: 2 of (leaf with 3 parts, group of one leaf, leaf). -/
def sampleHeader : RyptFileHeader where
  cryptoFamily := some 2
  ephemeralPk := [1, 2, 3]
  payloadKey := some (.mk 2 [.mk 3 (.encrypted [9, 9]), .mk 0 (.composite (.mk 0 [.mk 0 (.encrypted [])])),
    .mk 300 (.encrypted [7])])
  protectedHeader := [5]

example : sampleHeader.Fits := by
  constructor
  · intro alg h; cases h; decide
  · intro ck h
    cases h
    simp [CompositeKey.Fits, FitsList, EncryptedKeyParts.Fits, KeyData.Fits]

/-- The bytes of the wire format. -/
example : encodeHeader sampleHeader =
    [0x0a, 2, 0x08, 2, 0x32, 3, 1, 2, 3, 0x3a, 26, 0x08, 2, 0x12, 6, 0x08, 3, 0x12, 2, 9, 9,
     0x12, 6, 0x1a, 4, 0x12, 2, 0x12, 0, 0x12, 6, 0x08, 0xac, 2, 0x12, 1, 7, 0x42, 1, 5] := by decide +kernel

example : encodeProtectedHeader { plaintextChunkSize := 1048576, senderAuthType := 1, senderPk := [4] } =
    [0x08, 1, 0x12, 1, 4, 0x21, 0, 0, 0x10, 0, 0, 0, 0, 0] := by decide +kernel

end Rypt.Props
