import Verif.Spec.Framing
import Verif.Spec.Chunking

/-!
Specification of the encrypted file, written independently of the code: the framed header, followed by the plaintext cut
into chunks, each sealed with the payload key under its own nonce and bound to the header and to its position.
-/

namespace Rypt.Spec

/-- Bytes of a 64-bit number, least significant first. -/
def le64 (i : Nat) : Bytes :=
  [UInt8.ofNat i, UInt8.ofNat (i / 2 ^ 8), UInt8.ofNat (i / 2 ^ 16), UInt8.ofNat (i / 2 ^ 24),
    UInt8.ofNat (i / 2 ^ 32), UInt8.ofNat (i / 2 ^ 40), UInt8.ofNat (i / 2 ^ 48), UInt8.ofNat (i / 2 ^ 56)]

/-- The nonce of payload chunk `i`: "rych" and the number. -/
def payloadNonce (i : Nat) : Bytes := [114, 121, 99, 104] ++ le64 i

/-- The nonce of the protected part of the header: "rypt enc hdr". -/
def headerNonce : Bytes := [114, 121, 112, 116, 32, 101, 110, 99, 32, 104, 100, 114]

/-- The data a chunk is bound to: the hash of the header and whether it is the last chunk. -/
def boundTo (headerHash : Bytes) (isLast : Bool) : Bytes := headerHash ++ [if isLast then 1 else 0]

/-- One call of the AEAD: nonce, associated data, ciphertext, MAC. -/
structure SealedBox where
  nonce : Bytes
  ad : Bytes
  ct : Bytes
  mac : Bytes
  deriving DecidableEq

/-- Sealing a message. -/
def sealBox (C : Crypto) (key nonce ad m : Bytes) : SealedBox :=
  ⟨nonce, ad, (C.aeadEncrypt key nonce ad m).1, (C.aeadEncrypt key nonce ad m).2⟩

/-- The sealed form of a chunk. -/
def sealChunk (C : Crypto) (key headerHash : Bytes) (c : Chunk) : SealedBox :=
  sealBox C key (payloadNonce c.idx) (boundTo headerHash c.isLast) c.buffer

/-- The bytes of a sealed chunk. -/
def SealedBox.bytes (b : SealedBox) : Bytes := b.ct ++ b.mac

/-- The payload of the file. -/
def payload (C : Crypto) (key headerHash : Bytes) (size : Nat) (plain : Bytes) : Bytes :=
  ((chunks size plain).map fun c => (sealChunk C key headerHash c).bytes).flatten

/-- The whole file. -/
def file (C : Crypto) (key header : Bytes) (size : Nat) (plain : Bytes) : Bytes :=
  frame header ++ payload C key (C.hash header) size plain

/-- A chunk as found in a file, taken as a sealed box: the last 16 bytes are the MAC. -/
def boxOf (headerHash : Bytes) (c : Chunk) : SealedBox :=
  ⟨payloadNonce c.idx, boundTo headerHash c.isLast, c.buffer.take (c.buffer.length - 16),
    c.buffer.drop (c.buffer.length - 16)⟩

/-- The boxes an honest encryption seals under its payload key, for each set of primitives: the protected part of the
header and the chunks of the payload. -/
def SealedBy (C : Crypto) (key headerHash : Bytes) (size : Nat) (plain protectedPart : Bytes) (C' : Crypto)
    (b : SealedBox) : Prop :=
  C' = C ∧ (b = sealBox C key headerNonce [] protectedPart ∨
    b ∈ (chunks size plain).map (sealChunk C key headerHash))

/-- `body`, a payload read in pieces of `size + 16` bytes under a header with hash `headerHash`, contains a box that the
AEAD of `C` accepts under `key` although it is none of the boxes `made`. -/
def ContainsForgery (C : Crypto) (key headerHash : Bytes) (size : Nat) (body : Bytes)
    (made : Crypto → SealedBox → Prop) : Prop :=
  ∃ c ∈ chunks (size + 16) body, 16 ≤ c.buffer.length ∧
    (∃ m, C.aeadDecrypt key (boxOf headerHash c).nonce (boxOf headerHash c).ad (boxOf headerHash c).ct
      (boxOf headerHash c).mac = some m) ∧
    ¬ made C (boxOf headerHash c)

end Rypt.Spec
