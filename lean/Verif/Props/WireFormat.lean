import Verif.Proofs.WireMessages
import Verif.Props.Wire
import Verif.Model.HeaderCrypto

/-! C127: the encoding of the messages in headers, against its specification. -/

namespace Rypt.Props

open Spec Proto HeaderCrypto

/-- C127: a header is read exactly if it is of the specified encoding, and then as what it stands for. -/
theorem header_read_iff (b : Bytes) (hd : RyptFileHeader) : decodeHeader b = some hd ↔ ReadsHeader b hd := header_iff b hd

/-- C127: the same for the protected part. -/
theorem protected_read_iff (b : Bytes) (ph : ProtectedHeader) : decodeProtectedHeader b = some ph ↔ ReadsProtected b ph := protected_iff b ph

/-- C127: the encoding is unambiguous. -/
theorem header_meaning_unique {b : Bytes} {hd hd' : RyptFileHeader} (h : ReadsHeader b hd) (h' : ReadsHeader b hd') : hd = hd' := by
  rw [← header_iff] at h h'
  rw [h] at h'
  exact Option.some.inj h'

/-- C127: headers are written in this encoding. -/
theorem header_written_in_format (h : RyptFileHeader) (hfits : h.Fits) (hlen : (encodeHeader h).length < 2 ^ 64) :
    ReadsHeader (encodeHeader h) h := (header_iff _ _).mp (decodeHeader_encodeHeader h hfits hlen)

/-- C127: and protected parts. -/
theorem protected_written_in_format (p : ProtectedHeader) (h1 : p.plaintextChunkSize < 2 ^ 64) (h2 : p.senderAuthType < 2 ^ 32)
    (h3 : p.senderPk.length < 2 ^ 64) : ReadsProtected (encodeProtectedHeader p) p :=
  (protected_iff _ _).mp (decodeProtectedHeader_encode p h1 h2 h3)

/-- C127: what is not of this encoding is refused as a header, whatever the credentials. -/
theorem other_header_refused (L : CryptoLib) {b : Bytes} (h : ¬ ∃ hd, ReadsHeader b hd) (S : List Credential) :
    decryptHeader L b S = .err .protoDecode := by
  cases hd : decodeHeader b with
  | some r => exact absurd ⟨r, (header_iff b r).mp hd⟩ h
  | none => unfold decryptHeader; rw [hd]

/-! ### Cases -/

/-- A header that the program itself would not write: the protected part first and twice, of which the second counts; the group of the
payload key in two pieces, the length of the first in two bytes; a field with a number that is not in use. -/
def oddHeader : Bytes :=
  [0x42, 1, 4] ++ [0x3a, 0x88, 0, 0x08, 2, 0x12, 4, 0x12, 2, 9, 9] ++ [0x78, 5] ++ [0x42, 1, 5] ++ [0x3a, 4, 0x12, 2, 0x12, 0] ++
    [0x0a, 2, 0x08, 2] ++ [0x32, 3, 1, 2, 3]

def oddMeaning : RyptFileHeader :=
  ⟨some 2, [1, 2, 3], some (.mk 2 [.mk 0 (.encrypted [9, 9]), .mk 0 (.encrypted [])]), [5]⟩

theorem odd_reads : ReadsHeader oddHeader oddMeaning := (header_iff _ _).mp rfl

/-- The same from the specification alone, for a short header: only the protected part, of one byte. -/
example : ReadsHeader [0x42, 1, 4] ⟨none, [], none, [4]⟩ := by
  refine ⟨[(8, .bytes [4])], [], [], [], [], [[4]], ?_, rfl, rfl, rfl, rfl, .nil, rfl, rfl, .inl ⟨rfl, rfl⟩, rfl⟩
  exact .bytes 8 [0x42] [1] [4] [] [] ⟨by decide, by decide, 66, .last 0x42 (by decide), by decide, rfl⟩
    ⟨1, .last 1 (by decide), by decide, rfl⟩ .nil

example : ReadsHeader (encodeHeader sampleHeader) sampleHeader := by
  refine header_written_in_format _ ⟨?_, ?_⟩ (by decide +kernel)
  · intro alg h; cases h; decide
  · intro ck h
    cases h
    simp [CompositeKey.Fits, FitsList, EncryptedKeyParts.Fits, KeyData.Fits]

example : ReadsProtected [0x21, 0, 0, 0x10, 0, 0, 0, 0, 0, 0x08, 0x81, 0] ⟨1048576, 1, []⟩ := (protected_iff _ _).mp rfl

/-- A key that is a number is refused. -/
example (L : CryptoLib) (S : List Credential) : decryptHeader L [0x30, 1] S = .err .protoDecode := by
  refine other_header_refused L ?_ S
  rintro ⟨hd, h⟩
  rw [← header_iff] at h
  have : decodeHeader [0x30, 1] = none := rfl
  rw [this] at h
  cases h

end Rypt.Props
