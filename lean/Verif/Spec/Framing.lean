import Verif.Model.Base

/-!
Specification of the framing of the header, written independently of the model: signature "rypt", little-endian 32-bit
length, header, zero bytes up to a multiple of 8.
-/

namespace Rypt.Spec

/-- Number of zero bytes after a header of length `n`: the least `p` making `n + p` a multiple of 8. -/
def pad (n : Nat) : Nat := (8 - n % 8) % 8

/-- The four length bytes, least significant first. -/
def lenBytes (n : Nat) : Bytes :=
  [UInt8.ofNat n, UInt8.ofNat (n / 2 ^ 8), UInt8.ofNat (n / 2 ^ 16), UInt8.ofNat (n / 2 ^ 24)]

/-- A framed header. -/
def frame (header : Bytes) : Bytes :=
  [114, 121, 112, 116] ++ lenBytes header.length ++ header ++ List.replicate (pad header.length) 0

/-- 16 MiB. -/
def maxHeader : Nat := 16777216

/-- The length announced by the bytes 4 to 7. -/
def announced (data : Bytes) : Nat :=
  match data.drop 4 with
  | a :: b :: c :: d :: _ => a.toNat + 2 ^ 8 * b.toNat + 2 ^ 16 * c.toNat + 2 ^ 24 * d.toNat
  | _ => 0

end Rypt.Spec

