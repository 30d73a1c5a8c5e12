import Verif.Model.Text

/-! Model of the hex functions of src/util.rs (lines 33-116). -/

namespace Rypt.Hex

open Text

/-- `{:x}` of a number below 16. In src/util.rs:37. -/
def hexChar (n : Nat) : Char := Char.ofNat (if n < 10 then 48 + n else 87 + n)

/-- src/util.rs:33-40. -/
def toHexString (bytes : Bytes) : List Char :=
  bytes.flatMap (fun b => [hexChar (b.toNat / 16), hexChar (b.toNat % 16)])

/-- src/util.rs:52-67. `sha512` is the hash function of libsodium (src/util.rs:43-49). `hash_hex_string.chars().cycle()` is
indexing modulo the length; `zip` with an empty iterator is empty. -/
def toHexStringChecksummed (sha512 : Bytes → Bytes) (bytes : Bytes) : List Char :=
  let hex := toHexString bytes
  let hash := toHexString (sha512 bytes)
  if hash.length = 0 then []
  else
    hex.zipIdx.map (fun (hexChar, i) =>
      match hash[i % hash.length]? with
      | some hashChar => if '8' ≤ hashChar then toAsciiUppercase hexChar else toAsciiLowercase hexChar
      | none => hexChar)

/-- src/util.rs:69-79. -/
inductive ParseHexError where
  | invalidChar (c : Char)
  | invalidLength
  | invalidChecksum (bytes : Bytes)
  deriving DecidableEq, Repr

/-- The loop of src/util.rs:82-105 with the variables of the code. -/
def parseHexLoop (acc : UInt8) (cnt : Nat) (res : Bytes) : List Char → Except ParseHexError Bytes
  | [] => if cnt > 0 then .error .invalidLength else .ok res
  | ch :: rest =>
    if cnt = 0 ∧ isWhitespace ch then parseHexLoop acc cnt res rest
    else
      match toDigit16 ch with
      | some val =>
        let acc := (acc <<< 4) + UInt8.ofNat val
        if cnt + 1 = 2 then parseHexLoop 0 0 (res ++ [acc]) rest
        else parseHexLoop acc (cnt + 1) res rest
      | none => .error (.invalidChar ch)

/-- src/util.rs:81-106. -/
def tryParseHexString (s : List Char) : Except ParseHexError Bytes := parseHexLoop 0 0 [] s

/-- src/util.rs:108-116. -/
def tryParseHexStringChecksummed (sha512 : Bytes → Bytes) (s : List Char) : Except ParseHexError Bytes :=
  match tryParseHexString s with
  | .error e => .error e
  | .ok bytes =>
    if toHexStringChecksummed sha512 bytes ≠ removeWhitespace s then .error (.invalidChecksum bytes) else .ok bytes

end Rypt.Hex
