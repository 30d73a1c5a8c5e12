import Verif.Model.Base

/-!
Strings (`String`, `&str`) as lists of characters, and the functions of Rust's standard library that rypt applies to them.
A Rust `char` is a Unicode scalar value, as is a Lean `Char`. None of this is code of /repo; each definition says where it is used.
-/

namespace Rypt.Text

/-- `char::is_whitespace` (Unicode property White_Space); used at src/util.rs:86, 110, src/cli/credentials.rs:369 and by `str::trim`. -/
def isWhitespace (c : Char) : Bool :=
  let v := c.toNat
  (9 ≤ v && v ≤ 13) || v == 0x20 || v == 0x85 || v == 0xA0 || v == 0x1680 || (0x2000 ≤ v && v ≤ 0x200A) ||
    v == 0x2028 || v == 0x2029 || v == 0x202F || v == 0x205F || v == 0x3000

/-- `char::to_digit(16)`; used at src/util.rs:89. -/
def toDigit16 (c : Char) : Option Nat :=
  let v := c.toNat
  if 48 ≤ v ∧ v ≤ 57 then some (v - 48)
  else if 97 ≤ v ∧ v ≤ 102 then some (v - 97 + 10)
  else if 65 ≤ v ∧ v ≤ 70 then some (v - 65 + 10)
  else none

/-- `char::to_ascii_uppercase`; used at src/util.rs:61. -/
def toAsciiUppercase (c : Char) : Char :=
  if 97 ≤ c.toNat ∧ c.toNat ≤ 122 then Char.ofNat (c.toNat - 32) else c

/-- `char::to_ascii_lowercase`; used at src/util.rs:63 and, for strings, src/ui.rs:51. -/
def toAsciiLowercase (c : Char) : Char :=
  if 65 ≤ c.toNat ∧ c.toNat ≤ 90 then Char.ofNat (c.toNat + 32) else c

/-- `s.replace(char::is_whitespace, "")`; used at src/util.rs:110, src/cli/credentials.rs:369. -/
def removeWhitespace (s : List Char) : List Char := s.filter (fun c => !isWhitespace c)

/-- `str::trim`; used at src/cli/credentials.rs:396, src/cli/io_streams.rs:38, src/commands/gen_keys.rs:50. -/
def trim (s : List Char) : List Char := ((s.dropWhile isWhitespace).reverse.dropWhile isWhitespace).reverse

/-- The lines of `str::lines` without handling of `\r`: split at `\n`; no line after a final `\n`. `cur` is the current
line, reversed. src/cli/credentials.rs:395. -/
def splitLines : List Char → List Char → List (List Char)
  | cur, [] => if cur = [] then [] else [cur.reverse]
  | cur, '\n' :: rest => cur.reverse :: splitLines [] rest
  | cur, c :: rest => splitLines (c :: cur) rest

/-- A `\r` at the end of a line is removed. src/cli/credentials.rs:395. -/
def chopCr (s : List Char) : List Char :=
  if s.getLast? = some '\r' then s.dropLast else s

/-- `str::lines`; used at src/cli/credentials.rs:395. -/
def lines (s : List Char) : List (List Char) := (splitLines [] s).map chopCr

/-- The bytes of a character in UTF-8. std; src/ui.rs:132, src/commands/gen_keys.rs:58. -/
def encodeChar (c : Char) : Bytes :=
  let v := c.toNat
  if v < 0x80 then [UInt8.ofNat v]
  else if v < 0x800 then [UInt8.ofNat (0xC0 + v / 64), UInt8.ofNat (0x80 + v % 64)]
  else if v < 0x10000 then
    [UInt8.ofNat (0xE0 + v / 4096), UInt8.ofNat (0x80 + v / 64 % 64), UInt8.ofNat (0x80 + v % 64)]
  else
    [UInt8.ofNat (0xF0 + v / 262144), UInt8.ofNat (0x80 + v / 4096 % 64), UInt8.ofNat (0x80 + v / 64 % 64),
      UInt8.ofNat (0x80 + v % 64)]

/-- `str::as_bytes`: strings are UTF-8 in memory. src/ui.rs:132, src/commands/gen_keys.rs:58, 66. -/
def encode (s : List Char) : Bytes := s.flatMap encodeChar

/-- `str::len`: bytes, not characters; used at src/cli/credentials.rs:371. -/
def strLen (s : List Char) : Nat := (encode s).length

/-- `str::split_at`: panics unless the position is between two characters; used at src/cli/credentials.rs:378. -/
def strSplitAt : List Char → Nat → Res (List Char × List Char)
  | s, 0 => .ok ([], s)
  | [], _ + 1 => .panic
  | c :: rest, n + 1 =>
    if (encodeChar c).length ≤ n + 1 then
      (do let (a, b) ← strSplitAt rest (n + 1 - (encodeChar c).length); pure (c :: a, b))
    else .panic

/-- What `std::str::from_utf8` says: the text, or an error with its `error_len` (`none`: the input ends inside a character).
src/ui.rs:180, 193-199; `read_to_string` in src/cli/credentials.rs:394. -/
inductive Utf8 where
  | ok (s : List Char)
  | err (errorLen : Option Nat)
  deriving DecidableEq, Repr

/-- Prepend a character to a successful result. Part of `str::from_utf8`, src/ui.rs:180. -/
def Utf8.cons (c : Char) : Utf8 → Utf8
  | .ok s => .ok (c :: s)
  | .err e => .err e

/-- Continuation bytes `10xxxxxx`. Part of `str::from_utf8`, src/ui.rs:180. -/
def isCont (b : UInt8) : Bool := 0x80 ≤ b.toNat && b.toNat ≤ 0xBF

/-- Second bytes allowed after the first byte of a three-byte character. Part of `str::from_utf8`, src/ui.rs:180. -/
def second3 (b c : UInt8) : Bool :=
  let b := b.toNat; let c := c.toNat
  (b == 0xE0 && 0xA0 ≤ c && c ≤ 0xBF) || (0xE1 ≤ b && b ≤ 0xEC && 0x80 ≤ c && c ≤ 0xBF) ||
    (b == 0xED && 0x80 ≤ c && c ≤ 0x9F) || (0xEE ≤ b && b ≤ 0xEF && 0x80 ≤ c && c ≤ 0xBF)

/-- Second bytes allowed after the first byte of a four-byte character. Part of `str::from_utf8`, src/ui.rs:180. -/
def second4 (b c : UInt8) : Bool :=
  let b := b.toNat; let c := c.toNat
  (b == 0xF0 && 0x90 ≤ c && c ≤ 0xBF) || (0xF1 ≤ b && b ≤ 0xF3 && 0x80 ≤ c && c ≤ 0xBF) ||
    (b == 0xF4 && 0x80 ≤ c && c ≤ 0x8F)

/-- `std::str::from_utf8` (core/src/str, `run_utf8_validation`); used at src/ui.rs:180 and by `fs::read_to_string`. -/
def fromUtf8 : Bytes → Utf8
  | [] => .ok []
  | b :: rest =>
    if b.toNat < 0x80 then (fromUtf8 rest).cons (Char.ofNat b.toNat)
    else if 0xC2 ≤ b.toNat ∧ b.toNat ≤ 0xDF then
      match rest with
      | [] => .err none
      | c :: rest =>
        if isCont c then (fromUtf8 rest).cons (Char.ofNat ((b.toNat - 0xC0) * 64 + (c.toNat - 0x80)))
        else .err (some 1)
    else if 0xE0 ≤ b.toNat ∧ b.toNat ≤ 0xEF then
      match rest with
      | [] => .err none
      | c :: rest =>
        if second3 b c then
          match rest with
          | [] => .err none
          | d :: rest =>
            if isCont d then
              (fromUtf8 rest).cons
                (Char.ofNat ((b.toNat - 0xE0) * 4096 + (c.toNat - 0x80) * 64 + (d.toNat - 0x80)))
            else .err (some 2)
        else .err (some 1)
    else if 0xF0 ≤ b.toNat ∧ b.toNat ≤ 0xF4 then
      match rest with
      | [] => .err none
      | c :: rest =>
        if second4 b c then
          match rest with
          | [] => .err none
          | d :: rest =>
            if isCont d then
              match rest with
              | [] => .err none
              | e :: rest =>
                if isCont e then
                  (fromUtf8 rest).cons
                    (Char.ofNat ((b.toNat - 0xF0) * 262144 + (c.toNat - 0x80) * 4096 + (d.toNat - 0x80) * 64 +
                      (e.toNat - 0x80)))
                else .err (some 3)
            else .err (some 2)
        else .err (some 1)
    else .err (some 1)

end Rypt.Text
