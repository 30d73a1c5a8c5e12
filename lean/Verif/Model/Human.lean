import Verif.Model.Base

/-! Model of the size and duration texts of src/util.rs. -/

namespace Rypt.Human

/-- `{}` for an unsigned integer. In src/util.rs:27-29. -/
def decimal (n : Nat) : List Char := Nat.toDigits 10 n

/-- `{:02}` for an unsigned integer; used at src/util.rs:27, 29. -/
def twoDigits (n : Nat) : List Char := if n < 10 then '0' :: decimal n else decimal n

/-- src/util.rs:19-31, for a duration of `secs` whole seconds (`dur.as_secs()`). -/
def humanDuration (secs : Nat) : List Char :=
  let hrs := secs / 60 / 60
  let mins := secs / 60 % 60
  if 0 < hrs then decimal hrs ++ ':' :: twoDigits mins ++ ':' :: twoDigits (secs % 60)
  else decimal mins ++ ':' :: twoDigits (secs % 60)

/-- src/util.rs:6. -/
def scales : List (List Char) :=
  [['B'], ['K', 'i', 'B'], ['M', 'i', 'B'], ['G', 'i', 'B'], ['T', 'i', 'B'], ['P', 'i', 'B'], ['E', 'i', 'B']]

/-- `0usize.leading_zeros() - val.leading_zeros()` (src/util.rs:10): the number of bits of `val`. -/
def filledBits (val : Nat) : Nat := if val = 0 then 0 else Nat.log2 val + 1

/-- `a / b` rounded to the nearest integer, ties to even. The rounding of `{:.*}` in src/util.rs:16. -/
def divRound (a b : Nat) : Nat :=
  if 2 * (a % b) < b then a / b
  else if b < 2 * (a % b) then a / b + 1
  else if a / b % 2 = 0 then a / b else a / b + 1

/-- `val as f64` (src/util.rs:16), as the integer it stands for: 53 bits are kept, rounding to nearest, ties to even
(IEEE 754, not code of /repo). -/
def toF64 (val : Nat) : Nat :=
  let unit := 2 ^ (filledBits val - 53)
  divRound val unit * unit

/-- src/util.rs:9-17. The floating point division by a power of two is exact, and `{:.*}` rounds the exact quotient, ties to
even (Rust's `format_exact`). Out-of-bounds indexing of `SCALES` is a panic. -/
def humanFileSize (val : Nat) : Res (List Char) :=
  let scaleIdx := (filledBits val - 1) / 10
  match scales[scaleIdx]? with
  | none => .panic
  | some scale =>
    if scaleIdx = 0 then .ok (decimal (toF64 val) ++ ' ' :: scale)
    else
      let hundredths := divRound (toF64 val * 100) (2 ^ (scaleIdx * 10))
      .ok (decimal (hundredths / 100) ++ '.' :: twoDigits (hundredths % 100) ++ ' ' :: scale)

end Rypt.Human
