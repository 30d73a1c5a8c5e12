import Verif.Model.Progress
import Verif.Model.Human

/-! Model of src/progress.rs:123-147: the text of a progress line. -/

namespace Rypt.Progress

open Human

/-- The division of two `f64` that stand for the integers `a ≤ b`, in src/progress.rs:131: `(m, k)` is the number `m / 2^k`, with 53
bits in `m`, rounding to nearest, ties to even (IEEE 754, not code of /repo; the exponents are far from their limits). -/
def f64Div (a b : Nat) : Nat × Nat :=
  if a = 0 then (0, 0)
  else
    let k := 52 + Nat.log2 b - Nat.log2 a
    let k := if a * 2 ^ k < b * 2 ^ 52 then k + 1 else k
    (divRound (a * 2 ^ k) b, k)

/-- src/progress.rs:130-132: the ratio, at most 1, as `(m, k)` for `m / 2^k`. -/
def ratio (written filesize : Nat) : Nat × Nat :=
  if toF64 (max filesize 1) < toF64 written then (1, 0) else f64Div (toF64 written) (toF64 (max filesize 1))

/-- src/progress.rs:129-135. The product with 100 is rounded to 53 bits, and `{:.1}` rounds the exact number, ties to even. -/
def percent (filesize : Option Nat) (written : Nat) : List Char :=
  match filesize with
  | some filesize =>
    let (m, k) := ratio written filesize
    let tenths := divRound (toF64 (m * 100) * 10) (2 ^ k)
    decimal (tenths / 10) ++ '.' :: decimal (tenths % 10)
  | none => ['-', '-', '-']

/-- `{:>n}`. src/progress.rs:138. -/
def padLeft (n : Nat) (s : List Char) : List Char := List.replicate (n - s.length) ' ' ++ s

/-- The text for an optional part of the line, empty if there is none (`unwrap_or_default`). src/progress.rs:141-145. -/
def optText (f : Nat → Res (List Char)) : Option Nat → Res (List Char)
  | none => .ok []
  | some n => f n

/-- src/progress.rs:123-147 `format_progress_line`. -/
def formatLine (filesize : Option Nat) (l : Line) : Res (List Char) := do
  let size ← humanFileSize l.written
  let speed ← optText (fun s => do
    let t ← humanFileSize s
    pure (t ++ ['/', 's'])) l.speed
  let eta ← optText (fun d => pure (['E', 'T', 'A', ' ', ' '] ++ humanDuration d ++ ['s'])) l.eta
  pure ([' ', ' ', ' '] ++ padLeft 5 (percent filesize l.written) ++ [' ', '%', ' '] ++ padLeft 14 size ++ [' ']
    ++ padLeft 16 speed ++ [' ', ' ', ' '] ++ eta)

end Rypt.Progress
