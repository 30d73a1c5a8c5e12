import Verif.Model.Progress

/-! Notions used to state the properties of the progress display. A history is a list of calls: bytes and instants (in ns). -/

namespace Rypt.Spec

/-- The bytes reported by the calls. -/
def totalBytes : List (Nat × Nat) → Nat
  | [] => 0
  | (b, _) :: rest => b + totalBytes rest

/-- The clock does not run backwards. -/
def ClockForward (start : Nat) : List (Nat × Nat) → Prop
  | [] => True
  | (_, t) :: rest => start ≤ t ∧ ClockForward t rest

/-- Every call reports at least one byte per second since the one before. -/
def OneBytePerSecond (start : Nat) : List (Nat × Nat) → Prop
  | [] => True
  | (b, t) :: rest => t - start ≤ b * 1000000000 ∧ OneBytePerSecond t rest

/-- The instant of the last call, or the start. -/
def lastInstant (start : Nat) : List (Nat × Nat) → Nat
  | [] => start
  | (_, t) :: rest => lastInstant t rest

/-- Bytes out of the size of the file, if it is known. -/
def atMost (filesize : Option Nat) (n : Nat) : Nat :=
  match filesize with
  | some f => min f n
  | none => n

/-- What a line should say after the calls `pre` for a file of size `f`: the bytes so far; once more than a second has passed, the
speed, over the whole time or over the time since an earlier call at least 9.8 s ago, rounded down; and if the size is known, the
time to go at that speed, in seconds, rounded up. -/
structure LineRight (start : Nat) (f : Option Nat) (pre : List (Nat × Nat)) (l : Progress.Line) : Prop where
  written : l.written = atMost f (totalBytes pre)
  speed_some : l.speed.isSome ↔ 1000 < (lastInstant start pre - start) / 1000000
  speed : ∀ v, l.speed = some v → ∃ p1 p2, pre = p1 ++ p2 ∧
    (p1 = [] ∨ 9800 ≤ (lastInstant start pre - lastInstant start p1) / 1000000) ∧
    v = totalBytes p2 * 1000 / ((lastInstant start pre - lastInstant start p1) / 1000000)
  eta : ∀ e, l.eta = some e → ∃ v size, l.speed = some v ∧ f = some size ∧ size - l.written ≤ v * e ∧ v * e < size - l.written + v
  eta_some : ∀ v size, l.speed = some v → f = some size → l.eta.isSome

/-- Some stretch of the calls, which begins at the start or is at least 99 calls long, took more than a second and reports less than
a byte per second. -/
def SlowStretch (start : Nat) (calls : List (Nat × Nat)) : Prop :=
  ∃ q1 q2 r, calls = q1 ++ q2 ++ r ∧ (q1 = [] ∨ 99 ≤ q2.length) ∧
    1000 < (lastInstant start (q1 ++ q2) - lastInstant start q1) / 1000000 ∧
    totalBytes q2 * 1000 < (lastInstant start (q1 ++ q2) - lastInstant start q1) / 1000000

/-- The clock does not run backwards, and nothing comes near the limits of 64-bit numbers (18 PB, 500 million years). -/
structure Plausible (start : Nat) (f : Option Nat) (calls : List (Nat × Nat)) : Prop where
  forward : ClockForward start calls
  bytes : totalBytes calls * 1000 < 2 ^ 64
  time : (lastInstant start calls - start) / 1000000 < 2 ^ 64
  size : ∀ size, f = some size → size < 2 ^ 63

end Rypt.Spec
