import Verif.Model.Base

/-!
Model of src/progress.rs. Instants are nanoseconds of a clock. A line is represented by
the numbers it shows; its text (src/progress.rs:123-147) is in ProgressText.lean.
-/

namespace Rypt.Progress

/-- src/progress.rs:10, in milliseconds. -/
def printPeriod : Nat := 100

/-- src/progress.rs:12-13: `SPEED_CALC_PERIOD` (10 s) in units of `PRINT_PERIOD`. -/
def keepStampsCount : Nat := 10000 / 100

/-- src/progress.rs:17-25, without `ui`. `lastPeriod = none` is `-1`. -/
structure Printer where
  start : Nat
  /-- front first -/
  stamps : List (Nat × Nat)
  lastPeriod : Option Nat
  printed : Bool
  filesize : Option Nat
  written : Nat
  deriving DecidableEq

/-- The numbers of a progress line, src/progress.rs:116: bytes, bytes per second, seconds to go. -/
structure Line where
  written : Nat
  speed : Option Nat
  eta : Option Nat
  deriving DecidableEq

/-- src/progress.rs:28-39. -/
def Printer.new (now : Nat) : Printer := ⟨now, [(now, 0)], none, false, none, 0⟩

/-- src/progress.rs:41-43. -/
def Printer.setFilesize (s : Printer) (filesize : Option Nat) : Printer := { s with filesize := filesize }

/-- `(a - b).as_millis()` for instants: panics if `b` is later. src/progress.rs:67-69, 88. -/
def millisBetween (a b : Nat) : Res Nat := if a < b then .panic else .ok ((a - b) / 1000000)

/-- src/progress.rs:84-92. Additions, subtractions and multiplications wrap around (release builds). -/
def measuredSpeed (first last : Nat × Nat) : Res (Option Nat) := do
  let deltaTime ← millisBetween last.1 first.1
  if wrap64 deltaTime > 1000 then
    .ok (some (wrap64 (wrap64 (last.2 + 2 ^ 64 - first.2) * 1000) / wrap64 deltaTime))
  else .ok none

/-- src/progress.rs:94-103. -/
def shownBytes (filesize : Option Nat) (progress : Nat) : Nat :=
  match filesize with
  | some filesize => if progress > filesize then filesize else progress
  | none => progress

/-- src/progress.rs:105-113. Division by zero is a panic. -/
def remainingSecs (filesize speed : Option Nat) (shown : Nat) : Res (Option Nat) :=
  match speed, filesize with
  | some speed, some filesize =>
    if speed = 0 then .panic else .ok (some (wrap64 (wrap64 (filesize - shown + speed) + 2 ^ 64 - 1) / speed))
  | _, _ => .ok none

/-- src/progress.rs:83-121. Failure to print is ignored there. -/
def Printer.printProgressLine (s : Printer) : Res (Printer × Line) :=
  match s.stamps.head?, s.stamps.getLast? with
  | some first, some last => do
    let speed ← measuredSpeed first last
    let eta ← remainingSecs s.filesize speed (shownBytes s.filesize last.2)
    pure ({ s with printed := true }, ⟨shownBytes s.filesize last.2, speed, eta⟩)
  | _, _ => .panic

/-- src/progress.rs:64-81, called at the instant `now`; the line that is printed, if any. The period is not limited to 63 bits. -/
def Printer.printProgress (s : Printer) (bytes now : Nat) : Res (Printer × Option Line) := do
  let elapsed ← millisBetween now s.start
  if s.lastPeriod = some (elapsed / printPeriod) then
    if s.stamps = [] then .panic
    else
      pure ({ s with
        written := wrap64 (s.written + bytes)
        stamps := s.stamps.dropLast ++ [(now, wrap64 (s.written + bytes))] }, none)
  else
    let stamps := s.stamps ++ [(now, wrap64 (s.written + bytes))]
    let (s, line) ← Printer.printProgressLine { s with
      written := wrap64 (s.written + bytes)
      lastPeriod := some (elapsed / printPeriod)
      stamps := if stamps.length > keepStampsCount then stamps.tail else stamps }
    pure (s, some line)

/-- The calls for one file: bytes and instants. The lines printed, in order.
The calls of src/commands/crypt.rs:56, 67 and the drop, src/progress.rs:150-156. -/
def Printer.run (s : Printer) : List (Nat × Nat) → Res (Printer × List Line)
  | [] => .ok (s, [])
  | (bytes, now) :: rest => do
    let (s, line) ← s.printProgress bytes now
    let (s, lines) ← s.run rest
    pure (s, line.toList ++ lines)

/-- src/progress.rs:150-156, `Drop`: the final line. -/
def Printer.drop (s : Printer) : Res (Option Line) :=
  if s.printed then do
    let (_, line) ← s.printProgressLine
    pure (some line)
  else .ok none

/-- The progress display for one file, src/commands/crypt.rs:28, 42, 56, 67: created at `start`, told the size, updated, and
dropped at the end. The lines and the final line. -/
def session (start : Nat) (filesize : Option Nat) (calls : List (Nat × Nat)) : Res (List Line × Option Line) := do
  let (s, lines) ← ((Printer.new start).setFilesize filesize).run calls
  let last ← s.drop
  pure (lines, last)

end Rypt.Progress
