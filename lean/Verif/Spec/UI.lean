import Verif.Model.Passwords

/-! Vocabulary for prompts, independent of how they are read. -/

namespace Rypt.Spec

open UI Cli

/-- The events of typing a text: its UTF-8 bytes (as Lean's core library defines them). -/
def typed (s : List Char) : List Input := (s.flatMap String.utf8EncodeChar).map .byte

/-- The newline. -/
def enter : Input := .byte 10

/-- The events of typing the line `s`, ended by LF or CRLF. -/
inductive LineOf : List Char → List Input → Prop where
  | lf (s : List Char) : '\n' ∉ s → s.getLast? ≠ some '\r' → LineOf s (typed s ++ [enter])
  | crlf (s : List Char) : '\n' ∉ s → LineOf s (typed s ++ [.byte 13, enter])

/-- The events of typing some lines, all with the property. -/
inductive Lines (P : List Char → Prop) : List Input → Prop where
  | nil : Lines P []
  | cons (s : List Char) (l rest : List Input) : LineOf s l → P s → Lines P rest → Lines P (l ++ rest)

/-- The user can be asked: standard input was not given away, both ends are terminals, and the verbosity is at least -1. -/
def CanPrompt (t : Term) : Prop :=
  t.hasInput = true ∧ t.inputIsTty = true ∧ t.outputIsTty = true ∧ -1 ≤ t.verbosity

/-- No write to the terminal will fail. -/
def WritesWork (t : Term) : Prop := ∀ w ∈ t.writes, w = none

/-- The terminal does what it is told: no change of its settings will fail. -/
def Obeys (t : Term) : Prop := ∀ f ∈ t.tcs, f.get = true ∧ f.set = true

/-- The settings `b` are `a` with the echo (bit 3 of the local modes) on, and nothing else changed. -/
def EchoOn (a b : Termios) : Prop :=
  b = { a with lflag := b.lflag } ∧ ∀ i, b.lflag.getLsbD i = (a.lflag.getLsbD i || decide (i = 3))

/-- The settings `b` are `a` with the echo off, and nothing else changed. -/
def EchoOff (a b : Termios) : Prop :=
  b = { a with lflag := b.lflag } ∧ ∀ i, b.lflag.getLsbD i = (a.lflag.getLsbD i && !decide (i = 3))

/-- The usual settings of a terminal, for concrete cases. -/
def sampleTty : Termios := ⟨0x4500#32, 5#32, 0xBF#32, 0x8A3B#32, 0, [3, 28, 127, 21, 4], 15#32, 15#32⟩

/-- `y` or `yes` in any case. -/
def Yes (s : List Char) : Prop :=
  (∃ a, s = [a] ∧ (a = 'y' ∨ a = 'Y')) ∨
    ∃ a b c, s = [a, b, c] ∧ (a = 'y' ∨ a = 'Y') ∧ (b = 'e' ∨ b = 'E') ∧ (c = 's' ∨ c = 'S')

/-- `n` or `no` in any case. -/
def No (s : List Char) : Prop :=
  (∃ a, s = [a] ∧ (a = 'n' ∨ a = 'N')) ∨ ∃ a b, s = [a, b] ∧ (a = 'n' ∨ a = 'N') ∧ (b = 'o' ∨ b = 'O')

/-- What an answer means, with the default. -/
def Means (dflt : Bool) (s : List Char) (b : Bool) : Prop :=
  (Yes s ∧ b = true) ∨ (No s ∧ b = false) ∨ (s = [] ∧ b = dflt)

/-- Attempts at entering a password that do not count: an empty line, or (when encrypting) a line and another one. -/
inductive Attempts (dir : CryptDirection) : List Input → Prop where
  | nil : Attempts dir []
  | empty (l rest : List Input) : LineOf [] l → Attempts dir rest → Attempts dir (l ++ rest)
  | mismatch (a b : List Char) (l l' rest : List Input) : dir = .encrypt → LineOf a l → a ≠ [] → LineOf b l' → b ≠ a →
      Attempts dir rest → Attempts dir (l ++ l' ++ rest)

/-- Entering the password: once, or twice when encrypting. -/
def Entered (dir : CryptDirection) (pw : List Char) (l : List Input) : Prop :=
  match dir with
  | .decrypt => LineOf pw l
  | .encrypt => ∃ l1 l2, l = l1 ++ l2 ∧ LineOf pw l1 ∧ LineOf pw l2

end Rypt.Spec
