import Verif.Spec.Hex
import Verif.Spec.Lines
import Mathlib.Data.List.Forall2

/-! What the texts of keys and the lines of key files mean. -/

namespace Rypt.Spec

/-- The UTF-8 bytes of a text, as Lean's core library defines them. -/
def utf8 (s : List Char) : Bytes := s.flatMap String.utf8EncodeChar

/-- The text without whitespace. -/
def squeeze (s : List Char) : List Char := s.filter (fun c => !Text.isWhitespace c)

/-- `s` spells the 32 bytes `k` in hex; if checked, the case of the letters is as the hash of the key says. -/
def IsKeyText (sha512 : Bytes → Bytes) (checked : Bool) (s : List Char) (k : Bytes) : Prop :=
  Hex.HexText s k ∧ k.length = 32 ∧ (checked = true → Hex.CaseMatches (sha512 k) (squeeze s))

/-- Private keys are written as two keys; there may be whitespace anywhere. -/
def IsPrivateKeyText (sha512 : Bytes → Bytes) (checked : Bool) (s : List Char) (k : Bytes) : Prop :=
  ∃ s1 s2 k1 k2, squeeze s = s1 ++ s2 ∧ IsKeyText sha512 checked s1 k1 ∧ IsKeyText sha512 checked s2 k2 ∧ k = k1 ++ k2

/-- The non-blank lines of a file, without the whitespace around them. -/
def KeyLines (content : Option Bytes) (ls : List (List Char)) : Prop :=
  ∃ text trimmed, content = some (utf8 text) ∧ List.Forall₂ TrimsTo (pieces text) trimmed ∧ ls = trimmed.filter (· ≠ [])

/-- The digit of this value. -/
def IsDecimalDigit (c : Char) (d : Nat) : Prop := ['0', '1', '2', '3', '4', '5', '6', '7', '8', '9'][d]? = some c

/-- A decimal number below 2^64, maybe after a plus sign. -/
def IsNumber (v : List Char) (n : Nat) : Prop :=
  ∃ cs ds, (v = cs ∨ v = '+' :: cs) ∧ cs ≠ [] ∧ List.Forall₂ IsDecimalDigit cs ds ∧ n = ds.foldl (fun a d => 10 * a + d) 0 ∧
    n < 2 ^ 64

end Rypt.Spec
