import Verif.Spec.Human
import Verif.Model.Progress

/-! Notions used to state what the text of a progress line says. -/

namespace Rypt.Spec

/-- `t` shows the size `n`: exactly below 1024; from then on in the unit of which it is at least one and less than 1024, with two
decimals, off by less than 0.01 of the unit. -/
inductive SizeShown (n : Nat) : List Char → Prop where
  | exact (t : List Char) : n < 1024 → Decimal t n → SizeShown n (t ++ [' ', 'B'])
  | scaled (k a b : Nat) (ta tb : List Char) : 1 ≤ k → k ≤ 6 → 1024 ^ k ≤ n → n < 1024 ^ (k + 1) → Decimal ta a →
      TwoDigits tb b → (100 * a + b) * 1024 ^ k < 100 * n + 1024 ^ k → 100 * n < (100 * a + b) * 1024 ^ k + 1024 ^ k →
      SizeShown n (ta ++ '.' :: tb ++ ' ' :: unitName k)

/-- `t` shows `w` out of `s` in percent, with one decimal and at most 100.0, off by at most 0.05 (and 2^-39 tenths, where the
computation with floating point numbers is inexact). -/
def PercentShown (w s : Nat) (t : List Char) : Prop :=
  ∃ a b ta tb, t = ta ++ '.' :: tb ∧ Decimal ta a ∧ Decimal tb b ∧ b < 10 ∧ 10 * a + b ≤ 1000 ∧
    2 ^ 39 * ((10 * a + b) * s) ≤ 2 ^ 39 * (1000 * w) + (2 ^ 38 + 1) * s ∧
    2 ^ 39 * (1000 * w) ≤ 2 ^ 39 * ((10 * a + b) * s) + (2 ^ 38 + 1) * s

/-- `t` is `s` at the right edge of a column of `n` characters (or all of it, if it is wider). -/
def InColumn (n : Nat) (s t : List Char) : Prop := ∃ pad, t = pad ++ s ∧ (∀ c ∈ pad, c = ' ') ∧ t.length = max n s.length

/-- The text of a progress line: percentage (`---` if the size is not known; an empty file counts as one byte), bytes, speed if it
is known, time to go if it is known. -/
structure LineShown (f : Option Nat) (l : Progress.Line) (pct size speed eta text : List Char) : Prop where
  layout : ∃ c1 c2 c3, InColumn 5 pct c1 ∧ InColumn 14 size c2 ∧ InColumn 16 speed c3 ∧
    text = "   ".toList ++ c1 ++ " % ".toList ++ c2 ++ " ".toList ++ c3 ++ "   ".toList ++ eta
  unknown : f = none → pct = "---".toList
  percent : ∀ n, f = some n → PercentShown l.written (max n 1) pct
  size : SizeShown l.written size
  no_speed : l.speed = none → speed = []
  speed : ∀ v, l.speed = some v → ∃ t, SizeShown v t ∧ speed = t ++ "/s".toList
  no_eta : l.eta = none → eta = []
  eta : ∀ e, l.eta = some e → ∃ t, Clock e t ∧ eta = "ETA  ".toList ++ t ++ "s".toList

end Rypt.Spec
