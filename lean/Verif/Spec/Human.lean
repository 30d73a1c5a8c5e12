/-! Notions used to state what a text for a person says. -/

namespace Rypt.Spec

/-- The number a list of digits stands for. -/
def digitsValue (l : List Char) : Nat := l.foldl (fun v c => 10 * v + (c.toNat - 48)) 0

/-- `l` is the number `n` in decimal, without superfluous zeros. -/
structure Decimal (l : List Char) (n : Nat) : Prop where
  nonempty : l ≠ []
  digits : ∀ c ∈ l, 48 ≤ c.toNat ∧ c.toNat ≤ 57
  value : digitsValue l = n
  no_zero : l.head? = some '0' → l = ['0']

/-- `l` is the number `n` with exactly two digits. -/
structure TwoDigits (l : List Char) (n : Nat) : Prop where
  length : l.length = 2
  digits : ∀ c ∈ l, 48 ≤ c.toNat ∧ c.toNat ≤ 57
  value : digitsValue l = n

/-- `t` shows `secs` seconds as `m:ss`, or as `h:mm:ss` from one hour on. -/
inductive Clock (secs : Nat) : List Char → Prop where
  | short (m s : Nat) (tm ts : List Char) : m < 60 → s < 60 → secs = 60 * m + s → Decimal tm m → TwoDigits ts s →
      Clock secs (tm ++ ':' :: ts)
  | long (h m s : Nat) (th tm ts : List Char) : 0 < h → m < 60 → s < 60 → secs = 3600 * h + 60 * m + s → Decimal th h →
      TwoDigits tm m → TwoDigits ts s → Clock secs (th ++ ':' :: tm ++ ':' :: ts)

/-- The units of sizes from `1024` on. -/
def unitName : Nat → List Char
  | 1 => ['K', 'i', 'B']
  | 2 => ['M', 'i', 'B']
  | 3 => ['G', 'i', 'B']
  | 4 => ['T', 'i', 'B']
  | 5 => ['P', 'i', 'B']
  | _ => ['E', 'i', 'B']

end Rypt.Spec
