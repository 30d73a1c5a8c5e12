/-!
Independent specification of multiplication in the AES field GF(2)[x]/(x^8+x^4+x^3+x+1).
A byte stands for the polynomial whose coefficients are its bits.
-/

namespace Rypt.Spec

/-- Carry-less product of two polynomials of degree at most 7. -/
def clmul (a b : Nat) : Nat :=
  [0, 1, 2, 3, 4, 5, 6, 7].foldl (fun acc i => acc ^^^ (if b.testBit i then a <<< i else 0)) 0

/-- Remainder of a polynomial of degree at most 14 modulo `x^8+x^4+x^3+x+1` (`0x11b`), by long division. -/
def modAes (p : Nat) : Nat :=
  [14, 13, 12, 11, 10, 9, 8].foldl
    (fun acc i => acc ^^^ (if acc.testBit i then 0x11b <<< (i - 8) else 0)) p

/-- Product in the AES field. -/
def aesMul (a b : UInt8) : UInt8 := UInt8.ofNat (modAes (clmul a.toNat b.toNat))

end Rypt.Spec
