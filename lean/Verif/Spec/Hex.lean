import Verif.Model.Text

/-! What hex text and its case checksum mean, independently of the code. -/

namespace Rypt.Spec.Hex

/-- `c` is a hex digit of value `v`, upper or lower case. -/
def IsDigit (c : Char) (v : Nat) : Prop :=
  ['0', '1', '2', '3', '4', '5', '6', '7', '8', '9', 'a', 'b', 'c', 'd', 'e', 'f'][v]? = some c ∨
  ['0', '1', '2', '3', '4', '5', '6', '7', '8', '9', 'A', 'B', 'C', 'D', 'E', 'F'][v]? = some c

/-- The code points with the Unicode property White_Space (PropList.txt of the Unicode character database). -/
def whiteSpaceCodes : List Nat :=
  [0x9, 0xA, 0xB, 0xC, 0xD, 0x20, 0x85, 0xA0, 0x1680, 0x2000, 0x2001, 0x2002, 0x2003, 0x2004, 0x2005, 0x2006, 0x2007, 0x2008,
    0x2009, 0x200A, 0x2028, 0x2029, 0x202F, 0x205F, 0x3000]

/-- `HexText s b`: the text `s` consists of pairs of hex digits that spell `b`, with whitespace anywhere except inside the
pairs. -/
inductive HexText : List Char → Bytes → Prop where
  | nil : HexText [] []
  | space (c : Char) (s : List Char) (b : Bytes) : Text.isWhitespace c = true → HexText s b → HexText (c :: s) b
  | byte (c d : Char) (x : UInt8) (s : List Char) (b : Bytes) :
      IsDigit c (x.toNat / 16) → IsDigit d (x.toNat % 16) → HexText s b → HexText (c :: d :: s) (x :: b)

/-- The `i`-th bit of the checksum that `hash` prescribes: the top bit of the `i`-th half byte, starting over at the end. -/
def checkBit (hash : Bytes) (i : Nat) : Bool :=
  match hash[(i / 2) % hash.length]? with
  | some x => if i % 2 = 0 then x.toNat.testBit 7 else x.toNat.testBit 3
  | none => false

/-- The case of all letters is as the hash says: upper case for bit one, lower case for bit zero. -/
def CaseMatches (hash : Bytes) (s : List Char) : Prop :=
  ∀ (i : Nat) (c : Char), s[i]? = some c →
    (c ∈ ['a', 'b', 'c', 'd', 'e', 'f'] → checkBit hash i = false) ∧
    (c ∈ ['A', 'B', 'C', 'D', 'E', 'F'] → checkBit hash i = true)

/-- Texts that differ only in the case of ASCII letters. -/
def SameLetters (s t : List Char) : Prop := s.map Char.toLower = t.map Char.toLower

end Rypt.Spec.Hex
