import Verif.Model.Text

/-! What the lines of a text and trimming mean. -/

namespace Rypt.Spec

/-- The pieces of a text between newlines; a text with `n` newlines has `n + 1` pieces. -/
def pieces : List Char → List (List Char)
  | [] => [[]]
  | '\n' :: s => [] :: pieces s
  | c :: s =>
    match pieces s with
    | p :: ps => (c :: p) :: ps
    | [] => [[c]]

/-- `t` is `s` without the whitespace at both ends. -/
def TrimsTo (s t : List Char) : Prop :=
  ∃ a b, s = a ++ t ++ b ∧ (∀ c ∈ a, Text.isWhitespace c = true) ∧ (∀ c ∈ b, Text.isWhitespace c = true) ∧
    (∀ c, t.head? = some c → Text.isWhitespace c = false) ∧ (∀ c, t.getLast? = some c → Text.isWhitespace c = false)

end Rypt.Spec
