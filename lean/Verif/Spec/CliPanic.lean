import Verif.Spec.CliCredentials

/-! The lines of private key files that crash the program. -/

namespace Rypt.Spec

/-- Without whitespace the line is 128 bytes long, and byte 64 is in the middle of a character. -/
def CrashingLine (line : List Char) : Prop :=
  (utf8 (squeeze line)).length = 128 ∧ ¬ ∃ a b, squeeze line = a ++ b ∧ (utf8 a).length = 64

/-- The first lines of the file that are not blank are private keys, and the next crashes. -/
def CrashingKeyFile (sha512 : Bytes → Bytes) (checked : Bool) (content : Option Bytes) : Prop :=
  ∃ pre line post, KeyLines content (pre ++ line :: post) ∧ (∀ l ∈ pre, ∃ k, IsPrivateKeyText sha512 checked l k) ∧ CrashingLine line

end Rypt.Spec
