import Verif.Spec.Access

/-!
Which credentials can be encrypted to, and how large headers become. Written without reference to the header's format.
-/

namespace Rypt

mutual

/-- A key of `len` bytes can be handed to the credential: public keys are acceptable, and every group can be split: its parts
together are (modulo 2^64) smaller than 16 MiB, and there are at most 255 parts unless one part suffices or all are needed. -/
def Credential.Encryptable (acceptable : Bytes → Prop) : Credential → Nat → Prop
  | .password _, _ => True
  | .symmetricKey _, _ => True
  | .publicKey pk, _ => acceptable pk
  | .privateKey _, _ => False
  | .complex subs n t, len =>
    len * n % 2 ^ 64 < 2 ^ 24 ∧ (1 < t → t < n → n ≤ 255) ∧ MembersEncryptable acceptable subs len

/-- A member with `k` shares gets `k` parts of `len` bytes. -/
def MembersEncryptable (acceptable : Bytes → Prop) : List (Nat × Credential) → Nat → Prop
  | [], _ => True
  | (k, c) :: rest, len => c.Encryptable acceptable (k * len) ∧ MembersEncryptable acceptable rest len

end

mutual

/-- The bytes that a credential that is handed a key of `len` bytes may take in the header. -/
def Credential.cost : Credential → Nat → Nat
  | .complex subs _ _, len => 40 + membersCost subs len
  | _, len => len + 36

/-- See `Credential.cost`. -/
def membersCost : List (Nat × Credential) → Nat → Nat
  | [], _ => 0
  | (k, c) :: rest, len => 40 + c.cost (k * len) + membersCost rest len

end

end Rypt
