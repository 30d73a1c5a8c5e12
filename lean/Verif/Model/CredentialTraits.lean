import Verif.Model.Credentials
import Verif.Model.Human

/-! Model of the hand-written traits of `Credential` in src/credentials.rs: `Debug` and `PartialEq`. -/

namespace Rypt

open Human

/-- src/credentials.rs:23. -/
def debugPassword : List Char := "Credential::Password".toList

/-- src/credentials.rs:24. -/
def debugSymmetricKey : List Char := "Credential::SymmetricKey".toList

/-- src/credentials.rs:25. -/
def debugPublicKey : List Char := "Credential::PublicKey".toList

/-- src/credentials.rs:26. -/
def debugPrivateKey : List Char := "Credential::PrivateKey".toList

/-- The text of a group, given the text of its members: the derived `Debug for ComplexCredential` (src/credentials.rs:4-9) within
src/credentials.rs:27. -/
def debugComplex (members : List Char) (n t : Nat) : List Char :=
  "Credential::Complex(ComplexCredential { sub_creds: [".toList ++ members ++ "], num_shares: ".toList ++ decimal n ++
    ", threshold: ".toList ++ decimal t ++ " })".toList

/-- The text of a pair of `sub_creds`, given the text of the credential. Derived `Debug` of src/credentials.rs:4-6. -/
def debugPair (n : Nat) (c : List Char) : List Char := '(' :: decimal n ++ ", ".toList ++ c ++ ")".toList

mutual

/-- `Debug for Credential`, src/credentials.rs:21-29. The nested `{:?}` starts afresh, so flags of the caller (`{:#?}`) do not
reach the members. -/
def Credential.debug : Credential → List Char
  | .password _ => debugPassword
  | .symmetricKey _ => debugSymmetricKey
  | .publicKey _ => debugPublicKey
  | .privateKey _ => debugPrivateKey
  | .complex subs n t => debugComplex (debugMembers subs) n t

/-- The elements of `sub_creds`, separated by `, ` (derived `Debug` of a `Vec` of pairs). src/credentials.rs:4-6. -/
def debugMembers : List (Nat × Credential) → List Char
  | [] => []
  | (n, c) :: rest => debugPair n c.debug ++ debugRest rest

/-- The elements after the first. src/credentials.rs:4-6. -/
def debugRest : List (Nat × Credential) → List Char
  | [] => []
  | (n, c) :: rest => ',' :: ' ' :: debugPair n c.debug ++ debugRest rest

end

mutual

/-- `PartialEq for Credential`, src/credentials.rs:32-45; for `Complex`, the derived one (src/credentials.rs:4): all fields. -/
def Credential.eq : Credential → Credential → Bool
  | .password a, .password b => a == b
  | .symmetricKey a, .symmetricKey b => a == b
  | .publicKey a, .publicKey b => a == b
  | .privateKey a, .privateKey b => a == b
  | .complex subs n t, .complex subs' n' t' => eqMembers subs subs' && n == n' && t == t'
  | _, _ => false

/-- Equality of `Vec<(usize, Credential)>`. Derived `PartialEq` of src/credentials.rs:4-6. -/
def eqMembers : List (Nat × Credential) → List (Nat × Credential) → Bool
  | [], [] => true
  | (n, c) :: rest, (n', c') :: rest' => n == n' && c.eq c' && eqMembers rest rest'
  | _, _ => false

end

end Rypt
