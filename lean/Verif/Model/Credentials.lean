import Verif.Model.Base

/-! Model of src/credentials.rs. -/

namespace Rypt

/-- src/credentials.rs:11-18. Passwords are their UTF-8 bytes. `complex` has the fields of `ComplexCredential`
(src/credentials.rs:5-9): members with their numbers of shares, total shares, threshold. -/
inductive Credential where
  | password (p : Bytes)
  | symmetricKey (k : Bytes)
  | publicKey (pk : Bytes)
  | privateKey (sk : Bytes)
  | complex (subCreds : List (Nat × Credential)) (numShares threshold : Nat)

/-- src/credentials.rs:5-9. -/
structure ComplexCredential where
  subCreds : List (Nat × Credential)
  numShares : Nat
  threshold : Nat

end Rypt
