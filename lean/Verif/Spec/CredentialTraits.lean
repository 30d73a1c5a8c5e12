import Verif.Model.Credentials

/-! Notions used to state what is revealed about credentials. -/

namespace Rypt

mutual

/-- Two credentials that differ at most in passwords and keys: the same kinds, the same numbers. -/
inductive Credential.AlikeButSecrets : Credential → Credential → Prop where
  | password (a b : Bytes) : Credential.AlikeButSecrets (.password a) (.password b)
  | symmetricKey (a b : Bytes) : Credential.AlikeButSecrets (.symmetricKey a) (.symmetricKey b)
  | publicKey (a b : Bytes) : Credential.AlikeButSecrets (.publicKey a) (.publicKey b)
  | privateKey (a b : Bytes) : Credential.AlikeButSecrets (.privateKey a) (.privateKey b)
  | complex (subs subs' : List (Nat × Credential)) (n t : Nat) : MembersAlike subs subs' →
      Credential.AlikeButSecrets (.complex subs n t) (.complex subs' n t)

inductive MembersAlike : List (Nat × Credential) → List (Nat × Credential) → Prop where
  | nil : MembersAlike [] []
  | cons (n : Nat) (c c' : Credential) (rest rest' : List (Nat × Credential)) : c.AlikeButSecrets c' → MembersAlike rest rest' →
      MembersAlike ((n, c) :: rest) ((n, c') :: rest')

end

end Rypt
