import Verif.Spec.Access
import Verif.Spec.CliCredentials

/-! Credentials that differ only in the order of the members of groups. -/

namespace Rypt

mutual

/-- The same credential, up to the order of members in groups, at any depth. -/
inductive Credential.Reordered : Credential → Credential → Prop where
  | same (c : Credential) : Credential.Reordered c c
  | group (ms ms' : List (Nat × Credential)) (n k : Nat) : MembersReordered ms ms' →
      Credential.Reordered (.complex ms n k) (.complex ms' n k)

/-- The same members with the same shares, in another order. -/
inductive MembersReordered : List (Nat × Credential) → List (Nat × Credential) → Prop where
  | nil : MembersReordered [] []
  | cons (n : Nat) (c c' : Credential) (ms ms' : List (Nat × Credential)) : c.Reordered c' → MembersReordered ms ms' →
      MembersReordered ((n, c) :: ms) ((n, c') :: ms')
  | swap (x y : Nat × Credential) (ms : List (Nat × Credential)) : MembersReordered (y :: x :: ms) (x :: y :: ms)
  | trans (a b c : List (Nat × Credential)) : MembersReordered a b → MembersReordered b c → MembersReordered a c

end

/-- See `Credential.Reordered`. -/
structure ComplexCredential.Reordered (c c' : ComplexCredential) : Prop where
  members : MembersReordered c.subCreds c'.subCreds
  numShares : c'.numShares = c.numShares
  threshold : c'.threshold = c.threshold

namespace Cli

/-- Arguments that provide keys without asking, and arguments that set a threshold. -/
def Token.Movable : Token → Prop
  | .passwordFile _ | .symmetricKeyFile _ | .publicKeyFile _ | .publicKeyText _ | .privateKeyFile _ | .keyThreshold _
  | .requireAllKeys => True
  | _ => False

end Cli

end Rypt
