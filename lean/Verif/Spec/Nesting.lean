import Verif.Model.Proto
import Verif.Model.Credentials

/-!
How deep the keys of a header and the groups of a credential are nested. The functions that read, write, encrypt and decrypt them call
themselves once per level, so this is how deep these calls are nested.
-/

namespace Rypt

namespace Proto

mutual

/-- The number of composite keys within each other, this one included. -/
def CompositeKey.nesting : CompositeKey → Nat
  | .mk _ parts => partsNesting parts + 1

/-- The most among these parts. -/
def partsNesting : List EncryptedKeyParts → Nat
  | [] => 0
  | p :: ps => max p.nesting (partsNesting ps)

/-- See `CompositeKey.nesting`. -/
def EncryptedKeyParts.nesting : EncryptedKeyParts → Nat
  | .mk _ d => d.nesting

/-- See `CompositeKey.nesting`. -/
def KeyData.nesting : KeyData → Nat
  | .missing => 0
  | .encrypted _ => 0
  | .composite c => c.nesting

end

end Proto

mutual

/-- The number of groups within each other. -/
def Credential.nesting : Credential → Nat
  | .complex subs _ _ => membersNesting subs + 1
  | _ => 0

/-- The most among these members. -/
def membersNesting : List (Nat × Credential) → Nat
  | [] => 0
  | (_, c) :: rest => max c.nesting (membersNesting rest)

end

/-- `n` groups of one member within each other around a credential. -/
def wrapped : Nat → Credential → Credential
  | 0, c => c
  | n + 1, c => .complex [(1, wrapped n c)] 1 1

end Rypt
