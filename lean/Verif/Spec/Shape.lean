import Verif.Model.HeaderCrypto

/-!
What an observer of a header may learn: the shape of the credential tree, and a header with all byte strings blanked.
-/

namespace Rypt

/-- Shape of a credential: leaves are indistinguishable, groups keep shares and threshold. -/
inductive Shape where
  | leaf
  | group (members : List (Nat × Shape)) (numShares threshold : Nat)

mutual

/-- The shape of a credential. -/
def Credential.shape : Credential → Shape
  | .complex subs n t => .group (shapes subs) n t
  | _ => .leaf

def shapes : List (Nat × Credential) → List (Nat × Shape)
  | [] => []
  | (n, c) :: rest => (n, c.shape) :: shapes rest

end

/-- The shape of a tree. -/
def ComplexCredential.shape (c : ComplexCredential) : Shape :=
  .group (shapes c.subCreds) c.numShares c.threshold

namespace Proto

/-- Replace every byte by zero. -/
def blank (b : Bytes) : Bytes := List.replicate b.length 0

mutual

/-- A composite key with all encrypted data blanked. -/
def CompositeKey.redact : CompositeKey → CompositeKey
  | .mk t ps => .mk t (redactList ps)

def redactList : List EncryptedKeyParts → List EncryptedKeyParts
  | [] => []
  | p :: ps => p.redact :: redactList ps

def EncryptedKeyParts.redact : EncryptedKeyParts → EncryptedKeyParts
  | .mk n d => .mk n d.redact

def KeyData.redact : KeyData → KeyData
  | .missing => .missing
  | .encrypted b => .encrypted (blank b)
  | .composite c => .composite c.redact

end

/-- A header with all byte strings blanked. -/
def RyptFileHeader.redact (h : RyptFileHeader) : RyptFileHeader where
  cryptoFamily := h.cryptoFamily
  ephemeralPk := blank h.ephemeralPk
  payloadKey := h.payloadKey.map CompositeKey.redact
  protectedHeader := blank h.protectedHeader

end Proto
end Rypt
