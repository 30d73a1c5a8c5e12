import Verif.Spec.Access
import Verif.Spec.Toy
import Verif.Proofs.Header

/-!
A concrete encryption with the toy primitives, used to show that the hypotheses of the property theorems are met.
-/

namespace Rypt.Props.Sample

open HeaderCrypto

/-- A fixed "random" tape. -/
def tape : Tape := fun i => UInt8.ofNat (i * 7 + i * i * 3 + 5)

/-- A recipient's key pair. -/
def bob : Bytes × Bytes := Toy.crypto.keypair [66, 111, 98]

/-- 2 of (password "ab", Bob's public key, any of (symmetric key 9, password "cd")). -/
def cred : ComplexCredential where
  subCreds := [(1, .password [97, 98]), (1, .publicKey bob.1),
    (1, .complex [(1, .symmetricKey [9]), (1, .password [99, 100])] 2 1)]
  numShares := 3
  threshold := 2

def opts : EncryptOptions := ⟨cred, false⟩

theorem cred_wf : cred.WF := by
  simp [ComplexCredential.WF, cred, Credential.WF, MembersWF, totalShares]

/-- The result of encrypting the header. -/
def enc : Res (Bytes × Codec × Nat) := encryptHeader Toy.lib opts 5 tape

def hdr : Bytes := match enc with | .ok (h, _) => h | _ => []
def codec : Codec := match enc with | .ok (_, c, _) => c | _ => ⟨Toy.crypto, [], [], true⟩
def chunkSize : Nat := match enc with | .ok (_, _, n) => n | _ => 0

theorem enc_isOk : enc.isOk = true := by decide +kernel

theorem enc_ok : encryptHeader Toy.lib opts 5 tape = .ok (hdr, codec, chunkSize) := by
  have h := enc_isOk
  unfold hdr codec chunkSize
  change enc = _
  match henc : enc with
  | .ok (h, c, n) => rfl
  | .err e => rw [henc] at h; simp [Res.isOk] at h
  | .panic => rw [henc] at h; simp [Res.isOk] at h

theorem hdr_length : hdr.length < 2 ^ 16 := by decide +kernel

end Rypt.Props.Sample
