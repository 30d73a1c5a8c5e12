import Verif.Model.Crypto
import Verif.Model.Endian
import Verif.Proofs.Endian

/-!
A toy set of primitives, to show that the hypotheses on primitives can be met. Not secure.
-/

namespace Rypt.Toy

/-- A 32-byte digest. -/
def digest (b : Bytes) : Bytes :=
  leBytes 32 (b.foldl (fun acc x => (acc * 257 + x.toNat + 1) % 2 ^ 256) 1)

/-- Cut or pad with zeros to 32 bytes. -/
def pad32 (b : Bytes) : Bytes := (b ++ List.replicate 32 0).take 32

/-- "Encryption" leaves the message as is and appends a keyed digest. -/
def mac (key nonce ad m : Bytes) : Bytes := (digest (key ++ nonce ++ ad ++ m)).take 16

def crypto : Crypto where
  hash := digest
  hmac m k := digest (k ++ m)
  keyDerivation p s := digest (s ++ p)
  aeadEncrypt k n ad m := (m, mac k n ad m)
  aeadDecrypt k n ad c t := if t = mac k n ad c then some c else none
  keypair s := (pad32 s, pad32 s ++ pad32 s)
  boxBeforenm pk sk := some (List.zipWith (· ^^^ ·) (pad32 pk) (pad32 sk))
  boxSeal k n m := (m, mac k n [1] m)
  boxOpen k n c t := if t = mac k n [1] c then some c else none

theorem digest_length (b : Bytes) : (digest b).length = 32 := by simp [digest]

theorem pad32_length (b : Bytes) : (pad32 b).length = 32 := by simp [pad32]

theorem pad32_append (b c : Bytes) : pad32 (pad32 b ++ c) = pad32 b := by
  rw [pad32, List.append_assoc, List.take_append_of_le_length (by simp [pad32_length]),
    List.take_of_length_le (by simp [pad32_length])]

theorem lawful : crypto.Lawful where
  hash_len := digest_length
  hmac_len _ _ := digest_length _
  kdf_len _ _ := digest_length _
  aead_ct_len _ _ _ _ := rfl
  aead_mac_len _ _ _ _ := by simp [crypto, mac, digest_length]
  aead_dec_enc _ _ _ _ := by simp [crypto]
  aead_dec_len k n ad ct t m h := by
    simp only [crypto] at h
    split at h
    · injection h with h; rw [h]
    · cases h
  box_ct_len _ _ _ := rfl
  box_mac_len _ _ _ := by simp [crypto, mac, digest_length]
  box_open_seal _ _ _ := by simp [crypto]
  box_dec_len k n ct t m h := by
    simp only [crypto] at h
    split at h
    · injection h with h; rw [h]
    · cases h
  pk_len _ := pad32_length _
  sk_len _ := by simp [crypto, pad32_length]
  box_shared s s' := by
    have h : ∀ b, pad32 (pad32 b) = pad32 b := fun b => by
      have := pad32_append b []
      rwa [List.append_nil] at this
    simp only [crypto, pad32_append, h]
    congr 1
    rw [List.zipWith_comm]
    congr 1
    funext a b
    exact UInt8.xor_comm _ _

/-- A library that always hands out the toy primitives. -/
def lib : CryptoLib := ⟨fun _ => .ok crypto⟩

theorem lib_lawful : lib.Lawful := by
  intro alg C h
  cases h
  exact lawful

end Rypt.Toy
