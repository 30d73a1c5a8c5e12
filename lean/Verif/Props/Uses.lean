import Verif.Proofs.Uses
import Verif.Props.File

/-! C123: what passwords and keys are used for. -/

namespace Rypt.Props

open Spec Proto HeaderCrypto

/-- C123: to open a header, each password is derived with one salt, that of the file; each symmetric key is hashed with the ephemeral key
of the file, and private keys meet no other public key than that. Whatever these functions do elsewhere, the outcome is the same. -/
theorem opening_uses (L L' : CryptoLib) (hdr : Bytes) (S : List Credential)
    (h : ∀ header alg, decodeHeader hdr = some header → (∃ C C', L.instantiate alg = .ok C ∧ L'.instantiate alg = .ok C' ∧
      SameForOpening header.ephemeralPk S C C') ∨ (∃ e, L.instantiate alg = .err e ∧ L'.instantiate alg = .err e)) :
    (∀ codec cs, decryptHeader L hdr S = .ok (codec, cs) →
      ∃ C', decryptHeader L' hdr S = .ok ({ codec with crypto := C' }, cs)) ∧
    (∀ e, decryptHeader L hdr S = .err e → decryptHeader L' hdr S = .err e) ∧
    (decryptHeader L hdr S = .panic → decryptHeader L' hdr S = .panic) := by
  unfold decryptHeader
  cases hd : decodeHeader hdr with
  | none => exact ⟨(fun _ _ h => by cases h), fun _ h => h, fun h => h⟩
  | some header =>
    have hsys : (∃ C C', cryptosysFromProto L header.cryptoFamily = .ok C ∧ cryptosysFromProto L' header.cryptoFamily = .ok C' ∧
        SameForOpening header.ephemeralPk S C C') ∨
        ∃ e, cryptosysFromProto L header.cryptoFamily = .err e ∧ cryptosysFromProto L' header.cryptoFamily = .err e := by
      unfold cryptosysFromProto
      split
      · exact h header _ hd
      · exact h header _ hd
      · exact .inr ⟨_, rfl, rfl⟩
      · exact .inr ⟨_, rfl, rfl⟩
    simp only
    rcases hsys with ⟨C, C', e1, e2, hs⟩ | ⟨e, e1, e2⟩
    · have hd : C'.aeadDecrypt = C.aeadDecrypt := by rw [hs.others]
      have hh : C'.hash = C.hash := by rw [hs.others]
      simp only [e1, e2, Res.bind_ok, recoverPayloadKey_same hs, Crypto.aeadDecryptEasy, hd, hh]
      split
      · exact ⟨(fun _ _ h => by cases h), fun _ h => h, fun h => h⟩
      · cases recoverPayloadKey C header.ephemeralPk header.payloadKey S with
        | err e => exact ⟨(fun _ _ h => by cases h), fun _ h => h, fun h => h⟩
        | panic => exact ⟨(fun _ _ h => by cases h), fun _ h => h, fun h => h⟩
        | ok key =>
          simp only [Res.bind_ok]
          split
          · exact ⟨(fun _ _ h => by cases h), fun _ h => h, fun h => h⟩
          · generalize (if header.protectedHeader.length < AEAD_MAC_LEN then _ else _ : Res Bytes) = r
            cases r with
            | err e => exact ⟨(fun _ _ h => by cases h), fun _ h => h, fun h => h⟩
            | panic => exact ⟨(fun _ _ h => by cases h), fun _ h => h, fun h => h⟩
            | ok pb =>
              simp only [Res.bind_ok]
              cases decodeProtectedHeader pb with
              | none => exact ⟨(fun _ _ h => by cases h), fun _ h => h, fun h => h⟩
              | some ph =>
                simp only
                cases checkChunkSize ph.plaintextChunkSize with
                | err e => exact ⟨(fun _ _ h => by cases h), fun _ h => h, fun h => h⟩
                | panic => exact ⟨(fun _ _ h => by cases h), fun _ h => h, fun h => h⟩
                | ok u =>
                  simp only [Res.bind_ok]
                  split
                  · exact ⟨(fun _ _ h => by cases h), fun _ h => h, fun h => h⟩
                  · split
                    · exact ⟨(fun _ _ h => by cases h), fun _ h => h, fun h => h⟩
                    · exact ⟨(fun codec cs h => by cases h; exact ⟨C', rfl⟩), (fun _ h => by cases h), (fun h => by cases h)⟩
    · rw [e1, e2]
      exact ⟨(fun _ _ h => by cases h), fun _ h => h, fun h => h⟩

/-- C123: the same for making a header: each password of the tree is derived with the salt of the file only, each symmetric key is hashed
with the ephemeral key only, and public keys meet no other private key than the ephemeral one. -/
theorem sealing_uses (L L' : CryptoLib) (opts : EncryptOptions) (draw : Nat) (tape : Tape) (C C' : Crypto)
    (hC : L.instantiate (if opts.fastAead then .aes256Gcm else .chaCha20Poly1305Ietf) = .ok C)
    (hC' : L'.instantiate (if opts.fastAead then .aes256Gcm else .chaCha20Poly1305Ietf) = .ok C')
    (h : SameForSealing (C.keypair ((tape.fill 32).2.fill 32).1).1 (C.keypair ((tape.fill 32).2.fill 32).1).2
      (leavesOf opts.credential.subCreds) C C')
    {hdr : Bytes} {codec : Codec} {cs : Nat} (henc : encryptHeader L opts draw tape = .ok (hdr, codec, cs)) :
    encryptHeader L' opts draw tape = .ok (hdr, { codec with crypto := C' }, cs) := by
  have hk : C'.keypair = C.keypair := by rw [h.others]
  have he : C'.aeadEncrypt = C.aeadEncrypt := by rw [h.others]
  have hh : C'.hash = C.hash := by rw [h.others]
  have e1 : cryptosysFromProto L (cryptoFamilyFromOpts opts) = .ok C := by
    rw [← hC]
    unfold cryptosysFromProto cryptoFamilyFromOpts
    cases opts.fastAead <;> rfl
  have e2 : cryptosysFromProto L' (cryptoFamilyFromOpts opts) = .ok C' := by
    rw [← hC']
    unfold cryptosysFromProto cryptoFamilyFromOpts
    cases opts.fastAead <;> rfl
  have e3 : ∀ key st, encryptCompositeKey C' (C.keypair ((tape.fill 32).2.fill 32).1).1 (C.keypair ((tape.fill 32).2.fill 32).1).2 key
      opts.credential st = encryptCompositeKey C (C.keypair ((tape.fill 32).2.fill 32).1).1 (C.keypair ((tape.fill 32).2.fill 32).1).2 key
      opts.credential st := by
    intro key st
    unfold encryptCompositeKey
    rw [show encryptSubs C' _ _ opts.credential.subCreds = encryptSubs C _ _ opts.credential.subCreds from
      funext fun ps => funext fun st => encryptSubs_same _ h ps st]
  unfold encryptHeader at henc ⊢
  simp only [e1, e2, Res.bind_ok, hk, hh, Crypto.aeadEncryptEasy, he, AEAD_KEY_LEN] at henc ⊢
  obtain ⟨u, hu, henc⟩ := Res.bind_eq_ok.1 henc
  rw [hu]
  simp only [Res.bind_ok, e3]
  obtain ⟨⟨ck, st⟩, hck, henc⟩ := Res.bind_eq_ok.1 henc
  rw [hck]
  cases henc
  rfl

/-! ### Cases -/

namespace Sample

/-- The toy primitives, where each function that takes a password or key works for one input only. -/
def once (epk : Bytes) : Crypto :=
  { Toy.crypto with
    keyDerivation := fun p s => if p = [99, 100] ∧ s = saltOf Toy.crypto epk then Toy.crypto.keyDerivation p s else []
    hmac := fun m k => if m = epk then Toy.crypto.hmac m k else []
    boxBeforenm := fun pk sk => if pk = epk ∧ sk = bob.2 then Toy.crypto.boxBeforenm pk sk else none }

theorem once_same (epk : Bytes) : SameForOpening epk good Toy.crypto (once epk) where
  others := rfl
  salt := by simp [once]
  password p hp := by
    have : p = [99, 100] := by simpa [good] using hp
    simp [once, this]
  symmetric k hk := by simp [good] at hk
  privateKey sk hk := by
    have : sk = bob.2 := by simpa [good] using hk
    simp [once, this]

/-- The sample header opens with it. -/
example : ∃ epk codec' cs', decryptHeader ⟨fun _ => .ok (once epk)⟩ hdr good = .ok (codec', cs') := by
  have hopen := header_opens_iff_satisfied Toy.lib_lawful cred_wf (by omega) enc_ok (by have := hdr_length; omega) good_usable good_detects
  rw [if_pos good_satisfies] at hopen
  cases hd : decodeHeader hdr with
  | none =>
    unfold decryptHeader at hopen
    rw [hd] at hopen
    cases hopen
  | some header =>
    obtain ⟨C', h⟩ := (opening_uses Toy.lib ⟨fun _ => .ok (once header.ephemeralPk)⟩ hdr good (fun header' alg h => by
      rw [hd] at h
      cases h
      exact .inl ⟨_, _, rfl, rfl, once_same _⟩)).1 _ _ hopen
    exact ⟨_, _, _, h⟩

/-- The same for the encryption of the sample. -/
def onceSealing (pair : Bytes × Bytes) : Crypto :=
  { Toy.crypto with
    keyDerivation := fun p s => if s = saltOf Toy.crypto pair.1 then Toy.crypto.keyDerivation p s else []
    hmac := fun m k => if m = pair.1 ∨ m = pair.1 ++ [9] then Toy.crypto.hmac m k else []
    boxBeforenm := fun pk sk => if pk = bob.1 ∧ sk = pair.2 then Toy.crypto.boxBeforenm pk sk else none }

example : ∃ codec', encryptHeader ⟨fun _ => .ok (onceSealing (Toy.crypto.keypair ((tape.fill 32).2.fill 32).1))⟩ opts 5 tape =
    .ok (hdr, codec', chunkSize) := by
  refine ⟨_, sealing_uses Toy.lib _ opts 5 tape Toy.crypto _ rfl rfl ⟨rfl, by simp [onceSealing], fun p _ => by simp [onceSealing],
    fun k hk => ?_, fun pk hk => ?_⟩ enc_ok⟩
  · have : k = [9] := by simpa [opts, cred, leavesOf, Credential.leaves] using hk
    simp [onceSealing, this]
  · have : pk = bob.1 := by simpa [opts, cred, leavesOf, Credential.leaves] using hk
    simp [onceSealing, this]

end Sample

end Rypt.Props
