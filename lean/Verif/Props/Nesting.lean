import Verif.Proofs.Nesting
import Verif.Props.Possible

/-! Property C120: how deep keys are nested. -/

namespace Rypt.Props

open Proto HeaderCrypto Spec

/-- C120: in a header that the program makes, keys are nested as the groups of the credential. -/
theorem made_nesting (L : CryptoLib) (opts : EncryptOptions) (hw : opts.credential.WF) (draw : Nat) (tape : Tape)
    (hdr : Bytes) (codec : Codec) (cs : Nat) (h : encryptHeader L opts draw tape = .ok (hdr, codec, cs)) (hmax : hdr.length ≤ maxHeader) :
    ∃ header ck, decodeHeader hdr = some header ∧ header.payloadKey = some ck ∧
      ck.nesting = membersNesting opts.credential.subCreds + 1 := by
  obtain ⟨C, ck, st', h1, -, -, h4, h5, -⟩ := encryptHeader_ok h
  have hk : encryptKeyData C (C.keypair ((tape.fill 32).2.fill 32).1).1 (C.keypair ((tape.fill 32).2.fill 32).1).2
      (.complex opts.credential.subCreds opts.credential.numShares opts.credential.threshold) (tape.fill 32).1
      ⟨0, ((tape.fill 32).2.fill 32).2⟩ = .ok (.composite ck, st') := by
    rw [encryptKeyData]
    unfold encryptCompositeKey at h4
    rw [h4]; rfl
  have hn := nesting_keyData _ _ _ _ _ _ _ _ hk
  rw [KeyData.nesting, Credential.nesting] at hn
  have hd := decodeHeader_encodeHeader ⟨cryptoFamilyFromOpts opts, (C.keypair ((tape.fill 32).2.fill 32).1).1, some ck, _⟩ ⟨?_, ?_⟩
    (by rw [← h5]; exact Nat.lt_of_le_of_lt hmax (by decide))
  · rw [← h5] at hd
    exact ⟨_, ck, hd, rfl, hn⟩
  · intro alg ha
    unfold cryptoFamilyFromOpts at ha
    cases ha
    split <;> decide
  · intro ck' e
    cases e
    exact fits_composite hw h4

/-- C120: in any header that is accepted, keys are nested at most as deep as its length allows, four bytes for each level. -/
theorem nesting_bounded (hdr : Bytes) (header : RyptFileHeader) (ck : CompositeKey) (hd : decodeHeader hdr = some header)
    (hk : header.payloadKey = some ck) : 4 * ck.nesting ≤ hdr.length + 2 := decodeHeader_nesting hd hk

/-- C120, the limit: ten bytes for each level are enough. There is no other bound: with a header of the accepted size anybody can make the
program call itself more than 1.6 million times, while it reads the header and again while it looks for the key, only to find
that the credentials are not sufficient. -/
theorem deep_header (L : CryptoLib) (C : Crypto) (hC : L.instantiate .chaCha20Poly1305Ietf = .ok C) (n : Nat) (h0 : 1 ≤ n)
    (hn : n ≤ 1677718) :
    ∃ hdr header ck, hdr.length ≤ maxHeader ∧ hdr.length ≤ 10 * n + 33 ∧ decodeHeader hdr = some header ∧
      header.payloadKey = some ck ∧ ck.nesting = n ∧
      ∀ S : List Credential, (∀ c ∈ S, Usable c) → decryptHeader L hdr S = .err .insufficientCredentials := by
  have h := deepHeader_length (n - 1) (by omega)
  refine ⟨_, _, _, ?_, ?_, deepHeader_decode (n - 1) (by omega), rfl, ?_, fun S hS => deepHeader_decrypt hC hS (n - 1) (by omega)⟩
  · unfold maxHeader; omega
  · omega
  · rw [deepKey_nesting]; omega

/-- A header of six bytes with two levels: the bound is attained. -/
example : ∃ header ck, decodeHeader [58, 4, 18, 2, 26, 0] = some header ∧ header.payloadKey = some ck ∧ 4 * ck.nesting = 6 + 2 :=
  ⟨_, .mk 0 [.mk 0 (.composite (.mk 0 []))], rfl, rfl, by
    simp [CompositeKey.nesting, partsNesting, EncryptedKeyParts.nesting, KeyData.nesting]⟩

/-- The sample with a group in it. -/
example : ∃ header ck, decodeHeader Sample.hdr = some header ∧ header.payloadKey = some ck ∧ ck.nesting = 2 :=
  made_nesting Toy.lib Sample.opts Sample.cred_wf 5 Sample.tape _ _ _ Sample.enc_ok Sample.max_ok

example := deep_header Toy.lib Toy.crypto rfl 1677718 (by decide) (by decide)

/-- C120: the program makes such headers itself if asked to: groups of one member within each other, with a password in the innermost one. -/
theorem deep_groups_encrypted (L : CryptoLib) (hL : L.Lawful) (C : Crypto) (hC : L.instantiate .chaCha20Poly1305Ietf = .ok C)
    (pw : Bytes) (n : Nat) (hn : n ≤ 200000) (draw : Nat) (hdraw : draw < 1024) (tape : Tape) :
    ∃ hdr codec cs header ck, encryptHeader L ⟨⟨[(1, wrapped n (.password pw))], 1, 1⟩, false⟩ draw tape = .ok (hdr, codec, cs) ∧
      hdr.length ≤ maxHeader ∧ decodeHeader hdr = some header ∧ header.payloadKey = some ck ∧ ck.nesting = n + 1 := by
  have hw : ComplexCredential.WF ⟨[(1, wrapped n (.password pw))], 1, 1⟩ :=
    wrapped_wf (c := .password pw) (by rw [Credential.WF]; trivial) (n + 1)
  obtain ⟨⟨hdr, codec, cs⟩, he⟩ := (encryptHeader_iff (opts := ⟨⟨[(1, wrapped n (.password pw))], 1, 1⟩, false⟩) (tape := tape) hw
    hdraw (C := C) hC).2 (wrapped_encryptable (c := .password pw) (by rw [Credential.Encryptable]; trivial) (n + 1))
  have hs := header_size_bound L hL _ hw draw tape hdr codec cs he
  have hmax : hdr.length ≤ maxHeader := by
    simp only [membersCost, Nat.one_mul, wrapped_cost, Credential.cost] at hs
    unfold maxHeader
    omega
  obtain ⟨header, ck, h1, h2, h3⟩ := made_nesting L _ hw draw tape hdr codec cs he hmax
  refine ⟨hdr, codec, cs, header, ck, he, hmax, h1, h2, ?_⟩
  simp only [membersNesting, wrapped_nesting, Credential.nesting] at h3
  simpa using h3

example := deep_groups_encrypted Toy.lib Toy.lib_lawful Toy.crypto rfl [112, 119] 200000 (by decide) 5 (by decide) Sample.tape

end Rypt.Props
