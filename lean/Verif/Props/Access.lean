import Verif.Props.Samples
import Verif.Proofs.Shape
import Verif.Proofs.NoPanic
import Verif.Proofs.HeaderPanic
import Verif.Model.StreamCrypto
import Verif.Spec.File

/-!
Properties C02, C03, C13, C56, C59, C63: who can open a header.
-/

namespace Rypt.Props

open HeaderCrypto Proto

/-! ### C02, C03: a header opens exactly for the credential sets that satisfy its tree -/

/-- Decrypting an honestly produced header: if the supplied credentials satisfy the tree, the result is the codec used
for encryption (same payload key, same header hash, same crypto) and the same chunk size; otherwise it is the
"insufficient credentials" error. -/
theorem header_opens_iff_satisfied {L : CryptoLib} (hL : L.Lawful) {opts : EncryptOptions} {draw : Nat} {tape : Tape}
    (hwf : opts.credential.WF) (hdraw : draw < 1024) {hdr : Bytes} {codec : Codec} {chunkSize : Nat}
    (henc : encryptHeader L opts draw tape = .ok (hdr, codec, chunkSize)) (hlen : hdr.length < 2 ^ 64)
    {S : List Credential} (hS : ∀ c ∈ S, Usable c)
    (hw : HeaderDetectsWrongCredentials codec.crypto hdr opts.credential S) :
    decryptHeader L hdr S =
      if opts.credential.satisfied (heldBy codec.crypto S) then
        .ok ({ codec with isEncrypting := false }, chunkSize)
      else .err .insufficientCredentials :=
  decryptHeader_encryptHeader hL hwf hdraw henc hlen hS hw

/-- The positive half needs no assumption about wrong credentials for trees with one leaf. -/
theorem single_credential_opens {L : CryptoLib} (hL : L.Lawful) {opts : EncryptOptions} {draw : Nat} {tape : Tape}
    {leaf c : Credential} (hcred : opts.credential = ⟨[(1, leaf)], 1, 1⟩) (hleaf : leaf.WF) (hdraw : draw < 1024)
    {hdr : Bytes} {codec : Codec} {chunkSize : Nat}
    (henc : encryptHeader L opts draw tape = .ok (hdr, codec, chunkSize)) (hlen : hdr.length < 2 ^ 64)
    (hc : Usable c) (ho : Opens codec.crypto c leaf) :
    decryptHeader L hdr [c] = .ok ({ codec with isEncrypting := false }, chunkSize) := by
  have hwf : opts.credential.WF := by
    rw [hcred]
    simp [ComplexCredential.WF, Credential.WF, MembersWF, totalShares, hleaf]
  have hl : leavesOf opts.credential.subCreds = leaf.leaves := by rw [hcred]; simp [leavesOf]
  have hl1 : leaf.leaves = [leaf] := by
    cases leaf with
    | complex _ _ _ => exact ho.elim
    | _ => rfl
  rw [header_opens_iff_satisfied hL hwf hdraw henc hlen (S := [c]) (by simpa using hc), if_pos]
  · rw [hcred]
    have : heldBy codec.crypto [c] leaf = true := by simp [heldBy, ho]
    cases leaf with
    | complex _ _ _ => exact ho.elim
    | privateKey _ => exact ho.elim
    | _ => simp [ComplexCredential.satisfied, satisfiedShares, Credential.satisfied, this]
  · intro hd ck _ _ i l b hi _ c' hc' hno
    rw [hl, hl1] at hi
    cases i with
    | zero =>
      simp only [List.getElem?_cons_zero, Option.some.injEq] at hi
      subst hi
      simp only [List.mem_singleton] at hc'
      subst hc'
      exact absurd ho hno
    | succ k => simp at hi

/-! The hypotheses hold for the sample header and different sets of credentials. -/

/-- Decidable "belongs together" for the toy primitives. -/
def toyOpens : Credential → Credential → Bool
  | .password p, .password q => p == q
  | .symmetricKey p, .symmetricKey q => p == q
  | .privateKey sk, .publicKey pk => sk == pk ++ pk && pk.length == 32
  | _, _ => false

theorem toyOpens_opens {c leaf : Credential} (h : toyOpens c leaf = true) : Opens Toy.crypto c leaf := by
  unfold toyOpens at h
  split at h
  · simp only [beq_iff_eq] at h; rw [h]; rfl
  · simp only [beq_iff_eq] at h; rw [h]; rfl
  · rename_i sk pk
    simp only [Bool.and_eq_true, beq_iff_eq] at h
    have hp : Toy.pad32 pk = pk := by
      rw [Toy.pad32, List.take_append_of_le_length (by omega), List.take_of_length_le (by omega)]
    exact ⟨pk, hp, by rw [h.1]; simp [Toy.crypto, hp]⟩
  · cases h

/-- Decidable version of `HeaderDetectsWrongCredentials` for the toy primitives. -/
def toyDetects (hdr : Bytes) (cred : ComplexCredential) (S : List Credential) : Bool :=
  match decodeHeader hdr with
  | some ⟨_, epk, some ck, _⟩ =>
    ((leavesOf cred.subCreds).zip ck.blobs).zipIdx.all fun ((leaf, blob), i) =>
      S.all fun c => toyOpens c leaf ||
        match tryOpen Toy.crypto epk c blob (UInt32.ofNat i) with
        | .ok none => true
        | _ => false
  | _ => false

theorem toyDetects_detects {hdr : Bytes} {cred : ComplexCredential} {S : List Credential}
    (h : toyDetects hdr cred S = true) : HeaderDetectsWrongCredentials Toy.crypto hdr cred S := by
  intro hd ck hdec hck i leaf blob hl hb c hc hno
  unfold toyDetects at h
  rw [hdec] at h
  obtain ⟨fam, epk, pk, ph⟩ := hd
  simp only at hck
  subst hck
  simp only [List.all_eq_true] at h
  have hz : ((leaf, blob), i) ∈ ((leavesOf cred.subCreds).zip ck.blobs).zipIdx := by
    rw [List.mem_zipIdx_iff_getElem?, List.getElem?_zip_eq_some]
    exact ⟨hl, hb⟩
  have := h _ hz c hc
  simp only [Bool.or_eq_true] at this
  rcases this with h1 | h1
  · exact absurd (toyOpens_opens h1) hno
  · split at h1
    · assumption
    · cases h1

theorem sample_crypto : Sample.codec.crypto = Toy.crypto := by
  obtain ⟨C, ck, st', h1, -, -, -, -, h2⟩ := encryptHeader_ok Sample.enc_ok
  rw [h2]
  have h : cryptosysFromProto Toy.lib (cryptoFamilyFromOpts Sample.opts) = .ok Toy.crypto := rfl
  rw [h] at h1
  injection h1 with h1
  exact h1.symm

/-- Bob's key and the second password of the inner group: opens. -/
example : HeaderDetectsWrongCredentials Sample.codec.crypto Sample.hdr Sample.opts.credential
    [.privateKey Sample.bob.2, .password [99, 100]] := by
  rw [sample_crypto]; exact toyDetects_detects (by decide +kernel)

example : (decryptHeader Toy.lib Sample.hdr [.privateKey Sample.bob.2, .password [99, 100]]).isOk = true := by
  decide +kernel

/-- Both members of the inner group: only one share of two. -/
example : HeaderDetectsWrongCredentials Sample.codec.crypto Sample.hdr Sample.opts.credential
    [.symmetricKey [9], .password [99, 100], .password [1]] := by
  rw [sample_crypto]; exact toyDetects_detects (by decide +kernel)

example : (decryptHeader Toy.lib Sample.hdr [.symmetricKey [9], .password [99, 100], .password [1]]).isOk = false := by
  decide +kernel

/-! ### C59: more credentials never hurt -/

mutual
theorem satisfied_mono {has has' : Credential → Bool} (h : ∀ c, has c = true → has' c = true) :
    ∀ c : Credential, c.satisfied has = true → c.satisfied has' = true
  | .complex subs n t, hs => by
    rw [Credential.satisfied, decide_eq_true_eq] at *
    have := satisfiedShares_mono h subs
    omega
  | .password p, hs => h _ hs
  | .symmetricKey p, hs => h _ hs
  | .publicKey p, hs => h _ hs
  | .privateKey p, hs => h _ hs
theorem satisfiedShares_mono {has has' : Credential → Bool} (h : ∀ c, has c = true → has' c = true) :
    ∀ subs, satisfiedShares has subs ≤ satisfiedShares has' subs
  | [] => by simp [satisfiedShares]
  | (n, c) :: rest => by
    rw [satisfiedShares, satisfiedShares]
    have h1 := satisfiedShares_mono h rest
    have h2 := satisfied_mono h c
    split <;> split <;> first | omega | simp_all
end

/-- If a header opens with credentials `S`, it opens with every list `S'` containing them, with the same result,
as long as wrong credentials in `S'` are merely detected as wrong. -/
theorem extra_credentials_harmless {L : CryptoLib} (hL : L.Lawful) {opts : EncryptOptions} {draw : Nat} {tape : Tape}
    (hwf : opts.credential.WF) (hdraw : draw < 1024) {hdr : Bytes} {codec : Codec} {chunkSize : Nat}
    (henc : encryptHeader L opts draw tape = .ok (hdr, codec, chunkSize)) (hlen : hdr.length < 2 ^ 64)
    {S S' : List Credential} (hsub : ∀ c ∈ S, c ∈ S') (hS' : ∀ c ∈ S', Usable c)
    (hw : HeaderDetectsWrongCredentials codec.crypto hdr opts.credential S') {r : Codec × Nat}
    (hopen : decryptHeader L hdr S = .ok r) : decryptHeader L hdr S' = .ok r := by
  have hS : ∀ c ∈ S, Usable c := fun c hc => hS' c (hsub c hc)
  have hwS : HeaderDetectsWrongCredentials codec.crypto hdr opts.credential S :=
    fun hd ck h1 h2 i leaf blob h3 h4 c hc => hw hd ck h1 h2 i leaf blob h3 h4 c (hsub c hc)
  rw [header_opens_iff_satisfied hL hwf hdraw henc hlen hS hwS] at hopen
  rw [header_opens_iff_satisfied hL hwf hdraw henc hlen hS' hw, ← hopen]
  split at hopen
  · rename_i hs
    rw [if_pos hs, if_pos]
    have := satisfiedShares_mono (has := heldBy codec.crypto S) (has' := heldBy codec.crypto S') (by
      intro c hc
      simp only [heldBy, decide_eq_true_eq] at *
      obtain ⟨c', h1, h2⟩ := hc
      exact ⟨c', hsub c' h1, h2⟩) opts.credential.subCreds
    unfold ComplexCredential.satisfied at *
    rw [decide_eq_true_eq] at *
    omega
  · cases hopen

/-- Primitives that, like libsodium, refuse some keys for boxes: here a key of zeros. -/
def strictCrypto : Crypto := { Toy.crypto with
  boxBeforenm := fun pk sk =>
    if Toy.pad32 pk = List.replicate 32 0 ∨ Toy.pad32 sk = List.replicate 32 0 then none
    else Toy.crypto.boxBeforenm pk sk }

theorem strict_lawful : strictCrypto.Lawful where
  hash_len := Toy.lawful.hash_len
  hmac_len := Toy.lawful.hmac_len
  kdf_len := Toy.lawful.kdf_len
  aead_ct_len := Toy.lawful.aead_ct_len
  aead_mac_len := Toy.lawful.aead_mac_len
  aead_dec_enc := Toy.lawful.aead_dec_enc
  aead_dec_len := Toy.lawful.aead_dec_len
  box_ct_len := Toy.lawful.box_ct_len
  box_mac_len := Toy.lawful.box_mac_len
  box_open_seal := Toy.lawful.box_open_seal
  box_dec_len := Toy.lawful.box_dec_len
  pk_len := Toy.lawful.pk_len
  sk_len := Toy.lawful.sk_len
  box_shared s s' := by
    have h : ∀ b, Toy.pad32 (Toy.pad32 b) = Toy.pad32 b := fun b => by
      have := Toy.pad32_append b []
      rwa [List.append_nil] at this
    have := Toy.lawful.box_shared s s'
    simp only [strictCrypto, Toy.crypto, Toy.pad32_append, h] at *
    rw [this]
    congr 1
    exact propext or_comm

def strictLib : CryptoLib := ⟨fun _ => .ok strictCrypto⟩

def strictOpts : EncryptOptions := ⟨⟨[(1, .password [1]), (1, .password [2])], 2, 1⟩, false⟩

def strictHdr : Bytes :=
  match encryptHeader strictLib strictOpts 0 Sample.tape with | .ok (h, _) => h | _ => []

/-- Whether a call fails with this error. -/
def refuses {α : Type} (e : Err) : Res α → Bool
  | .err e' => e = e'
  | _ => false

theorem refuses_eq {α : Type} {e : Err} {r : Res α} (h : refuses e r = true) : r = .err e := by
  cases r with
  | err e' => simp [refuses] at h; rw [h]
  | ok _ => cases h
  | panic => cases h

/-- The proviso is needed: a supplied private key that the primitive refuses makes decryption fail, although the
password alone opens the file. -/
theorem refused_key_blocks_decryption :
    ∃ (L : CryptoLib) (opts : EncryptOptions) (hdr : Bytes) (codec : Codec) (n : Nat) (S : List Credential)
      (bad : Credential), L.Lawful ∧ opts.credential.WF ∧
      encryptHeader L opts 0 Sample.tape = .ok (hdr, codec, n) ∧ Usable bad ∧
      (decryptHeader L hdr S).isOk = true ∧ decryptHeader L hdr (S ++ [bad]) = .err .invalidKeyPair := by
  have hok : (encryptHeader strictLib strictOpts 0 Sample.tape).isOk = true := by decide +kernel
  match h : encryptHeader strictLib strictOpts 0 Sample.tape with
  | .err e => rw [h] at hok; cases hok
  | .panic => rw [h] at hok; cases hok
  | .ok (hdr, codec, n) =>
    have e : strictHdr = hdr := by unfold strictHdr; rw [h]
    refine ⟨strictLib, strictOpts, hdr, codec, n, [.password [1]], .privateKey (List.replicate 64 0), ?_, ?_, h,
      trivial, ?_, ?_⟩
    · intro alg C hC; cases hC; exact strict_lawful
    · simp [ComplexCredential.WF, strictOpts, Credential.WF, MembersWF, totalShares]
    · rw [← e]; decide +kernel
    · rw [← e]
      exact refuses_eq (by decide +kernel)

/-! ### C13: nonces of wrapped key parts -/

/-- `blob` is some key part sealed for `leaf` under the nonce with number `i`: ciphertext, then MAC. -/
def SealedAt (C : Crypto) (ephemeralPk ephemeralSk : Bytes) (leaf : Credential) (blob : Bytes) (i : Nat) : Prop :=
  match leaf with
  | .password p => ∃ part ct mac,
      C.aeadEncrypt (passwordKey C ephemeralPk p) (wrapNonce i) [] part = (ct, mac) ∧ blob = ct ++ mac
  | .symmetricKey k => ∃ part ct mac,
      C.aeadEncrypt (secretKey C ephemeralPk k) (wrapNonce i) [] part = (ct, mac) ∧ blob = ct ++ mac
  | .publicKey pk => ∃ part shared ct mac, C.boxBeforenm pk ephemeralSk = some shared ∧
      C.boxSeal shared (wrapBoxNonce i) part = (ct, mac) ∧ blob = ct ++ mac
  | _ => False

theorem le32_inj {i j : Nat} (hi : i < 2 ^ 32) (hj : j < 2 ^ 32) (h : le32 i = le32 j) : i = j := by
  rw [← le32_eq, ← le32_eq] at h
  exact leBytes_inj (by norm_num; omega) (by norm_num; omega) h

/-- Whatever the primitives, the blobs of an honestly produced header of at most 4 GiB (the limit is 16 MiB) are sealed
under the nonces numbered 0, 1, 2, ... in the order of the leaves: blob `i` under nonce number `i`. -/
theorem key_parts_sealed_under_own_nonce {L : CryptoLib} {opts : EncryptOptions} {draw : Nat} {tape : Tape}
    (hwf : opts.credential.WF) {hdr : Bytes} {codec : Codec} {chunkSize : Nat}
    (henc : encryptHeader L opts draw tape = .ok (hdr, codec, chunkSize)) (hlen : hdr.length ≤ 2 ^ 32) :
    ∃ hd ck seed, decodeHeader hdr = some hd ∧ hd.payloadKey = some ck ∧
      hd.ephemeralPk = (codec.crypto.keypair seed).1 ∧ ck.blobs.length = (leavesOf opts.credential.subCreds).length ∧ ck.blobs.length ≤ 2 ^ 32 ∧
      ∀ i leaf blob, (leavesOf opts.credential.subCreds)[i]? = some leaf → ck.blobs[i]? = some blob →
        SealedAt codec.crypto hd.ephemeralPk (codec.crypto.keypair seed).2 leaf blob i := by
  obtain ⟨C, ck, st', h1, hcs, h2, h3, rfl, rfl⟩ := encryptHeader_ok henc
  have hdec := decodeHeader_encodeHeader _ ⟨?_, ?_⟩ (Nat.lt_of_le_of_lt hlen (by norm_num))
  rotate_left
  · intro alg ha
    simp only [cryptoFamilyFromOpts, Option.some.injEq] at ha
    rw [← ha]; split <;> omega
  · intro ck' hck
    simp only [Option.some.injEq] at hck
    subst hck
    exact fits_composite hwf h3
  have hk : encryptKeyData C (C.keypair ((tape.fill 32).2.fill 32).1).1 (C.keypair ((tape.fill 32).2.fill 32).1).2
      (.complex opts.credential.subCreds opts.credential.numShares opts.credential.threshold) (tape.fill 32).1
      ⟨0, ((tape.fill 32).2.fill 32).2⟩ = .ok (.composite ck, st') := by
    rw [encryptKeyData]
    unfold encryptCompositeKey at h3
    rw [h3]; rfl
  obtain ⟨a1, -, a3⟩ := shape_keyData C _ _ _ _ _ _ _ hk
  rw [KeyData.blobs, Credential.leaves] at a1 a3
  have hb := blobs_header (ck := ck) (h := _) rfl |>.trans hlen
  refine ⟨_, ck, ((tape.fill 32).2.fill 32).1, hdec, rfl, rfl, a1, hb, ?_⟩
  intro i leaf blob hl hbl
  obtain ⟨part, hp⟩ := aligned_get a3 i leaf blob hl hbl
  have hi : i < 2 ^ 32 := by
    have := (List.getElem?_eq_some_iff.mp hbl).1
    omega
  have e0 : ((0 : UInt32) + UInt32.ofNat i).toNat = i := by
    rw [UInt32.zero_add, UInt32.toNat_ofNat_of_lt' hi]
  have e1 : recipientSecretNonce ((0 : UInt32) + UInt32.ofNat i) = wrapNonce i := by rw [secretNonce_eq, e0]
  have e2 : recipientBoxNonce ((0 : UInt32) + UInt32.ofNat i) = wrapBoxNonce i := by rw [boxNonce_eq, e0]
  cases leaf with
  | password p =>
    simp only [wrapLeaf, recipientKey_password, Res.bind_ok, Res.pure_def, Res.ok.injEq] at hp
    rw [e1] at hp
    exact ⟨part, _, _, rfl, hp.symm⟩
  | symmetricKey p =>
    simp only [wrapLeaf, recipientKey_symmetric, Res.bind_ok, Res.pure_def, Res.ok.injEq] at hp
    rw [e1] at hp
    exact ⟨part, _, _, rfl, hp.symm⟩
  | publicKey p =>
    simp only [wrapLeaf] at hp
    rw [e2] at hp
    unfold Crypto.boxEncryptEasy at hp
    split at hp
    · cases hp
    · rename_i k hk
      simp only [Res.ok.injEq] at hp
      exact ⟨part, k, _, _, hk, rfl, hp.symm⟩
  | privateKey p => simp [wrapLeaf] at hp
  | complex _ _ _ => simp [wrapLeaf] at hp

/-- These nonces are pairwise different, and different from the nonces used with the payload key. -/
theorem key_part_nonces_distinct (i j : Nat) (hi : i < 2 ^ 32) (hj : j < 2 ^ 32) :
    (i ≠ j → wrapNonce i ≠ wrapNonce j ∧ wrapBoxNonce i ≠ wrapBoxNonce j) ∧
    wrapNonce i ≠ Spec.headerNonce ∧ ∀ k, wrapNonce i ≠ Spec.payloadNonce k := by
  refine ⟨?_, ?_, ?_⟩
  · intro hne
    constructor
    · intro h; exact hne (le32_inj hi hj (List.append_cancel_left h))
    · intro h; exact hne (le32_inj hi hj (List.append_cancel_left h))
  · intro h
    have := congrArg (fun l => l[4]?) h
    simp [wrapNonce, Spec.headerNonce] at this
  · intro k h
    have := congrArg (fun l => l[2]?) h
    simp [wrapNonce, Spec.payloadNonce] at this

example : Sample.opts.credential.WF ∧ Sample.hdr.length ≤ 2 ^ 32 :=
  ⟨Sample.cred_wf, by have := Sample.hdr_length; omega⟩

/-! ### C63: credential kinds are not visible -/

/-- Two encryptions with trees of the same shape, whatever the kinds of credentials, secrets, chunk sizes and
randomness: the headers have the same length, and are the same message once all byte strings (keys and ciphertexts)
are blanked, that is, all numbers and all lengths agree field by field. -/
theorem header_hides_credential_kinds {L : CryptoLib} (hL : L.Lawful) {opts opts' : EncryptOptions}
    {draw draw' : Nat} {tape tape' : Tape} (hwf : opts.credential.WF) (hwf' : opts'.credential.WF)
    (hdraw : draw < 1024) (hdraw' : draw' < 1024) {hdr hdr' : Bytes} {codec codec' : Codec} {n n' : Nat}
    (henc : encryptHeader L opts draw tape = .ok (hdr, codec, n)) (hlen : hdr.length < 2 ^ 64)
    (henc' : encryptHeader L opts' draw' tape' = .ok (hdr', codec', n'))
    (hshape : opts.credential.shape = opts'.credential.shape) (hfast : opts.fastAead = opts'.fastAead) :
    hdr.length = hdr'.length ∧
      ∃ hd hd', decodeHeader hdr = some hd ∧ decodeHeader hdr' = some hd' ∧ hd.redact = hd'.redact := by
  obtain ⟨C, ck, st, h1, hcs, h2, h3, rfl, rfl⟩ := encryptHeader_ok henc
  obtain ⟨C', ck', st', h1', hcs', h2', h3', rfl, rfl⟩ := encryptHeader_ok henc'
  have hfam : cryptoFamilyFromOpts opts = cryptoFamilyFromOpts opts' := by unfold cryptoFamilyFromOpts; rw [hfast]
  rw [← hfam, h1] at h1'
  injection h1' with h1'
  subst h1'
  have hCl : C.Lawful := by
    unfold cryptoFamilyFromOpts at h1
    cases hf : opts.fastAead with
    | false => simp only [hf] at h1; exact hL _ _ h1
    | true => simp only [hf] at h1; exact hL _ _ h1
  have hck : ck.redact = ck'.redact := by
    have e := redact_composite hCl h3
    have e' := redact_composite hCl h3'
    rw [hshape, fill_length] at e
    rw [fill_length, ← e] at e'
    injection e' with e'
    exact e'.symm
  have hprot : ∀ (draw : Nat) (s : Bytes), draw < 1024 →
      (encodeProtectedHeader ⟨chunkSizeOf draw, ANONYMOUS, (C.keypair s).1⟩).length = 45 := by
    intro draw s hd
    have hpk := hCl.pk_len s
    have hne : (C.keypair s).1 ≠ [] := by intro h; rw [h] at hpk; simp at hpk
    unfold encodeProtectedHeader encodeEnum encodeBytesOpt encodeFixed64 encodeBytes
    simp only
    rw [(chunkSizeOf_ok hd).1, if_neg (by decide), if_pos (by decide), if_neg hne, if_neg (by omega)]
    simp only [List.length_append, leBytes_length, hpk, ANONYMOUS]
    rfl
  have hred : ∀ hd hd' : RyptFileHeader, hd.redact = hd'.redact →
      (encodeHeader hd).length = (encodeHeader hd').length := by
    intro hd hd' h
    rw [← len_header hd, h, len_header hd']
  have hfits : ∀ (o : EncryptOptions) (ck : CompositeKey) (k p : Bytes) st st', o.credential.WF →
      encryptCompositeKey C (C.keypair k).1 (C.keypair k).2 p o.credential st = .ok (ck, st') → ∀ ph : Bytes,
      RyptFileHeader.Fits ⟨cryptoFamilyFromOpts o, (C.keypair k).1, some ck, ph⟩ := by
    intro o ck k p st st' hwf h ph
    refine ⟨?_, ?_⟩
    · intro alg ha
      simp only [cryptoFamilyFromOpts, Option.some.injEq] at ha
      rw [← ha]; split <;> omega
    · intro ck' hck
      simp only [Option.some.injEq] at hck
      subst hck
      exact fits_composite hwf h
  have key : ∀ hd hd' : RyptFileHeader, hd.Fits → hd'.Fits → (encodeHeader hd).length < 2 ^ 64 →
      hd.redact = hd'.redact → (encodeHeader hd).length = (encodeHeader hd').length ∧
      ∃ a b, decodeHeader (encodeHeader hd) = some a ∧ decodeHeader (encodeHeader hd') = some b ∧
        a.redact = b.redact := by
    intro hd hd' f f' hl h
    have e := hred hd hd' h
    exact ⟨e, hd, hd', decodeHeader_encodeHeader _ f hl, decodeHeader_encodeHeader _ f' (by omega), h⟩
  refine key _ _ (hfits _ _ _ _ _ _ hwf h3 _) (hfits _ _ _ _ _ _ hwf' h3' _) hlen ?_
  simp only [RyptFileHeader.redact, hfam, Option.map_some, hck, blank, hCl.pk_len,
    Crypto.aeadEncryptEasy_length hCl, hcs, hcs', hprot draw _ hdraw, hprot draw' _ hdraw']

/-- A tree of the same shape as the sample with all kinds changed. -/
def otherKinds : ComplexCredential where
  subCreds := [(1, .symmetricKey [1]), (1, .password [4, 4, 4]),
    (1, .complex [(1, .password [5]), (1, .publicKey Sample.bob.1)] 2 1)]
  numShares := 3
  threshold := 2

example : otherKinds.shape = Sample.opts.credential.shape := rfl
example : otherKinds.WF := by
  simp [ComplexCredential.WF, otherKinds, Credential.WF, MembersWF, totalShares]
example : (encryptHeader Toy.lib ⟨otherKinds, false⟩ 700 (fun i => UInt8.ofNat (i * i))).isOk = true := by
  decide +kernel

/-! ### C56: hostile headers -/

/-- Whether a call panicked. -/
def panics {α : Type} : Res α → Bool
  | .panic => true
  | _ => false

theorem panics_eq {α : Type} {r : Res α} (h : panics r = true) : r = .panic := by
  cases r with
  | panic => rfl
  | ok _ => cases h
  | err _ => cases h

/-- A header that asks for both of two key parts, of which one has 1 byte and the other 2. -/
def unequalPartsHeader : Bytes :=
  let epk := (Toy.crypto.keypair [3]).1
  let key := Toy.crypto.hmac (epk ++ [9]) SYMMETRIC_SECRET_NONCE
  encodeHeader { cryptoFamily := some 1, ephemeralPk := epk, protectedHeader := [],
                 payloadKey := some (.mk 2 [
                   .mk 0 (.encrypted (Toy.crypto.aeadEncryptEasy [1] key (recipientSecretNonce 0))),
                   .mk 0 (.encrypted (Toy.crypto.aeadEncryptEasy [1, 2] key (recipientSecretNonce 1)))]) }

/-- A header in which two key parts decrypt to nothing. -/
def emptyPartsHeader : Bytes :=
  let epk := (Toy.crypto.keypair [3]).1
  let key := Toy.crypto.hmac (epk ++ [9]) SYMMETRIC_SECRET_NONCE
  encodeHeader { cryptoFamily := some 1, ephemeralPk := epk, protectedHeader := [],
                 payloadKey := some (.mk 0 [
                   .mk 2 (.encrypted (Toy.crypto.aeadEncryptEasy [] key (recipientSecretNonce 0)))]) }

/-- "A hostile header never crashes decryption" is false: whoever can encrypt to one of the supplied credentials can make
the program panic. The first of two ways. -/
theorem hostile_header_can_panic :
    ¬ ∀ (L : CryptoLib) (hdr : Bytes) (S : List Credential), L.Lawful → (∀ alg, L.instantiate alg ≠ .panic) →
      (∀ c ∈ S, Usable c) → decryptHeader L hdr S ≠ .panic := by
  intro h
  have h1 : panics (decryptHeader Toy.lib unequalPartsHeader [.symmetricKey [9]]) = true := by decide +kernel
  apply h Toy.lib unequalPartsHeader [.symmetricKey [9]] Toy.lib_lawful (by simp [Toy.lib]) (by simp [Usable])
  exact panics_eq h1

/-- The second way. -/
theorem hostile_header_can_panic_empty :
    decryptHeader Toy.lib emptyPartsHeader [.symmetricKey [9]] = .panic := by
  have h1 : panics (decryptHeader Toy.lib emptyPartsHeader [.symmetricKey [9]]) = true := by decide +kernel
  exact panics_eq h1

/-- What is missing for the full claim is only consistency of sizes: decryption of any byte string as a header does not
panic if what the supplied credentials decrypt from it has, blob by blob, the size its place in the tree asks for
(some positive number of bytes per part). -/
theorem hostile_header_no_panic_partial {L : CryptoLib} (hL : ∀ alg, L.instantiate alg ≠ .panic) {hdr : Bytes}
    {S : List Credential} (hS : ∀ c ∈ S, Usable c)
    (hsized : ∀ C hd t ps, decodeHeader hdr = some hd → cryptosysFromProto L hd.cryptoFamily = .ok C →
      hd.payloadKey = some (.mk t ps) → ∃ len, 0 < len ∧ PartsSized (S.map (tryOpen C hd.ephemeralPk)) ps len) :
    decryptHeader L hdr S ≠ .panic :=
  decryptHeader_no_panic hL hS hsized

/-- C56: exactly two flaws of a header can be the reason when its decryption panics: a group all parts of which are needed, two
at least, of which the supplied credentials open two with different lengths; or a member with two parts or more for which they open
no bytes at all. -/
theorem hostile_header_panic_cause {L : CryptoLib} (hL : ∀ alg, L.instantiate alg ≠ .panic) {hdr : Bytes}
    {S : List Credential} (hS : ∀ c ∈ S, Usable c) (h : decryptHeader L hdr S = .panic) :
    ∃ C hd ck, decodeHeader hdr = some hd ∧ cryptosysFromProto L hd.cryptoFamily = .ok C ∧ hd.payloadKey = some ck ∧
      FlawedGroup (S.map (tryOpen C hd.ephemeralPk)) ck :=
  decryptHeader_panic_cause hL hS h

/-- The two headers above panic, so they have flaws. -/
example : (∃ C hd ck, decodeHeader emptyPartsHeader = some hd ∧ cryptosysFromProto Toy.lib hd.cryptoFamily = .ok C ∧
    hd.payloadKey = some ck ∧ FlawedGroup ([Credential.symmetricKey [9]].map (tryOpen C hd.ephemeralPk)) ck) :=
  hostile_header_panic_cause (by simp [Toy.lib]) (by simp [Usable]) hostile_header_can_panic_empty

/-- A group of which one part suffices has no flaw, whatever the blobs and the decryptors. -/
example (ds : List Decryptor) (a b : Bytes) : ¬ FlawedGroup ds (.mk 1 [.mk 0 (.encrypted a), .mk 1 (.encrypted b)]) := by
  intro h
  cases h with
  | unequal _ _ p q a b ht => omega
  | member _ _ p hp hf =>
    simp only [List.mem_cons, List.not_mem_nil, or_false] at hp
    rcases hp with rfl | rfl <;> cases hf <;> omega

/-- In particular a header in which no supplied credential decrypts any blob (its author knows none of them) is always
refused with an error, never a panic. -/
theorem foreign_header_refused {L : CryptoLib} (hL : ∀ alg, L.instantiate alg ≠ .panic) {hdr : Bytes}
    {S : List Credential} (hS : ∀ c ∈ S, Usable c)
    (hforeign : ∀ C hd ck, decodeHeader hdr = some hd → cryptosysFromProto L hd.cryptoFamily = .ok C →
      hd.payloadKey = some ck → ∀ blob ∈ ck.blobs, ∀ c ∈ S, ∀ idx m,
        tryOpen C hd.ephemeralPk c blob idx ≠ .ok (some m)) :
    ∃ e, decryptHeader L hdr S = .err e :=
  decryptHeader_closed hL hS hforeign

/-- The condition holds, for instance, for a header with blobs too short to be ciphertexts, whatever is supplied. -/
example (C : Crypto) (epk : Bytes) (c : Credential) (idx : UInt32) (m : Bytes) :
    tryOpen C epk c [1, 2, 3] idx ≠ .ok (some m) := by
  cases c <;> simp [tryOpen, openSealed]

/-- Toy decryption only ever removes 16 bytes. -/
theorem toy_tryOpen_length {epk blob m : Bytes} {c : Credential} {idx : UInt32}
    (h : tryOpen Toy.crypto epk c blob idx = .ok (some m)) : m.length = blob.length - 16 := by
  have a : ∀ f : Bytes → Bytes → Option Bytes, (∀ ct mac m, f ct mac = some m → m.length = ct.length) →
      openSealed f blob = some m → m.length = blob.length - 16 := by
    intro f hf h
    unfold openSealed at h
    split at h
    · rw [hf _ _ _ h, List.length_take]; omega
    · cases h
  cases c with
  | password p =>
    simp only [tryOpen, Res.ok.injEq] at h
    exact a _ (fun _ _ _ => Toy.lawful.aead_dec_len _ _ _ _ _ _) h
  | symmetricKey k =>
    simp only [tryOpen, Res.ok.injEq] at h
    exact a _ (fun _ _ _ => Toy.lawful.aead_dec_len _ _ _ _ _ _) h
  | privateKey k =>
    simp only [tryOpen] at h
    split at h
    · cases h
    · split at h
      · cases h
      · simp only [Res.ok.injEq] at h
        exact a _ (fun _ _ _ => Toy.lawful.box_dec_len _ _ _ _ _) h
  | publicKey k => simp [tryOpen] at h
  | complex _ _ _ => simp [tryOpen] at h

theorem toy_tryDecryptors_length {epk blob m : Bytes} {S : List Credential} {idx : UInt32}
    (h : tryDecryptors (S.map (tryOpen Toy.crypto epk)) blob idx = .ok (some m)) : m.length = blob.length - 16 := by
  induction S with
  | nil => simp [tryDecryptors] at h
  | cons c S ih =>
    rw [List.map_cons, tryDecryptors] at h
    split at h
    · exact ih h
    · exact toy_tryOpen_length h

/-- The size condition holds for a header with two members of one and two parts, whatever is supplied. -/
example (epk : Bytes) (S : List Credential) : PartsSized (S.map (tryOpen Toy.crypto epk))
    [.mk 0 (.encrypted (List.replicate 48 1)), .mk 2 (.encrypted (List.replicate 80 1))] 32 := by
  refine ⟨?_, ?_, trivial⟩
  · intro idx m h
    rw [toy_tryDecryptors_length h]; rfl
  · intro idx m h
    rw [toy_tryDecryptors_length h]; rfl

end Rypt.Props
