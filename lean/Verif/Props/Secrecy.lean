import Verif.Proofs.Secrecy
import Verif.Proofs.Shape
import Verif.Props.Samples
import Verif.Props.Access

/-!
Property C04: a coalition below the threshold learns nothing about the payload key.
-/

namespace Rypt.Props

open HeaderCrypto Shamir

/-- What a coalition holding the leaves `has` can read of a composite key: its structure and blob sizes, and the blobs
of the leaves it holds (`none` for the others, which are sealed with keys of others). -/
def coalitionView (has : Credential → Bool) (leaves : List Credential) (ck : Proto.CompositeKey) :
    Proto.CompositeKey × List (Option Bytes) :=
  (ck.redact, (leaves.zip ck.blobs).map fun (leaf, blob) => if has leaf then some blob else none)

/-- The mask depends only on the difference of the two keys. -/
theorem coalition_view_shift (has : Credential → Bool) (cred : ComplexCredential) (hwf : cred.WF)
    (hs : cred.satisfied has = false) (d : Bytes) :
    ∃ mask : Tape, ∀ (C : Crypto), C.Lawful → ∀ (ephemeralPk ephemeralSk key : Bytes) (idx : UInt32) (tape : Tape)
        (st' : KeyState) (ck : Proto.CompositeKey), key.length = d.length →
        encryptCompositeKey C ephemeralPk ephemeralSk key cred ⟨idx, tape⟩ = .ok (ck, st') →
        ∃ ck', encryptCompositeKey C ephemeralPk ephemeralSk (xorBytes key d) cred ⟨idx, tape.xor mask⟩ =
            .ok (ck', st') ∧
          coalitionView has (leavesOf cred.subCreds) ck = coalitionView has (leavesOf cred.subCreds) ck' := by
  obtain ⟨mask, hm⟩ := encryptCompositeKey_shift has cred hwf hs d
  refine ⟨mask, ?_⟩
  intro C hC epk esk key idx tape st' ck hlen h
  obtain ⟨ck', h1, h2⟩ := hm C epk esk key idx tape ck st' hlen h
  refine ⟨ck', h1, ?_⟩
  have hlen' : key.length = (xorBytes key d).length := by simp; omega
  unfold coalitionView
  congr 1
  · have e1 := redact_composite hC h
    have e2 := redact_composite hC h1
    rw [hlen', ← e2] at e1
    injection e1
  · have hl : ∀ {k : Bytes} {st st' : KeyState} {c : Proto.CompositeKey},
        encryptCompositeKey C epk esk k cred st = .ok (c, st') → c.blobs.length = (leavesOf cred.subCreds).length := by
      intro k st st' c hc
      unfold encryptCompositeKey at hc
      obtain ⟨parts, tp, eks, -, h3, rfl⟩ := compositeWith_ok hc
      rw [Proto.CompositeKey.blobs]
      exact (shape_subs C epk esk _ _ _ _ _ h3).1
    have l1 := hl h
    have l2 := hl h1
    apply List.ext_getElem
    · simp [l1, l2]
    · intro i hi1 hi2
      simp only [List.length_map, List.length_zip] at hi1
      have i1 : i < (leavesOf cred.subCreds).length := by omega
      simp only [List.getElem_map, List.getElem_zip]
      by_cases hh : has (leavesOf cred.subCreds)[i] = true
      · rw [if_pos hh, if_pos hh]
        have := h2 i _ (List.getElem?_eq_getElem i1) hh
        rwa [List.getElem?_eq_getElem (by omega), List.getElem?_eq_getElem (by omega)] at this
      · rw [if_neg hh, if_neg hh]

/-- C04. For a tree the coalition does not satisfy and any two payload keys of the same length there is a fixed mask such
that, for every random tape, the coalition's view of the tree encrypting `key` with that tape is its view of the tree
encrypting `key'` with the masked tape. Masking is its own inverse, so each view arises from equally many tapes under
both keys. -/
theorem coalition_below_threshold_learns_nothing (has : Credential → Bool) (cred : ComplexCredential) (hwf : cred.WF)
    (hs : cred.satisfied has = false) (key key' : Bytes) (hlen : key.length = key'.length) :
    ∃ mask : Tape, (∀ tape : Tape, (tape.xor mask).xor mask = tape) ∧
      ∀ (C : Crypto), C.Lawful → ∀ (ephemeralPk ephemeralSk : Bytes) (idx : UInt32) (tape rest : Tape) (idx' : UInt32)
        (ck : Proto.CompositeKey),
        encryptCompositeKey C ephemeralPk ephemeralSk key cred ⟨idx, tape⟩ = .ok (ck, ⟨idx', rest⟩) →
        ∃ ck', encryptCompositeKey C ephemeralPk ephemeralSk key' cred ⟨idx, tape.xor mask⟩ =
            .ok (ck', ⟨idx', rest⟩) ∧
          coalitionView has (leavesOf cred.subCreds) ck = coalitionView has (leavesOf cred.subCreds) ck' := by
  have hx : xorBytes key (xorBytes key key') = key' := by
    rw [← xorBytes_assoc, xorBytes_self, xorBytes_comm, xorBytes_zero (by omega)]
  obtain ⟨mask, hm⟩ := coalition_view_shift has cred hwf hs (xorBytes key key')
  refine ⟨mask, ?_, ?_⟩
  · intro tape
    funext i
    simp [Tape.xor, UInt8.xor_assoc]
  intro C hC epk esk idx tape rest idx' ck h
  obtain ⟨ck', h1, h2⟩ := hm C hC epk esk key idx tape ⟨idx', rest⟩ ck (by simp; omega) h
  rw [hx] at h1
  exact ⟨ck', h1, h2⟩

/-- What a coalition holding the leaves `has` can read of a whole header: everything in the clear (algorithm, ephemeral
key, structure, sizes) and the blobs of the leaves it holds. -/
def headerView (has : Credential → Bool) (leaves : List Credential) (hdr : Bytes) :
    Option (Proto.RyptFileHeader × Bytes × Option (Proto.CompositeKey × List (Option Bytes))) :=
  (Proto.decodeHeader hdr).map fun hd =>
    (hd.redact, hd.ephemeralPk, hd.payloadKey.map (coalitionView has leaves))

/-- C04, whole header. The payload key is the first 32 bytes of the random tape. For every difference `d` of payload keys
there is a fixed mask such that, for every tape, masking it changes the payload key by `d` while the coalition's view of
the header, including the public ephemeral key, stays the same. So the randomness of the payload key, of the ephemeral key
pair and of the key parts is independent, and each view arises from equally many tapes under every payload key. -/
theorem header_below_threshold_learns_nothing (has : Credential → Bool) (opts : EncryptOptions)
    (hwf : opts.credential.WF) (hs : opts.credential.satisfied has = false) (d : Bytes) (hd : d.length = 32) :
    ∃ mask : Tape, (∀ tape : Tape, (tape.xor mask).xor mask = tape) ∧
      ∀ (L : CryptoLib), L.Lawful → ∀ (draw : Nat) (tape : Tape) (hdr : Bytes) (codec : Codec) (cs : Nat),
        draw < 1024 → hdr.length < 2 ^ 64 → encryptHeader L opts draw tape = .ok (hdr, codec, cs) →
        codec.payloadKey = (List.range 32).map tape ∧
        ∃ hdr' codec', encryptHeader L opts draw (tape.xor mask) = .ok (hdr', codec', cs) ∧
          codec'.payloadKey = List.zipWith (· ^^^ ·) codec.payloadKey d ∧
          headerView has (leavesOf opts.credential.subCreds) hdr =
            headerView has (leavesOf opts.credential.subCreds) hdr' := by
  obtain ⟨mask, hm⟩ := coalition_view_shift has opts.credential hwf hs d
  let m : Tape := fun i => if i < 32 then d[i]?.getD 0 else if i < 64 then 0 else mask (i - 64)
  refine ⟨m, ?_, ?_⟩
  · intro tape
    funext i
    simp [Tape.xor, UInt8.xor_assoc]
  intro L hL draw tape hdr codec cs hdraw hlen henc
  have f1 : ((tape.xor m).fill 32).1 = xorBytes (tape.fill 32).1 d := by
    apply List.ext_getElem
    · simp [Tape.fill, xorBytes, hd]
    · intro i h1 h2
      have hi : i < 32 := by simpa [Tape.fill] using h1
      simp [Tape.fill, xorBytes, Tape.xor, m, hi, List.getElem?_eq_getElem (show i < d.length by omega)]
  have f2 : (((tape.xor m).fill 32).2.fill 32).1 = ((tape.fill 32).2.fill 32).1 := by
    apply List.ext_getElem
    · simp [Tape.fill]
    · intro i h1 h2
      have hi : i < 32 := by simpa [Tape.fill] using h1
      simp [Tape.fill, Tape.xor, m, show 32 + i < 64 by omega]
  have f3 : (((tape.xor m).fill 32).2.fill 32).2 = (((tape.fill 32).2.fill 32).2).xor mask := by
    funext i
    simp only [Tape.fill, Tape.xor, m]
    rw [if_neg (by omega), if_neg (by omega)]
    congr 2
    omega
  obtain ⟨C, ck, st', h1, hcs, h2, h3, h5, h6⟩ := encryptHeader_ok henc
  have hCl : C.Lawful := by
    unfold cryptoFamilyFromOpts at h1
    cases hf : opts.fastAead with
    | false => simp only [hf] at h1; exact hL _ _ h1
    | true => simp only [hf] at h1; exact hL _ _ h1
  obtain ⟨ck', h3', hv⟩ := hm C hCl _ _ _ _ _ _ _ (by rw [hd, fill_length]) h3
  refine ⟨by rw [h6]; rfl, ?_⟩
  rw [← f1, ← f2, ← f3] at h3'
  have henc' : ∃ hdr' codec', encryptHeader L opts draw (tape.xor m) = .ok (hdr', codec', cs) := by
    subst hcs
    unfold encryptHeader
    simp only [h1, h2, Res.bind_ok]
    rw [show AEAD_KEY_LEN = 32 from rfl, h3']
    exact ⟨_, _, rfl⟩
  obtain ⟨hdr', codec', henc'⟩ := henc'
  refine ⟨hdr', codec', henc', ?_, ?_⟩
  · obtain ⟨_, _, _, -, -, -, -, -, h6'⟩ := encryptHeader_ok henc'
    rw [h6', h6]
    exact f1
  · obtain ⟨hl, hd1, hd2, hdec1, hdec2, hred⟩ :=
      header_hides_credential_kinds hL hwf hwf hdraw hdraw henc hlen henc' rfl rfl
    have g : ∀ {tp : Tape} {h : Bytes} {cd : Codec} {c : Proto.CompositeKey} {hd st},
        encryptHeader L opts draw tp = .ok (h, cd, cs) → h.length < 2 ^ 64 → Proto.decodeHeader h = some hd →
        encryptCompositeKey C (C.keypair ((tp.fill 32).2.fill 32).1).1 (C.keypair ((tp.fill 32).2.fill 32).1).2
        (tp.fill 32).1 opts.credential ⟨0, ((tp.fill 32).2.fill 32).2⟩ = .ok (c, st) →
        hd.ephemeralPk = (C.keypair ((tp.fill 32).2.fill 32).1).1 ∧ hd.payloadKey = some c := by
      intro tp h cd c hd st he hl hdec hck
      obtain ⟨C', ck1, st1, a1, -, -, a3, a5, -⟩ := encryptHeader_ok he
      rw [h1] at a1
      injection a1 with a1
      subst a1
      rw [hck] at a3
      injection a3 with a3
      injection a3 with a3 _
      subst a3
      rw [a5] at hl hdec
      rw [Proto.decodeHeader_encodeHeader _ ⟨?_, ?_⟩ hl] at hdec
      · cases hdec; exact ⟨rfl, rfl⟩
      · intro alg ha
        simp only [cryptoFamilyFromOpts, Option.some.injEq] at ha
        rw [← ha]; split <;> omega
      · intro ck' hck'
        simp only [Option.some.injEq] at hck'
        subst hck'
        exact fits_composite hwf hck
    obtain ⟨e1, e2⟩ := g henc hlen hdec1 h3
    obtain ⟨e1', e2'⟩ := g henc' (by omega) hdec2 h3'
    unfold headerView
    rw [hdec1, hdec2]
    simp only [Option.map_some, Option.some.injEq, Prod.mk.injEq, e2, e2']
    exact ⟨hred, by rw [e1, e1', f2], hv⟩

/-- The sample tree (2 of 3) is not satisfied by someone who holds both credentials of its third member, and encrypting
a key with it succeeds: the hypotheses are met. -/
example : let has : Credential → Bool := fun c => match c with
      | .symmetricKey _ => true
      | .password p => p == [99, 100]
      | _ => false
    Sample.cred.WF ∧ Sample.cred.satisfied has = false ∧
      (leavesOf Sample.cred.subCreds).countP has = 2 ∧
      (encryptCompositeKey Toy.crypto [1] [2] [3, 4, 5, 6] Sample.cred ⟨0, Sample.tape⟩).isOk = true ∧
      Sample.opts.credential = Sample.cred ∧ Sample.hdr.length < 2 ^ 64 ∧
      encryptHeader Toy.lib Sample.opts 5 Sample.tape = .ok (Sample.hdr, Sample.codec, Sample.chunkSize) :=
  ⟨Sample.cred_wf, by decide +kernel, by decide +kernel, by decide +kernel, rfl,
    by have := Sample.hdr_length; omega, Sample.enc_ok⟩

/-- The bound is tight: whoever satisfies the tree recovers the key (`header_opens_iff_satisfied`), so the views under
different keys differ. With all leaves held, no mask can exist for the single-password tree. -/
theorem full_coalition_distinguishes : ∃ (cred : ComplexCredential) (has : Credential → Bool) (key key' : Bytes),
    cred.WF ∧ cred.satisfied has = true ∧ key.length = key'.length ∧
    ∀ tape tape' : Tape, ∀ ck ck' st st',
      encryptCompositeKey Toy.crypto [1] [2] key cred ⟨0, tape⟩ = .ok (ck, st) →
      encryptCompositeKey Toy.crypto [1] [2] key' cred ⟨0, tape'⟩ = .ok (ck', st') →
      coalitionView has (leavesOf cred.subCreds) ck ≠ coalitionView has (leavesOf cred.subCreds) ck' := by
  refine ⟨⟨[(1, .password [7])], 1, 1⟩, fun _ => true, [1], [2], ?_, by decide +kernel, rfl, ?_⟩
  · simp [ComplexCredential.WF, Credential.WF, MembersWF, totalShares]
  intro tape tape' ck ck' st st' h h'
  have key : ∀ (k : Bytes) (tp : Tape) (c : Proto.CompositeKey) (s : KeyState), k.length = 1 →
      encryptCompositeKey Toy.crypto [1] [2] k ⟨[(1, .password [7])], 1, 1⟩ ⟨0, tp⟩ = .ok (c, s) →
      c.blobs.map List.head? = [k.head?] := by
    intro k tp c s hk hc
    unfold encryptCompositeKey at hc
    obtain ⟨parts, tp', eks, h1, h3, rfl⟩ := compositeWith_ok hc
    unfold splitKey at h1
    simp only [hk, HeaderIO.MAX_HEADER_LEN] at h1
    norm_num at h1
    obtain ⟨rfl, rfl⟩ := h1
    obtain ⟨-, kd, st1, eks', h4, h5, rfl⟩ := encryptSubs_cons_ok h3
    rw [encryptKeyData_leaf (by simp)] at h4
    obtain ⟨ct, h6, h4⟩ := Res.bind_eq_ok.mp h4
    simp only [Res.ok.injEq, Prod.mk.injEq] at h4
    obtain ⟨rfl, rfl⟩ := h4
    simp only [encryptSubs, Res.ok.injEq, Prod.mk.injEq] at h5
    obtain ⟨rfl, rfl⟩ := h5
    simp only [wrapLeaf, recipientSecretKey, Res.bind_ok, Res.pure_def, Res.ok.injEq] at h6
    subst h6
    match k, hk with
    | [b], _ =>
      simp [Proto.CompositeKey.blobs, Proto.blobsOf, Proto.EncryptedKeyParts.blobs, Proto.KeyData.blobs,
        Crypto.aeadEncryptEasy, Toy.crypto]
  have a := key [1] _ _ _ rfl h
  have b := key [2] _ _ _ rfl h'
  intro he
  unfold coalitionView at he
  injection he with _ he
  simp only [leavesOf, Credential.leaves, List.append_nil, if_true] at he
  generalize ck.blobs = x at *
  generalize ck'.blobs = y at *
  match x, y with
  | [x], [y] => simp at a b he; rw [he, b] at a; simp at a
  | [], _ => simp at a
  | _, [] => simp at b
  | _ :: _ :: _, _ => simp at a
  | _, _ :: _ :: _ => simp at b

end Rypt.Props
