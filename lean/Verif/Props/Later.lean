import Verif.Proofs.Later
import Verif.Props.File

/-! C122: what later versions of the program add to headers does no harm. -/

namespace Rypt.Props

open Spec Proto HeaderCrypto CryptFile

/-- What is found by `decryptHeader`, apart from the fingerprint. -/
private theorem decryptHeader_of_decoded (L : CryptoLib) {a b : Bytes} (h : decodeHeader b = decodeHeader a) (S : List Credential) :
    decryptHeader L b S = (decryptHeader L a S >>= fun r => .ok ({ r.1 with headerHash := r.1.crypto.hash b }, r.2)) := by
  unfold decryptHeader
  rw [h]
  cases decodeHeader a with
  | none => rfl
  | some header =>
    simp only
    cases cryptosysFromProto L header.cryptoFamily with
    | err e => rfl
    | panic => rfl
    | ok C =>
      simp only [Res.bind_ok]
      split
      · rfl
      · cases recoverPayloadKey C header.ephemeralPk header.payloadKey S with
        | err e => rfl
        | panic => rfl
        | ok key =>
          simp only [Res.bind_ok]
          split
          · rfl
          · cases C.aeadDecryptEasy header.protectedHeader key ENCRYPTED_HEADER_NONCE with
            | err e => rfl
            | panic => rfl
            | ok pb =>
              simp only [Res.bind_ok]
              cases decodeProtectedHeader pb with
              | none => rfl
              | some ph =>
                simp only
                cases checkChunkSize ph.plaintextChunkSize with
                | err e => rfl
                | panic => rfl
                | ok u =>
                  simp only [Res.bind_ok]
                  split
                  · rfl
                  · split
                    · rfl
                    · rfl

/-- C122: fields that this version does not know, anywhere in the header, make no difference to what is read from it. -/
theorem later_fields_ignored {a b : Bytes} (h : Added .header a b) : decodeHeader b = decodeHeader a := decodeHeader_added h

/-- C122: the same for the protected part. -/
theorem later_protected_fields_ignored {a b : Bytes} (h : Added .protectedPart a b) :
    decodeProtectedHeader b = decodeProtectedHeader a := decodeProtectedHeader_added h

/-- C122: such a header opens for the same credentials, to the same key and chunk size, and is refused for the same reasons. Only the
fingerprint of the header, to which the payload is bound, is that of the whole header, with the fields added. -/
theorem later_header_opens (L : CryptoLib) {a b : Bytes} (h : Added .header a b) (S : List Credential) :
    (∀ codec cs, decryptHeader L a S = .ok (codec, cs) →
      decryptHeader L b S = .ok ({ codec with headerHash := codec.crypto.hash b }, cs)) ∧
    (∀ e, decryptHeader L a S = .err e → decryptHeader L b S = .err e) ∧
    (decryptHeader L a S = .panic → decryptHeader L b S = .panic) := by
  rw [decryptHeader_of_decoded L (decodeHeader_added h) S]
  refine ⟨fun codec cs e => ?_, fun e h => ?_, fun h => ?_⟩
  · rw [e]; rfl
  · rw [h]; rfl
  · rw [h]; rfl

/-- C122: the same for fields added to the protected part, which is then sealed again with the same key. -/
theorem later_protected_part_opens (L : CryptoLib) {a b : Bytes} {ha hb : RyptFileHeader} (ea : decodeHeader a = some ha)
    (eb : decodeHeader b = some hb) (hp : hb = { ha with protectedHeader := hb.protectedHeader }) (S : List Credential) {codec : Codec}
    {cs : Nat} (hopen : decryptHeader L a S = .ok (codec, cs)) {x y : Bytes}
    (hx : codec.crypto.aeadDecryptEasy ha.protectedHeader codec.payloadKey headerNonce = .ok x)
    (hy : codec.crypto.aeadDecryptEasy hb.protectedHeader codec.payloadKey headerNonce = .ok y)
    (h : Added .protectedPart x y) : decryptHeader L b S = .ok ({ codec with headerHash := codec.crypto.hash b }, cs) := by
  rw [show headerNonce = ENCRYPTED_HEADER_NONCE by decide] at hx hy
  unfold decryptHeader at hopen ⊢
  rw [ea] at hopen
  rw [eb, hp]
  simp only at hopen ⊢
  obtain ⟨C, hC, hopen⟩ := Res.bind_eq_ok.1 hopen
  rw [hC]
  simp only [Res.bind_ok]
  split at hopen
  · cases hopen
  · rename_i hl
    rw [if_neg hl]
    obtain ⟨key, hkey, hopen⟩ := Res.bind_eq_ok.1 hopen
    rw [hkey]
    simp only [Res.bind_ok]
    split at hopen
    · cases hopen
    · rename_i hl2
      rw [if_neg hl2]
      obtain ⟨pb, hpb, hopen⟩ := Res.bind_eq_ok.1 hopen
      cases hd : decodeProtectedHeader pb with
      | none => rw [hd] at hopen; cases hopen
      | some ph =>
        rw [hd] at hopen
        simp only at hopen
        obtain ⟨u, hu, hopen⟩ := Res.bind_eq_ok.1 hopen
        split at hopen
        · cases hopen
        · rename_i h1
          split at hopen
          · cases hopen
          · rename_i h2
            cases hopen
            rw [hpb] at hx
            cases hx
            rw [hy]
            simp only [Res.bind_ok, decodeProtectedHeader_added h, hd, hu]
            rw [if_neg h1, if_neg h2]
            rfl

/-- C122: a whole file of a later version, which adds fields to the header and is otherwise the same. Whatever the schedule of the threads,
its decryption by this version gives the plaintext. -/
theorem later_file_decrypts {L : CryptoLib} (hL : L.Lawful) {opts : EncryptOptions} (hwf : opts.credential.WF) {draw : Nat}
    (hdraw : draw < 1024) {tape : Tape} {hdr : Bytes} {codec : Codec} {cs : Nat}
    (henc : encryptHeader L opts draw tape = .ok (hdr, codec, cs)) {hdr' : Bytes} (h : Added .header hdr hdr')
    (hmax : hdr.length ≤ maxHeader) (hmax' : hdr'.length ≤ maxHeader) {plain : Bytes} {S : List Credential} (hS : ∀ c ∈ S, Usable c)
    (hw : HeaderDetectsWrongCredentials codec.crypto hdr opts.credential S)
    (hsat : opts.credential.satisfied (heldBy codec.crypto S) = true) :
    (∀ o, Conversion L (file codec.crypto codec.payloadKey hdr' cs plain) (.decrypt S) o →
      o.written <+: plain ∧ ∀ r, o.result = some r → (o.faulted = true ∨ r = .ok () ∧ o.written = plain) ∧
        (r = .ok () → o.written = plain)) ∧
    Conversion L (file codec.crypto codec.payloadKey hdr' cs plain) (.decrypt S) ⟨plain, some (.ok ()), false⟩ := by
  have hC := lawful_of_encrypt hL henc
  have hopen := header_opens_iff_satisfied hL hwf hdraw henc (by unfold maxHeader at hmax; omega) hS hw
  rw [if_pos hsat] at hopen
  have hopen' := (later_header_opens L h S).1 _ _ hopen
  have hpos : 0 < hdr'.length := added_nonempty h (header_nonempty hL henc)
  refine ⟨fun o ho => decrypt_opened_layout hL hC (cs_pos hdraw henc) hpos hmax' hopen' rfl ho, ?_⟩
  have := decryption_can_finish (body := payload codec.crypto codec.payloadKey (codec.crypto.hash hdr') cs plain) hL hpos hmax' hopen'
  rw [convertStream_decrypt hC (cs_pos hdraw henc)] at this
  exact this

/-- C122: every header that this version makes can be added to. -/
theorem made_header_can_grow {L : CryptoLib} {opts : EncryptOptions} {draw : Nat} {tape : Tape} {hdr : Bytes} {codec : Codec} {cs : Nat}
    (henc : encryptHeader L opts draw tape = .ok (hdr, codec, cs)) (hmax : hdr.length ≤ maxHeader) {tag : Nat} {f : Bytes} (h0 : 0 < tag)
    (ht : tag < 2 ^ 29) (hk : tag ∉ [1, 6, 7, 8]) (hf : WireField tag f) :
    Added .header hdr (hdr ++ f) ∧ Added .header hdr (f ++ hdr) := by
  obtain ⟨C, ck, st', -, -, -, -, h5, -⟩ := encryptHeader_ok henc
  have hw : Whole .header hdr := by
    rw [h5]
    exact whole_header (by rw [← h5]; exact Nat.lt_of_le_of_lt hmax (by decide))
  have h1 := hw [] (f ++ []) (.later _ tag _ _ [] h0 ht hk hf (.nil _))
  have h2 := hw [] [] (.nil _)
  simp only [List.append_nil] at h1 h2
  exact ⟨h1, .later _ tag _ _ _ h0 ht hk hf h2⟩

/-! ### Cases -/

/-- Field 9, with the number 300. -/
theorem Sample.later : WireField 9 [72, 172, 2] :=
  .number [72] [172, 2] 300 ⟨.last 72 (by decide), by decide, by decide⟩
    ⟨.more 172 2 [2] (by decide) (.last 2 (by decide)), by decide, by decide⟩

/-- A file whose header has this field as well. -/
example (plain : Bytes) : Conversion Toy.lib (file Sample.codec.crypto Sample.codec.payloadKey (Sample.hdr ++ [72, 172, 2]) Sample.chunkSize plain)
    (.decrypt Sample.good) ⟨plain, some (.ok ()), false⟩ :=
  (later_file_decrypts Toy.lib_lawful Sample.cred_wf (by omega) Sample.enc_ok
    (made_header_can_grow Sample.enc_ok Sample.max_ok (by omega) (by omega) (by decide) Sample.later).1 Sample.max_ok
    (by rw [List.length_append]; have := Sample.hdr_length; unfold maxHeader; simp only [List.length_cons, List.length_nil]; omega)
    Sample.good_usable Sample.good_detects Sample.good_satisfies).2

/-- Fields at several levels: a group with a part that is a group, to each of which something is added. -/
example : Added .header [58, 4, 18, 2, 26, 0] [58, 13, 18, 8, 26, 3, 72, 172, 2, 72, 172, 2, 72, 172, 2] := by
  have inner : Added .group [] ([72, 172, 2] ++ []) := .later _ 9 _ _ _ (by omega) (by omega) (by decide) Sample.later (.nil _)
  have parts : Added .parts ([26] ++ [0] ++ [] ++ []) ([26] ++ [3] ++ ([72, 172, 2] ++ []) ++ ([72, 172, 2] ++ [])) :=
    .within .parts .group 3 [26] [0] [3] [] _ [] _ rfl ⟨.last 26 (by decide), by decide, by decide⟩ ⟨.last 0 (by decide), by decide, by decide⟩
      ⟨.last 3 (by decide), by decide, by decide⟩ inner
      (.later _ 9 _ _ _ (by omega) (by omega) (by decide) Sample.later (.nil _))
  have group : Added .group ([18] ++ [2] ++ [26, 0] ++ []) ([18] ++ [8] ++ [26, 3, 72, 172, 2, 72, 172, 2] ++ ([72, 172, 2] ++ [])) :=
    .within .group .parts 2 [18] [2] [8] _ _ [] _ rfl ⟨.last 18 (by decide), by decide, by decide⟩ ⟨.last 2 (by decide), by decide, by decide⟩
      ⟨.last 8 (by decide), by decide, by decide⟩ parts
      (.later _ 9 _ _ _ (by omega) (by omega) (by decide) Sample.later (.nil _))
  exact .within .header .group 7 [58] [4] [13] [18, 2, 26, 0] [18, 8, 26, 3, 72, 172, 2, 72, 172, 2, 72, 172, 2] [] [] rfl ⟨.last 58 (by decide), by decide, by decide⟩
    ⟨.last 4 (by decide), by decide, by decide⟩ ⟨.last 13 (by decide), by decide, by decide⟩ group (.nil _)

end Rypt.Props
