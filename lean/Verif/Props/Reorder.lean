import Verif.Proofs.Reorder
import Verif.Spec.Program
import Verif.Props.Access
import Verif.Props.ProgramKeys
import Verif.Props.CliCredentials

/-! C125: the order of keys. -/

namespace Rypt.Props

open Cli Getopts UI HeaderCrypto Spec Program

/-- C125: headers encrypted to credentials that differ only in the order of members of groups are opened by the same credentials,
in whatever order they are supplied, and refused otherwise; even if the algorithm is another. -/
theorem order_of_members_irrelevant {L : CryptoLib} (hL : L.Lawful) (hk : SameKeys L) {opts opts' : EncryptOptions} {draw draw' : Nat}
    {tape tape' : Tape} (hwf : opts.credential.WF) (hr : opts.credential.Reordered opts'.credential) (hdraw : draw < 1024)
    (hdraw' : draw' < 1024) {hdr hdr' : Bytes} {codec codec' : Codec} {chunkSize chunkSize' : Nat}
    (henc : encryptHeader L opts draw tape = .ok (hdr, codec, chunkSize)) (hlen : hdr.length < 2 ^ 64)
    (henc' : encryptHeader L opts' draw' tape' = .ok (hdr', codec', chunkSize')) (hlen' : hdr'.length < 2 ^ 64)
    {S S' : List Credential} (hS : ∀ c ∈ S, Usable c) (hSS : ∀ c, c ∈ S ↔ c ∈ S')
    (hw : HeaderDetectsWrongCredentials codec.crypto hdr opts.credential S)
    (hw' : HeaderDetectsWrongCredentials codec'.crypto hdr' opts'.credential S') :
    (decryptHeader L hdr S = .ok ({ codec with isEncrypting := false }, chunkSize) ∧
      decryptHeader L hdr' S' = .ok ({ codec' with isEncrypting := false }, chunkSize')) ∨
    (decryptHeader L hdr S = .err .insufficientCredentials ∧ decryptHeader L hdr' S' = .err .insufficientCredentials) := by
  obtain ⟨alg, ha⟩ := instantiated_of_encrypt henc
  obtain ⟨alg', ha'⟩ := instantiated_of_encrypt henc'
  have hheld : heldBy codec.crypto S = heldBy codec'.crypto S' := by
    funext leaf
    unfold heldBy
    congr 1
    apply propext
    have ho : ∀ c, Opens codec.crypto c leaf ↔ Opens codec'.crypto c leaf := by
      intro c
      cases leaf <;> simp only [Opens, hk _ _ _ _ ha ha']
    exact exists_congr (fun c => and_congr (hSS c) (ho c))
  rw [header_opens_iff_satisfied hL hwf hdraw henc hlen hS hw,
    header_opens_iff_satisfied hL (hr.wf.mp hwf) hdraw' henc' hlen' (fun c hc => hS c ((hSS c).mpr hc)) hw',
    hr.satisfied, hheld]
  split
  · exact .inl ⟨rfl, rfl⟩
  · exact .inr ⟨rfl, rfl⟩

/-- C125: keys from files and thresholds can be given in any order on the command line: the credential is the same up to the order
of its members. -/
theorem keys_in_any_order (env : Env) (tokens tokens' : List Token) (dir : CryptDirection) (skip : Bool) (t t' : Term)
    (c : ComplexCredential) (hm : ∀ x ∈ tokens, x.Movable) (hp : tokens.Perm tokens')
    (h : parseComplexCredential env tokens dir skip t = (.ok c, t')) :
    ∃ c', parseComplexCredential env tokens' dir skip t = (.ok c', t') ∧ c.Reordered c' := by
  obtain ⟨⟨ms, thr, hb, hc⟩, hd⟩ := (credentials_follow_grammar env tokens dir skip t t' c).mp h
  obtain ⟨ms', hperm, hb'⟩ := body_movable_perm hp hm hb
  refine ⟨⟨ms', c.numShares, c.threshold⟩, (credentials_follow_grammar _ _ _ _ _ _ _).mpr
    ⟨⟨ms', thr, hb', closed_perm hperm hc⟩, fun he x hx => hd he x (hp.mem_iff.mpr hx)⟩, ?_, rfl, rfl⟩
  rw [hc.subCreds]
  exact .of_perm hperm

/-- `-t 2` and two password files. -/
def movedTokens : List Token := [.keyThreshold 2, .passwordFile "two".toList, .passwordFile "one".toList]

example : ∃ c c' t', parseComplexCredential credFiles movedTokens .encrypt false noTerm = (.ok c, t') ∧
    parseComplexCredential credFiles movedTokens.reverse .encrypt false noTerm = (.ok c', t') ∧ c.Reordered c' := by
  have h : isCred 3 2 3 (parseComplexCredential credFiles movedTokens .encrypt false noTerm) = true := by decide +kernel
  cases hr : parseComplexCredential credFiles movedTokens .encrypt false noTerm with
  | mk r t' =>
    rw [hr] at h
    cases r with
    | err e => cases h
    | panic => cases h
    | ok c =>
      obtain ⟨c', h1, h2⟩ := keys_in_any_order credFiles movedTokens movedTokens.reverse .encrypt false noTerm t' c
        (by simp [movedTokens, Token.Movable]) (List.reverse_perm _).symm hr
      exact ⟨c, c', t', rfl, h1, h2⟩

namespace Sample

/-- As `cred`, with the inner group first and turned around. -/
def turned : ComplexCredential where
  subCreds := [(1, .complex [(1, .password [99, 100]), (1, .symmetricKey [9])] 2 1), (1, .password [97, 98]), (1, .publicKey bob.1)]
  numShares := 3
  threshold := 2

theorem turned_reordered : cred.Reordered turned := by
  refine ⟨?_, rfl, rfl⟩
  refine .trans _ _ _ (.of_perm (b := [(1, .complex [(1, .symmetricKey [9]), (1, .password [99, 100])] 2 1), (1, .password [97, 98]),
    (1, .publicKey bob.1)]) ?_) (.cons _ _ _ _ _ (.group _ _ _ _ (.swap _ _ _)) (.of_perm (.refl _)))
  exact List.perm_append_comm (l₁ := [(1, Credential.password [97, 98]), (1, Credential.publicKey bob.1)])

def turnedEnc : Res (Bytes × Codec × Nat) := encryptHeader Toy.lib ⟨turned, true⟩ 7 (fun i => tape (i + 3))

def turnedHdr : Bytes := match turnedEnc with | .ok (h, _) => h | _ => []
def turnedCodec : Codec := match turnedEnc with | .ok (_, c, _) => c | _ => ⟨Toy.crypto, [], [], true⟩
def turnedChunkSize : Nat := match turnedEnc with | .ok (_, _, n) => n | _ => 0

theorem turned_ok : encryptHeader Toy.lib ⟨turned, true⟩ 7 (fun i => tape (i + 3)) = .ok (turnedHdr, turnedCodec, turnedChunkSize) := by
  have h : turnedEnc.isOk = true := by decide +kernel
  unfold turnedHdr turnedCodec turnedChunkSize
  change turnedEnc = _
  match henc : turnedEnc with
  | .ok (h, c, n) => rfl
  | .err e => rw [henc] at h; simp [Res.isOk] at h
  | .panic => rw [henc] at h; simp [Res.isOk] at h

theorem turned_crypto : turnedCodec.crypto = Toy.crypto := by
  obtain ⟨alg, h⟩ := instantiated_of_encrypt turned_ok
  cases h
  rfl

example : (decryptHeader Toy.lib turnedHdr [.password [99, 100], .privateKey bob.2]).isOk = true := by
  have h := order_of_members_irrelevant Toy.lib_lawful (fun _ _ _ _ h h' => by cases h; cases h'; rfl) cred_wf turned_reordered
    (by omega) (by omega) enc_ok (by have := hdr_length; omega) turned_ok (by decide +kernel)
    (S := [.privateKey bob.2, .password [99, 100]]) (S' := [.password [99, 100], .privateKey bob.2])
    (by simp [Usable]) (by simp [or_comm])
    (by rw [sample_crypto]; exact toyDetects_detects (by decide +kernel))
    (by rw [turned_crypto]; exact toyDetects_detects (by decide +kernel))
  rcases h with ⟨-, h⟩ | ⟨h, -⟩
  · rw [h]; rfl
  · have : (decryptHeader Toy.lib hdr [.privateKey bob.2, .password [99, 100]]).isOk = true := by decide +kernel
    rw [h] at this
    cases this

end Sample

end Rypt.Props
