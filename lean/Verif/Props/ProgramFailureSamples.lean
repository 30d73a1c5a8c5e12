import Verif.Props.ProgramFailures
import Verif.Props.ProgramSamples

/-! Cases that meet the hypotheses of the theorems about failures of the whole program (C89 to C92). -/

namespace Rypt.Props.ProgramSample

open Getopts Cli UI Filesystem CryptStreams HeaderCrypto Program

/-- The password that is entered in `decStart`. -/
def pw : Credential := .password (Spec.utf8 "pw".toList)

theorem decAsked {F : Bytes} {t : Term} {S : List Credential} (h : Asked (decStart F) decOccs t (.decrypt S)) : S = [pw] :=
  asked_decrypt_single (typed := []) (TypedTokens.skip _ _ _ rfl .nil) (if_pos rfl) h (fun _ _ _ _ hp =>
    provides_entered (pre := []) (l := pwOnce) (rest := []) hp (by intro w hw; cases hw) (by decide) .nil
      (show Spec.LineOf _ _ from .lf "pw".toList (by decide) (by decide)) (by simp [decStart, start, Start.ui]))

theorem decOnly (F : Bytes) : OnlyOutput (decStart F) .decrypt decOccs ["f.rypt".toList] "f.rypt".toList "f".toList := by
  refine ⟨_, .inl ⟨by simp [Given, decOccs], rfl⟩, decName false, fun a' ha' _ _ _ => ?_⟩
  rw [List.mem_singleton.mp ha']

/-- `rypt -d f.rypt` is accepted. -/
theorem decParse (F : Bytes) : ∃ policy ui, (decStart F).parse =
    (.ok (.cryptStreams [⟨.file "f.rypt".toList, some (.file "f".toList)⟩] policy false (.decrypt [pw])), ui) := by
  have hp := decProper F
  obtain ⟨ht, hl, hs, hsome, hdash⟩ := hp.files
  obtain ⟨streams, policy, v, hv, -, hacc⟩ := conversion_accepted (decStart F).env (decStart F).args (decStart F).ttys (decStart F).ui
    decOccs _ ht hp.duplicates hp.verbosity (by rintro ⟨h0, -⟩; cases h0) .decrypt hl (fun h => absurd h hs) (fun _ _ => hp.noDash)
    (fun _ => ⟨(fun h => by cases h), fun _ h => by rcases h with h | h; exacts [absurd h hsome, absurd h hdash]⟩)
    hp.policy [] (TypedTokens.skip _ _ _ rfl .nil) hp.separate false (by simpa using hp.force)
  obtain ⟨t', -, hprov⟩ := typed_password_provided (decStart F).env false .decrypt { (decStart F).ui.term with verbosity := v } "pw".toList []
    pwOnce [] ⟨rfl, rfl, rfl, by rcases hv.2 (by decide) with h | h <;> simp [h]⟩ (by intro w hw; cases hw) .nil (by decide)
    (show Spec.LineOf _ _ from .lf "pw".toList (by decide) (by decide)) (by simp [decStart, start, Start.ui])
  obtain ⟨ui', hpar, -⟩ := hacc rfl [pw] t' (.cons _ _ _ _ _ _ [] hprov (.nil _)) (by simp)
  rcases streams_selected _ _ _ _ _ _ _ ht _ _ _ _ hpar with ⟨h1 | h1 | h1, -⟩ | ⟨-, -, -, ext, he1, he2, hall⟩
  · exact absurd h1 hs
  · exact absurd h1 hsome
  · exact absurd h1 hdash
  obtain rfl := suffix_default (by simp [Given, decOccs]) he1
  cases hall with
  | cons h1 h2 =>
    cases h2
    rename_i s
    obtain ⟨hi, o, ho, hso⟩ := h1
    obtain rfl := output_name_unique _ _ _ _ _ _ ho (decName false)
    obtain ⟨i, o⟩ := s
    simp only at hi hso
    subst hi hso
    exact ⟨policy, ui', hpar⟩

/-- A run in which the conversion fails: the output is there for some time, and afterwards it is gone. -/
theorem decFails {F : Bytes} {e : Err} {flt : Bool} (h : CryptFile.Conversion Toy.lib F (.decrypt [pw]) ⟨[], some (.err e), flt⟩) :
    (∃ m, Reaches (decStart F) m ∧ m.fs.holds "f".toList [] ∧ m.exit = none) ∧
      ∃ m, Reaches (decStart F) m ∧ m.fs.entry 0 = none ∧ m.exit = some 1 := by
  obtain ⟨policy, ui, hp⟩ := decParse F
  generalize hcfg : (decStart F).config [⟨.file "f.rypt".toList, some (.file "f".toList)⟩] policy false (.decrypt [pw]) ui = cfg
  have r0 : Run cfg (State.start cfg (decStart F).fs) [] _ := .refl
  subst hcfg
  have r1 := Run.step _ _ _ _ r0 (.openInput _ _ _ _ (.file 1) (some F.length) rfl rfl rfl rfl)
  have r2 := Run.step _ _ _ _ r1 (.openOutput _ _ _ _ _ _ (.decrypt [pw]) F rfl rfl rfl (by rintro _ ⟨⟩ _; rfl) (by rintro ⟨⟩))
  refine ⟨⟨_, .crypt _ _ _ _ _ _ _ hp r2, ⟨_, rfl, rfl⟩, rfl⟩, ?_⟩
  have r3 := Run.step _ _ _ _ r2 (.failure _ _ _ _ _ _ _ [] e flt rfl (List.prefix_refl _) h)
  have r4 := Run.step _ _ _ _ r3 (.failedDelete _ _ _ _ rfl rfl)
  have r5 := Run.step _ _ _ _ r4 (.endOfFile _ rfl)
  have r6 := Run.step _ _ _ _ r5 (.noCleanups _ rfl rfl rfl)
  exact ⟨_, .crypt _ _ _ _ _ _ _ hp r6, rfl, rfl⟩

/-! ### C90: the password is not among the credentials of the file, which need two shares of three (see `Sample.cred`) -/

def foreign : Bytes := Spec.file Sample.codec.crypto Sample.codec.payloadKey Sample.hdr Sample.chunkSize [1, 2, 3]

theorem foreign_encrypted : Encrypted Toy.lib Sample.opts [1, 2, 3] foreign Sample.hdr Sample.codec Sample.chunkSize :=
  ⟨5, Sample.tape, by omega, Sample.enc_ok, rfl, Sample.max_ok⟩

theorem foreign_detects : HeaderDetectsWrongCredentials Sample.codec.crypto Sample.hdr Sample.opts.credential [pw] := by
  rw [sample_crypto]; exact toyDetects_detects (by decide +kernel)

theorem foreign_fails : decryptHeader Toy.lib Sample.hdr [pw] = .err .insufficientCredentials ∧
    Sample.opts.credential.satisfied (heldBy Sample.codec.crypto [pw]) = false := by
  have h := header_opens_iff_satisfied Toy.lib_lawful Sample.cred_wf (by omega) Sample.enc_ok (by have := Sample.hdr_length; omega)
    (by simp [pw, Usable]) foreign_detects
  have h2 : (decryptHeader Toy.lib Sample.hdr [pw]).isOk = false := by decide +kernel
  by_cases hc : Sample.opts.credential.satisfied (heldBy Sample.codec.crypto [pw]) = true
  · rw [h, if_pos hc] at h2; cases h2
  · rw [if_neg hc] at h
    exact ⟨h, by simpa using hc⟩

example (m : Moment) (h : Reaches (decStart foreign) m) : m.exit ≠ some 0 ∧ m.fs.holds "f.rypt".toList foreign ∧
    ∀ w, m.fs.holds "f".toList w → w = [] := by
  obtain ⟨h1, h2, h3⟩ := wrong_credentials (decStart foreign) Toy.lib_lawful (fs_wf _ _ _ _) decOccs _ (decConverts _)
    (by simp [Given, decOccs]) (decNoChain _) m h "f.rypt".toList (by simp) Sample.opts Sample.cred_wf [1, 2, 3] foreign _ _ _
    foreign_encrypted ⟨1, rfl, rfl⟩ (fun t S hs => by rw [decAsked hs]; exact ⟨foreign_detects, foreign_fails.2⟩)
  exact ⟨h1, h2, fun w hw => h3 _ w (decOnly _) rfl hw⟩

/-- Such a run, from which it can be seen that the output is there for some time. -/
example : (∃ m, Reaches (decStart foreign) m ∧ m.fs.holds "f".toList [] ∧ m.exit = none) ∧
    ∃ m, Reaches (decStart foreign) m ∧ m.fs.entry 0 = none ∧ m.exit = some 1 := by
  obtain ⟨n, r, hread, -⟩ := read_frame
    (Spec.payload Sample.codec.crypto Sample.codec.payloadKey (Sample.codec.crypto.hash Sample.hdr) Sample.chunkSize [1, 2, 3])
    (header_nonempty Toy.lib_lawful Sample.enc_ok) Sample.max_ok
  exact decFails (.decryptHeaderErr [pw] Sample.hdr n r _ hread foreign_fails.1)

/-! ### C91: the file was encrypted for this password, but a byte of its payload has changed -/

def ownOpts (fast : Bool) : EncryptOptions := ⟨⟨[(1, pw)], 1, 1⟩, fast⟩

def own (fast : Bool) : Res (Bytes × Codec × Nat) := encryptHeader Toy.lib (ownOpts fast) 5 Sample.tape

def ownHdr (fast : Bool) : Bytes := match own fast with | .ok (h, _) => h | _ => []
def ownCodec (fast : Bool) : Codec := match own fast with | .ok (_, c, _) => c | _ => ⟨Toy.crypto, [], [], true⟩
def ownSize (fast : Bool) : Nat := match own fast with | .ok (_, _, n) => n | _ => 0

theorem own_isOk : ∀ fast, (own fast).isOk = true ∧ (ownHdr fast).length < 2 ^ 16 := by decide +kernel

theorem own_ok (fast : Bool) : encryptHeader Toy.lib (ownOpts fast) 5 Sample.tape = .ok (ownHdr fast, ownCodec fast, ownSize fast) := by
  have h := (own_isOk fast).1
  unfold ownHdr ownCodec ownSize
  change own fast = _
  match henc : own fast with
  | .ok (h, c, n) => rfl
  | .err e => rw [henc] at h; simp [Res.isOk] at h
  | .panic => rw [henc] at h; simp [Res.isOk] at h

theorem own_wf (fast : Bool) : (ownOpts fast).credential.WF := by
  simp [ownOpts, pw, ComplexCredential.WF, Credential.WF, MembersWF, Rypt.totalShares]

theorem own_max (fast : Bool) : (ownHdr fast).length ≤ Spec.maxHeader := by
  have := (own_isOk fast).2; unfold Spec.maxHeader; omega

def ownFile (fast : Bool) : Bytes := Spec.file (ownCodec fast).crypto (ownCodec fast).payloadKey (ownHdr fast) (ownSize fast) [1, 2, 3]

theorem own_encrypted (fast : Bool) :
    Encrypted Toy.lib (ownOpts fast) [1, 2, 3] (ownFile fast) (ownHdr fast) (ownCodec fast) (ownSize fast) :=
  ⟨5, Sample.tape, by omega, own_ok fast, rfl, own_max fast⟩

theorem own_crypto (fast : Bool) : (ownCodec fast).crypto = Toy.crypto := by
  obtain ⟨C, ck, st', h1, -, -, -, -, h2⟩ := encryptHeader_ok (own_ok fast)
  rw [h2]
  have h : cryptosysFromProto Toy.lib (cryptoFamilyFromOpts (ownOpts fast)) = .ok Toy.crypto := by cases fast <;> rfl
  rw [h] at h1
  injection h1 with h1
  exact h1.symm

theorem own_opens (fast : Bool) :
    decryptHeader Toy.lib (ownHdr fast) [pw] = .ok ({ ownCodec fast with isEncrypting := false }, ownSize fast) := by
  obtain ⟨-, hd, hs⟩ := single_opens (C := (ownCodec fast).crypto) (k := pw) (k' := pw) rfl (ownHdr fast)
  have h := header_opens_iff_satisfied Toy.lib_lawful (own_wf fast) (by omega) (own_ok fast)
    (by have := (own_isOk fast).2; omega) (S := [pw]) (by simp [pw, Usable]) hd
  change _ = if ComplexCredential.satisfied _ ⟨[(1, pw)], 1, 1⟩ = true then _ else _ at h
  rwa [if_pos hs] at h

/-- The payload with another first byte. -/
def changedBody : Bytes :=
  9 :: (Spec.payload (ownCodec false).crypto (ownCodec false).payloadKey ((ownCodec false).crypto.hash (ownHdr false)) (ownSize false)
    [1, 2, 3]).tail

def changed : Bytes := Spec.frame (ownHdr false) ++ changedBody

theorem changed_facts : changedBody.length = 19 ∧ changed ≠ ownFile false ∧ changed.length < 2 ^ 17 ∧
    (∀ c ∈ Spec.chunks (ownSize false + 16) changedBody, (ownCodec false).crypto.aeadDecrypt (ownCodec false).payloadKey
      (Spec.boxOf ((ownCodec false).crypto.hash (ownHdr false)) c).nonce
      (Spec.boxOf ((ownCodec false).crypto.hash (ownHdr false)) c).ad
      (Spec.boxOf ((ownCodec false).crypto.hash (ownHdr false)) c).ct
      (Spec.boxOf ((ownCodec false).crypto.hash (ownHdr false)) c).mac = none) := by
  decide +kernel

/-- It does not pass for an encrypted file: its header is that of the original, and no box in it is accepted. -/
theorem changed_rejected (ph : Bytes) :
    ¬ Passes Toy.lib [pw] [1, 2, 3] changed (ownHdr false) (ownCodec false) (ownSize false) ph := by
  obtain ⟨-, -, hl, hno⟩ := changed_facts
  rintro ⟨hdr', body, codec', cs', hF, hopen, h⟩
  have hpos : 0 < hdr'.length := by
    cases hdr' with
    | nil =>
      have h0 : (decryptHeader Toy.lib [] [pw]).isOk = false := by decide +kernel
      rw [hopen] at h0; cases h0
    | cons => simp
  have hmax : hdr'.length ≤ Spec.maxHeader := by
    rw [hF, List.length_append, frame_length] at hl
    unfold Spec.maxHeader; omega
  obtain ⟨n, r, h1, hr⟩ := read_frame body hpos hmax
  obtain ⟨n', r', h2, hr'⟩ := read_frame changedBody (header_nonempty Toy.lib_lawful (own_ok false)) (own_max false)
  rw [← hF] at h1
  cases h1.symm.trans h2
  rw [hr] at hr'
  subst hr'
  rw [own_opens false] at hopen
  cases hopen
  rcases h with h | ⟨c, hc, -, ⟨m, hm⟩, -⟩ | ⟨h, -⟩
  · exact h rfl
  · have := hno c hc
    rw [this] at hm; cases hm
  · exact h rfl

example (m : Moment) (h : Reaches (decStart changed) m) : m.exit ≠ some 0 ∧ m.fs.holds "f.rypt".toList changed ∧
    ∀ w, m.fs.holds "f".toList w → w <+: [1, 2, 3] := by
  obtain ⟨-, hne, hl, -⟩ := changed_facts
  obtain ⟨h1, h2, h3⟩ := changed_file (decStart changed) Toy.lib_lawful (fs_wf _ _ _ _) decOccs _ (decConverts _)
    (by simp [Given, decOccs]) (decNoChain _) m h "f.rypt".toList (by simp) (ownOpts false) [1, 2, 3] (ownFile false) _ _ _ []
    (own_encrypted false) (by simp) changed hne (by omega) ⟨1, rfl, rfl⟩ (fun t S hs => by rw [decAsked hs]; exact changed_rejected [])
  exact ⟨h1, h2, fun w hw => h3 _ w (decOnly _) rfl hw⟩

/-- Such a run. -/
example : ∃ m, Reaches (decStart changed) m ∧ m.fs.entry 0 = none ∧ m.exit = some 1 := by
  have h := decryption_can_finish (body := changedBody) Toy.lib_lawful (header_nonempty Toy.lib_lawful (own_ok false)) (own_max false)
    (own_opens false)
  have hs : Spec.convertStream (StreamCrypto.convertChunk { ownCodec false with isEncrypting := false }) (ownSize false + 16) changedBody =
      ([], .err .invalidCiphertext) := by decide +kernel
  rw [hs] at h
  exact (decFails h).2

/-- The unchanged file (`intact_file`). -/
example (m : Moment) (h : Reaches (decStart (ownFile false)) m) (w : Bytes) (hw : m.fs.holds "f".toList w) : w <+: [1, 2, 3] :=
  intact_file (decStart (ownFile false)) Toy.lib_lawful (fs_wf _ _ _ _) decOccs _ (decConverts _) (by simp [Given, decOccs])
    (decNoChain _) m h "f.rypt".toList (ownOpts false) (own_wf false) [1, 2, 3] (ownFile false) _ _ _ (own_encrypted false) ⟨1, rfl, rfl⟩
    (fun t S hs => by
      rw [decAsked hs]
      exact (single_opens (C := (ownCodec false).crypto) (k := pw) (k' := pw) rfl (ownHdr false)).2) _ w (decOnly _) rfl hw

/-! ### C92: a library without AES -/

def noAes : CryptoLib := ⟨fun | .aes256Gcm => .err .cryptoInit | _ => .ok Toy.crypto⟩

theorem noAes_lawful : noAes.Lawful := by
  intro alg C h
  cases alg <;> cases h
  exact Toy.lawful

/-- `rypt -d f.rypt` with a file from a machine with AES. -/
example (m : Moment) (h : Reaches { decStart (ownFile true) with lib := noAes } m) :
    m.exit ≠ some 0 ∧ m.fs.holds "f.rypt".toList (ownFile true) ∧ ∀ w, m.fs.holds "f".toList w → w = [] := by
  obtain ⟨h1, h2, h3⟩ := fast_file_unsupported { decStart (ownFile true) with lib := noAes } noAes_lawful (fs_wf _ _ _ _) decOccs _
    ⟨(decConverts []).typed, (decConverts []).mode, (decConverts []).stream, (decConverts []).some, (decConverts []).dash⟩
    (by simp [Given, decOccs]) (decNoChain []) m h "f.rypt".toList (by simp) Toy.lib Toy.lib_lawful (ownOpts true)
    (own_wf true) [1, 2, 3] (ownFile true) _ _ _ (own_encrypted true) ⟨1, rfl, rfl⟩ rfl (fun C h => by cases h)
  exact ⟨h1, h2, fun w hw => h3 _ w (decOnly _) rfl hw⟩

def fastArgs : List Arg := ["--fast".toList, "f".toList]

def fastOccs : List Occ := [⟨.fast, 0, none⟩]

def fastStart : Start := { start fastArgs pwTwice (fs (some [1, 2, 3]) none none none) with lib := noAes }

theorem fastTyped : Typed 0 fastStart.args fastOccs encArgs ∧ NoDuplicates fastOccs := by
  have h : parse fastArgs = .ok ⟨fastOccs, encArgs⟩ := by decide +kernel
  exact (Getopts.parse_iff _ _).mp h

/-- `rypt --fast f` -/
example (m : Moment) (h : Reaches fastStart m) : m.exit ≠ some 0 ∧ m.fs.holds "f".toList [1, 2, 3] ∧
    ∀ w, m.fs.holds "f.rypt".toList w → w = [] := by
  obtain ⟨h1, h2, h3⟩ := fast_unsupported fastStart noAes_lawful (fs_wf _ _ _ _) fastOccs encArgs
    ⟨fastTyped.1, .inl ⟨by simp [fastOccs, modeOf], rfl⟩, by simp [Given, fastOccs], by decide, by decide⟩ (by simp [Given, fastOccs])
    (by
      intro a ha a' ha' force ext q he ho
      exact encNoChain a ha a' ha' force ext q (.inl ⟨by simp [Given], suffix_default (by simp [Given, fastOccs]) he⟩) ho)
    m h ⟨⟨.fast, 0, none⟩, by simp [fastOccs], rfl⟩ (fun C h => by cases h)
  exact ⟨h1 "f".toList (by simp [encArgs]) [1, 2, 3] ⟨0, rfl, rfl⟩, h2 "f".toList [1, 2, 3] ⟨0, rfl, rfl⟩, fun w hw => h3 _ w rfl hw⟩

end Rypt.Props.ProgramSample
