import Verif.Props.ProgramKeys
import Verif.Proofs.CanSucceed
import Verif.Proofs.HeaderCan

/-! Properties C87, C88: what can be encrypted to, and conversions with nothing in their way. -/

namespace Rypt.Props

open Getopts Cli UI Filesystem CryptStreams HeaderCrypto Program

/-! ## C88 -/

/-- C88: a header can be made exactly if the library has the algorithm and the credential can be encrypted to: every group can be
split, and every public key is accepted with the ephemeral key (made from bytes 32 to 63 of the random tape). -/
theorem header_possible_iff (L : CryptoLib) (hL : ∀ alg, L.instantiate alg ≠ .panic) (opts : EncryptOptions)
    (hw : opts.credential.WF) (draw : Nat) (hdraw : draw < 1024) (tape : Tape) :
    ((∃ hdr codec cs, encryptHeader L opts draw tape = .ok (hdr, codec, cs)) ↔
      ∃ C, L.instantiate (if opts.fastAead then .aes256Gcm else .chaCha20Poly1305Ietf) = .ok C ∧
        (Credential.complex opts.credential.subCreds opts.credential.numShares opts.credential.threshold).Encryptable
          (fun pk => C.boxBeforenm pk (C.keypair ((List.range 32).map fun i => tape (32 + i))).2 ≠ none) 32) ∧
      encryptHeader L opts draw tape ≠ .panic := by
  refine ⟨?_, encryptHeader_no_panic hL hw draw tape⟩
  have hfam : cryptosysFromProto L (cryptoFamilyFromOpts opts) =
      L.instantiate (if opts.fastAead then .aes256Gcm else .chaCha20Poly1305Ietf) := by
    unfold cryptosysFromProto cryptoFamilyFromOpts
    cases opts.fastAead <;> rfl
  constructor
  · rintro ⟨hdr, codec, cs, h⟩
    obtain ⟨C, -, -, h1, -⟩ := encryptHeader_ok h
    exact ⟨C, hfam ▸ h1, (encryptHeader_iff hw hdraw h1).mp ⟨_, h⟩⟩
  · rintro ⟨C, hC, he⟩
    obtain ⟨⟨hdr, codec, cs⟩, h⟩ := (encryptHeader_iff (tape := tape) hw hdraw (hfam.trans hC)).mpr he
    exact ⟨hdr, codec, cs, h⟩

/-- C88: a header is at most 280 bytes longer than what its credentials take. -/
theorem header_size_bound (L : CryptoLib) (hL : L.Lawful) (opts : EncryptOptions) (hw : opts.credential.WF) (draw : Nat) (tape : Tape)
    (hdr : Bytes) (codec : Codec) (cs : Nat) (h : encryptHeader L opts draw tape = .ok (hdr, codec, cs)) :
    hdr.length ≤ 280 + membersCost opts.credential.subCreds 32 := encryptHeader_size hL hw h

/-- C88: any content can be encrypted to any credential that can be encrypted to and does not take too much room in the header,
whatever the random choices. -/
theorem encryption_possible (L : CryptoLib) (hL : L.Lawful) (opts : EncryptOptions) (hw : opts.credential.WF) (C : Crypto)
    (hC : L.instantiate (if opts.fastAead then .aes256Gcm else .chaCha20Poly1305Ietf) = .ok C)
    (he : ∀ seed, (Credential.complex opts.credential.subCreds opts.credential.numShares opts.credential.threshold).Encryptable
      (fun pk => C.boxBeforenm pk (C.keypair seed).2 ≠ none) 32)
    (hsize : 280 + membersCost opts.credential.subCreds 32 ≤ 2 ^ 24) (plain : Bytes) (draw : Nat) (hdraw : draw < 1024) (tape : Tape) :
    ∃ F, CryptFile.Conversion L plain (.encrypt opts draw tape) ⟨F, some (.ok ()), false⟩ := by
  have hfam : cryptosysFromProto L (cryptoFamilyFromOpts opts) =
      L.instantiate (if opts.fastAead then .aes256Gcm else .chaCha20Poly1305Ietf) := by
    unfold cryptosysFromProto cryptoFamilyFromOpts
    cases opts.fastAead <;> rfl
  obtain ⟨⟨hdr, codec, cs⟩, h⟩ := (encryptHeader_iff (tape := tape) hw hdraw (hfam.trans hC)).mpr (he _)
  have := encryptHeader_size hL hw h
  exact ⟨_, encryption_can_finish hL hdraw h (by unfold Spec.maxHeader; omega)⟩

/-! ## C87 -/

private theorem outputs_apart {fs : FS} {ext : Arg} {dir : CryptDirection} {free : List Arg} {streams : List Stream}
    (hall : List.Forall₂ (fun a s => s.input = .file a ∧ ∃ o, OutputName false ext a dir o ∧ s.output = o.map .file) free streams)
    (hdiff : free.Pairwise (fun a a' => ∀ q q', OutputName false ext a dir (some q) →
      OutputName false ext a' dir (some q') → fs.loc q ≠ fs.loc q')) :
    streams.Pairwise (fun s s' => ∀ q q', s.output = some (.file q) → s'.output = some (.file q') → fs.loc q ≠ fs.loc q') := by
  induction hall with
  | nil => exact .nil
  | cons h1 h2 ih =>
    rw [List.pairwise_cons] at hdiff ⊢
    refine ⟨fun s' hs' q q' hq hq' => ?_, ih hdiff.2⟩
    obtain ⟨a', ha', -, o', ho', hso'⟩ := forall₂_right h2 hs'
    obtain ⟨-, o, ho, hso⟩ := h1
    rw [hso] at hq
    rw [hso'] at hq'
    cases o with
    | none => cases hq
    | some q1 =>
      cases o' with
      | none => cases hq'
      | some q2 =>
        cases hq; cases hq'
        exact hdiff.1 a' ha' _ _ ho ho'

/-- A conversion that is accepted, with files that are ready and contents that can be converted. -/
private theorem run_succeeds {p : Start} (hwf : p.fs.WF) {dir : CryptDirection} {occs : List Occ} {free : List Arg}
    {tokens : List Token} (hp : Proper p dir occs free tokens) (hr : FilesReady p dir occs free) {streams : List Stream}
    {policy : CleanupPolicy} {d : DirectionOpts} {ui : Ui} (hd : d.dir = dir)
    (hpar : parseCommandLine p.env p.args p.ttys p.ui = (.ok (.cryptStreams streams policy false d), ui))
    (hconv : ∀ a ∈ free, ∀ b, p.fs.holds a b → ∃ dir' F flt, (dirOpts d).allows dir' ∧
      CryptFile.Conversion p.lib b dir' ⟨F, some (.ok ()), flt⟩) :
    ∃ m, Reaches p m ∧ m.exit = some 0 := by
  obtain ⟨ht, hl, hs, hsome, hdash⟩ := hp.files
  rcases streams_selected _ _ _ _ _ _ _ ht _ _ _ _ hpar with ⟨h1 | h1 | h1, -⟩ | ⟨-, -, -, ext, he1, he2, hall⟩
  · exact absurd h1 hs
  · exact absurd h1 hsome
  · exact absurd h1 hdash
  rw [hd] at hall
  have hready : Ready (p.config streams policy false d ui) p.fs streams := by
    constructor
    · intro s hsm
      obtain ⟨a, ha, hi, o, ho, hso⟩ := forall₂_right hall hsm
      obtain ⟨ino, hino, hn⟩ := hr.plain a ha
      obtain ⟨q, hq, hqe⟩ := hr.unused ext he1 a ha
      obtain rfl := output_name_unique _ _ _ _ _ _ ho hq
      obtain ⟨dir', F, flt, hal, hc⟩ := hconv a ha _ ⟨ino, hino, rfl⟩
      refine ⟨a, q, ino, ?_, hino, hn, hqe, dir', F, flt, hal, hc⟩
      cases s
      simp_all
    · exact outputs_apart (fs := p.fs) hall (hr.different ext he1)
  obtain ⟨ls, st, hrun, hpc⟩ := can_succeed (cfg := p.config streams policy false d ui) hwf rfl hready
  exact ⟨_, .crypt streams policy false d ui ls st hpar hrun, by rw [hpc]; rfl⟩

/-- C87: an encryption can succeed: nothing is wrong with the command line, the files are ready, and whatever the verbosity the
credentials asked for can be had and encrypted to. -/
theorem encryption_can_succeed (p : Start) (hL : p.lib.Lawful) (hwf : p.fs.WF) (occs : List Occ) (free : List Arg)
    (tokens : List Token) (hp : Proper p .encrypt occs free tokens) (hr : FilesReady p .encrypt occs free) (C : Crypto)
    (hC : ∀ alg, (alg = .aes256Gcm ↔ Given occs .fast) → p.lib.instantiate alg = .ok C)
    (hcred : ∀ v, (askedVerbosity occs ≠ 0 → v = askedVerbosity occs) → (askedVerbosity occs = 0 → v = 1 ∨ v = -1) →
      ∃ c t', Describes p.env .encrypt false tokens { p.ui.term with verbosity := v } c t' ∧ c.WF ∧
        280 + membersCost c.subCreds 32 ≤ 2 ^ 24 ∧
        ∀ seed, (Credential.complex c.subCreds c.numShares c.threshold).Encryptable
          (fun pk => C.boxBeforenm pk (C.keypair seed).2 ≠ none) 32) :
    ∃ m, Reaches p m ∧ m.exit = some 0 := by
  obtain ⟨typed, htt, htok⟩ := hp.tokens
  obtain ⟨ht, hl, hs, hsome, hdash⟩ := hp.files
  obtain ⟨streams, policy, v, hv, hacc, -⟩ := conversion_accepted p.env p.args p.ttys p.ui occs free ht hp.duplicates hp.verbosity
    (by rintro ⟨h0, -⟩; rw [h0] at ht; cases ht; exact hsome rfl) .encrypt hl (fun h => absurd h hs) (fun _ _ => hp.noDash)
    (fun _ => ⟨fun _ h => by rcases h with h | h | h; exacts [absurd h hs, absurd h hsome, absurd h hdash],
      fun h => by cases h⟩) hp.policy typed htt hp.separate false (by simpa using hp.force)
  obtain ⟨c, t', hdesc, hw, hsize, he⟩ := hcred v hv.1 hv.2
  rw [htok] at hdesc
  obtain ⟨fast, ui', hpar, -⟩ := hacc rfl c t' hdesc
  have hfast := (flags_reach_command _ _ _ _ _ _ _ ht _ _ _ _ hpar).2.2.2.2 c fast rfl
  refine run_succeeds hwf hp hr rfl hpar fun a _ b _ => ?_
  obtain ⟨F, hF⟩ := encryption_possible p.lib hL ⟨c, fast⟩ hw C (hC _ (by rw [← hfast]; cases fast <;> simp)) he hsize b 0
    (by omega) (fun _ => 0)
  exact ⟨.encrypt ⟨c, fast⟩ 0 (fun _ => 0), F, _, ⟨rfl, by omega⟩, hF⟩

/-- C87: a decryption can succeed: nothing is wrong with the command line, the files are ready, and whatever the verbosity the
credentials can be had and decrypt the files. -/
theorem decryption_can_succeed (p : Start) (hwf : p.fs.WF) (occs : List Occ) (free : List Arg)
    (tokens : List Token) (hp : Proper p .decrypt occs free tokens) (hr : FilesReady p .decrypt occs free)
    (hcred : ∀ v, (askedVerbosity occs ≠ 0 → v = askedVerbosity occs) → (askedVerbosity occs = 0 → v = 1 ∨ v = -1) →
      ∃ S t', ProvidesAll p.env .decrypt false tokens { p.ui.term with verbosity := v } S t' ∧ S.length < 2 ^ 64 ∧
        ∀ a ∈ free, ∀ b, p.fs.holds a b → ∃ F, DecryptionOf p.lib S b F) :
    ∃ m, Reaches p m ∧ m.exit = some 0 := by
  obtain ⟨typed, htt, htok⟩ := hp.tokens
  obtain ⟨ht, hl, hs, hsome, hdash⟩ := hp.files
  obtain ⟨streams, policy, v, hv, -, hacc⟩ := conversion_accepted p.env p.args p.ttys p.ui occs free ht hp.duplicates hp.verbosity
    (by rintro ⟨h0, -⟩; rw [h0] at ht; cases ht; exact hsome rfl) .decrypt hl (fun h => absurd h hs) (fun _ _ => hp.noDash)
    (fun _ => ⟨(fun h => by cases h), fun _ h => by rcases h with h | h; exacts [absurd h hsome, absurd h hdash]⟩)
    hp.policy typed htt hp.separate false (by simpa using hp.force)
  obtain ⟨S, t', hprov, hlen, hdec⟩ := hcred v hv.1 hv.2
  rw [htok] at hprov
  obtain ⟨ui', hpar, -⟩ := hacc rfl S t' hprov hlen
  refine run_succeeds hwf hp hr rfl hpar fun a ha b hb => ?_
  obtain ⟨F, flt, hF⟩ := hdec a ha b hb
  exact ⟨.decrypt S, F, flt, rfl, hF⟩

/-- C87: a conversion to standard output whose command line is accepted can succeed with any possible result of its input: standard
input after what was typed to prompts, or the file named. -/
theorem accepted_stream_can_succeed (p : Start) (occs : List Occ) (free : List Arg) (ht : Typed 0 p.args occs free)
    (hs : Given occs .stream ∨ free = [] ∨ free = [['-']]) (streams : List Stream) (policy : CleanupPolicy) (force : Bool)
    (d : DirectionOpts) (ui : Ui) (hpar : p.parse = (.ok (.cryptStreams streams policy force d), ui)) (b : Bytes)
    (hin : free = [] ∨ free = [['-']] → ui.term.stdin = b.map .byte) (hfile : ∀ a, free = [a] → a ≠ ['-'] → p.fs.holds a b)
    (dir : CryptFile.Direction) (F : Bytes) (flt : Bool) (hal : (dirOpts d).allows dir)
    (hconv : CryptFile.Conversion p.lib b dir ⟨F, some (.ok ()), flt⟩) : Reaches p ⟨p.fs, F, some 0, none⟩ := by
  rcases streams_selected _ _ _ _ _ _ _ ht _ _ _ _ hpar with ⟨-, s, rfl, hso, hsi⟩ | ⟨h1, h2, h3, -⟩
  swap
  · exfalso
    rcases hs with h | h | h
    · exact h1 h
    · exact h2 h
    · exact h3 ['-'] (by simp [h]) (Text.trim_iff.mp (by decide +kernel))
  let cfg := p.config [s] policy force d ui
  obtain ⟨hd, size, hopen, hread⟩ : ∃ hd size, openInput p.fs force s.input = .ok hd size ∧ ∀ ino, hd = .file ino → b = p.fs.content ino := by
    rcases hsi with ⟨h, -⟩ | ⟨q, h, hq, hne⟩
    · exact ⟨.other, none, by rw [h]; rfl, fun ino h => by cases h⟩
    · obtain ⟨ino, he, hb⟩ := hfile q hq hne
      have hfol : p.fs.follow 40 (p.fs.loc q) = some (p.fs.loc q) := by rw [FS.follow, he]
      refine ⟨.file ino, _, by
        rw [h]
        simp only [openInput, FS.openRead, hfol, he, FS.symlinkMetadata, checkNotDir]
        rfl, fun i h => by cases h; exact hb.symm⟩
  have hstdin : s.input = .stdin → cfg.stdin = b.map .byte := by
    intro h
    rcases hsi with ⟨-, h'⟩ | ⟨q, h', -⟩
    · exact hin h'
    · rw [h'] at h; cases h
  have r1 := Run.step _ _ _ _ (Run.refl (cfg := cfg) (st := State.start cfg p.fs)) (.openInput _ s [] .stdout hd size rfl rfl hso hopen)
  have r2 := Run.step _ _ _ _ r1 (.openOutput _ _ _ _ p.fs .stdout dir b rfl rfl hal (fun i h _ => hread i h) (fun h => .inl (hstdin h)))
  have r3 := Run.step _ _ _ _ r2 (.success _ _ _ _ _ _ _ F flt rfl List.nil_prefix hconv hstdin)
  have r4 := Run.step _ _ _ _ r3 (.endOfFile _ rfl)
  have hcl : inputCleanup s.input = none := by
    rcases hsi with ⟨h, -⟩ | ⟨q, h, -⟩ <;> rw [h] <;> rfl
  have r5 := Run.step _ _ _ _ r4 (.noCleanups _ rfl rfl (by simp [State.write, State.start, hcl]))
  have := Reaches.crypt (p := p) [s] policy force d ui _ _ hpar r5
  simpa [State.write, State.start, exitOf] using this

/-- C87: whoever enters a password at a terminal (twice, perhaps after failed attempts) can encrypt with it. -/
theorem password_encryption_can_succeed (p : Start) (hL : p.lib.Lawful) (hwf : p.fs.WF) (occs : List Occ) (free : List Arg)
    (hp : Proper p .encrypt occs free [.interactivePassword]) (hr : FilesReady p .encrypt occs free) (C : Crypto)
    (hC : ∀ alg, (alg = .aes256Gcm ↔ Given occs .fast) → p.lib.instantiate alg = .ok C)
    (htty : p.ttys.stdin = true ∧ p.ttys.stderr = true) (hq : -1 ≤ askedVerbosity occs) (hw : ∀ w ∈ p.writes, w = none)
    (pw : List Char) (hne : pw ≠ []) (pre l rest : List UI.Input) (hst : p.stdin = pre ++ l ++ rest)
    (hpre : Spec.Attempts .encrypt pre) (hl : Spec.Entered .encrypt pw l) : ∃ m, Reaches p m ∧ m.exit = some 0 := by
  refine encryption_can_succeed p hL hwf occs free _ hp hr C hC fun v hv1 hv2 => ?_
  obtain ⟨t', -, hprov⟩ := typed_password_provided p.env false .encrypt { p.ui.term with verbosity := v } pw pre l rest
    ⟨rfl, htty.1, htty.2, by
      by_cases h0 : askedVerbosity occs = 0
      · rcases hv2 h0 with h | h <;> simp [h]
      · simpa [hv1 h0] using hq⟩ hw hpre hne hl hst
  refine ⟨⟨[(1, .password (Spec.utf8 pw))], 1, 1⟩, t',
    ⟨_, _, .keys true [] 1 .interactivePassword [] _ _ _ _ _ _ .default trivial hprov (by simp) (.nil _ _), rfl, rfl, rfl,
      Nat.le_refl 1, Nat.le_refl 1⟩, ?_, ?_, fun seed => ?_⟩
  · simp [ComplexCredential.WF, Credential.WF, MembersWF, Rypt.totalShares]
  · simp [membersCost, Credential.cost]
  · simp [Credential.Encryptable, MembersEncryptable]

/-- C87: and whoever enters the same password again can decrypt what was encrypted. -/
theorem password_decryption_can_succeed (p : Start) (hL : p.lib.Lawful) (hwf : p.fs.WF) (occs : List Occ) (free : List Arg)
    (hp : Proper p .decrypt occs free [.interactivePassword]) (hr : FilesReady p .decrypt occs free)
    (htty : p.ttys.stdin = true ∧ p.ttys.stderr = true) (hq : -1 ≤ askedVerbosity occs) (hw : ∀ w ∈ p.writes, w = none)
    (pw : List Char) (hne : pw ≠ []) (pre l rest : List UI.Input) (hst : p.stdin = pre ++ l ++ rest)
    (hpre : Spec.Attempts .decrypt pre) (hl : Spec.Entered .decrypt pw l)
    (henc : ∀ a ∈ free, ∀ b, p.fs.holds a b → ∃ plain fast,
      EncryptionOf p.lib ⟨⟨[(1, .password (Spec.utf8 pw))], 1, 1⟩, fast⟩ plain b) : ∃ m, Reaches p m ∧ m.exit = some 0 := by
  refine decryption_can_succeed p hwf occs free _ hp hr fun v hv1 hv2 => ?_
  obtain ⟨t', -, hprov⟩ := typed_password_provided p.env false .decrypt { p.ui.term with verbosity := v } pw pre l rest
    ⟨rfl, htty.1, htty.2, by
      by_cases h0 : askedVerbosity occs = 0
      · rcases hv2 h0 with h | h <;> simp [h]
      · simpa [hv1 h0] using hq⟩ hw hpre hne hl hst
  refine ⟨[.password (Spec.utf8 pw)], t', .cons _ _ _ _ _ _ [] hprov (.nil _), by simp, fun a ha b hb => ?_⟩
  obtain ⟨plain, fast, draw, tape, hdr, codec, cs, hdraw, he, rfl, hmax⟩ := henc a ha b hb
  obtain ⟨h3, h4, h5⟩ := single_opens (C := codec.crypto) (k := .password (Spec.utf8 pw)) (k' := .password (Spec.utf8 pw)) rfl hdr
  exact ⟨plain, false, decrypt_encrypt_possible hL
    (by simp [ComplexCredential.WF, Credential.WF, MembersWF, Rypt.totalShares]) hdraw he
    (encryption_can_finish hL hdraw he hmax) (by simp [Usable]) h4 h5⟩

/-- C87: the files that key generation made can be used: with the public key files can be encrypted, with the private key they
can then be decrypted, if the library accepts its own key pairs. -/
theorem generated_keys_can_be_used (p : Start) (hL : p.lib.Lawful) (hsame : SameKeys p.lib) (hwf : p.fs.WF) (occs : List Occ)
    (free : List Arg) (ht : Typed 0 p.args occs free) (hl : LastMode occs .generateKeypair) (hf : ¬ Given occs .force) (m : Moment)
    (h : Reaches p m) (hx : m.exit = some 0) (key : Arg) (hkey : key ∈ free) (hd : key ≠ ['-'])
    (hpairs : ∀ alg C s s', p.lib.instantiate alg = .ok C → C.boxBeforenm (C.keypair s).1 (C.keypair s').2 ≠ none) :
    ∃ pub T T' pk, PairFor key ⟨some (.file pub), .file key⟩ ∧ m.fs.holds key T ∧ m.fs.holds pub T' ∧
      (∀ (p1 : Start) (occs1 : List Occ) (free1 : List Arg) (key1 : Arg) (C1 : Crypto),
        p1.lib = p.lib → p1.sha512 = p.sha512 → p1.fs.WF → Proper p1 .encrypt occs1 free1 [.publicKeyFile key1] →
        FilesReady p1 .encrypt occs1 free1 → (∀ alg, (alg = .aes256Gcm ↔ Given occs1 .fast) → p1.lib.instantiate alg = .ok C1) →
        p1.fs.holds key1 T' → p1.unreadable key1 = false → ∃ m1, Reaches p1 m1 ∧ m1.exit = some 0) ∧
      (∀ (p2 : Start) (occs2 : List Occ) (free2 : List Arg) (key2 : Arg),
        p2.lib = p.lib → p2.sha512 = p.sha512 → p2.fs.WF → Proper p2 .decrypt occs2 free2 [.privateKeyFile key2] →
        FilesReady p2 .decrypt occs2 free2 → p2.fs.holds key2 T → p2.unreadable key2 = false →
        (∀ a ∈ free2, ∀ b, p2.fs.holds a b → ∃ plain fast, EncryptionOf p.lib ⟨⟨[(1, .publicKey pk)], 1, 1⟩, fast⟩ plain b) →
        ∃ m2, Reaches p2 m2 ∧ m2.exit = some 0) := by
  obtain ⟨C, seed, pub, T, T', hC, hpf, hT, hT', hread⟩ := generated_keys_work p hL hwf occs free ht hl hf m h hx key hkey hd
  refine ⟨pub, T, T', (C.keypair seed).1, hpf, hT, hT', ?_, ?_⟩
  · intro p1 occs1 free1 key1 C1 hl1 hs1 hwf1 hp1 hr1 hC1 hh1 hu1
    refine encryption_can_succeed p1 (hl1 ▸ hL) hwf1 occs1 free1 _ hp1 hr1 C1 hC1 fun v _ _ => ?_
    have hprov := (hread p1 hs1).2 key1 hh1 hu1 false { p1.ui.term with verbosity := v }
    obtain ⟨alg, halg⟩ : ∃ alg, p.lib.instantiate alg = .ok C1 := by
      by_cases hfast : Given occs1 .fast
      · exact ⟨.aes256Gcm, hl1 ▸ hC1 _ (by simp [hfast])⟩
      · exact ⟨.chaCha20Poly1305Ietf, hl1 ▸ hC1 _ (by simp [hfast])⟩
    refine ⟨⟨[(1, .publicKey (C.keypair seed).1)], 1, 1⟩, _,
      ⟨_, _, .keys true [] 1 (.publicKeyFile key1) [] _ _ _ _ _ _ .default trivial hprov (by simp) (.nil _ _), rfl, rfl, rfl,
        Nat.le_refl 1, Nat.le_refl 1⟩, ?_, ?_, fun s => ?_⟩
    · simp [ComplexCredential.WF, Credential.WF, MembersWF, Rypt.totalShares]
    · simp [membersCost, Credential.cost]
    · rw [hsame _ _ _ _ hC halg]
      have := hpairs alg C1 seed s halg
      simp only [Credential.Encryptable, MembersEncryptable]
      exact ⟨by decide, by omega, this, trivial⟩
  · intro p2 occs2 free2 key2 hl2 hs2 hwf2 hp2 hr2 hh2 hu2 henc
    refine decryption_can_succeed p2 hwf2 occs2 free2 _ hp2 hr2 fun v _ _ => ?_
    have hprov := (hread p2 hs2).1 key2 hh2 hu2 false { p2.ui.term with verbosity := v }
    refine ⟨[.privateKey (C.keypair seed).2], _, .cons _ _ _ _ _ _ [] hprov (.nil _), by simp, fun a ha b hb => ?_⟩
    obtain ⟨plain, fast, draw, tape, hdr, codec, cs, hdraw, he, rfl, hmax⟩ := henc a ha b hb
    obtain ⟨alg, hinst⟩ := instantiated_of_encrypt he
    obtain ⟨h3, h4, h5⟩ := single_opens (C := codec.crypto) (k := .publicKey (C.keypair seed).1)
      (k' := .privateKey (C.keypair seed).2) (by rw [hsame _ _ _ _ hC hinst]; exact ⟨seed, rfl, rfl⟩) hdr
    rw [hl2]
    exact ⟨plain, false, decrypt_encrypt_possible hL
      (by simp [ComplexCredential.WF, Credential.WF, MembersWF, Rypt.totalShares]) hdraw he
      (encryption_can_finish hL hdraw he hmax) (by simp [Usable]) h4 h5⟩

end Rypt.Props
