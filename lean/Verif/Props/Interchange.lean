import Verif.Props.HeaderFormat
import Verif.Props.ProgramSamples
import Verif.Spec.Interchange

/-! C128: the program and others that follow the format can read each other's files. -/

namespace Rypt.Props

open Getopts Cli UI Filesystem CryptStreams HeaderCrypto Program Spec

/-- C128: encrypted files are in the format. -/
theorem encryption_in_format {L : CryptoLib} (hL : L.Lawful) {c : ComplexCredential} (hwf : c.WF) {fast : Bool} {b F : Bytes}
    (h : EncryptionOf L ⟨c, fast⟩ b F) : ∃ C hdr, InFormat L fast c C hdr b F := by
  obtain ⟨draw, tape, hdr, codec, cs, hdraw, he, rfl, hmax⟩ := h
  obtain ⟨C, key, hdr', size, hd, h1, h2, h3, h4, h5, h6, h7, h8, h9⟩ :=
    encrypted_file_format hL (opts := ⟨c, fast⟩) hwf hdraw (encryption_can_finish hL hdraw he hmax (plain := b))
  exact ⟨C, hdr', h1, h3, h4, key, size, hd, h2, by omega, by omega, h9, h5, h6⟩

/-- C128: a file in the format, whoever made it, has only one decryption with sufficient credentials: its content. It has it. -/
theorem decryption_of_format {L : CryptoLib} (hL : L.Lawful) {c : ComplexCredential} (hwf : c.WF) {fast : Bool} {C : Crypto}
    {hdr plain F : Bytes} (h : InFormat L fast c C hdr plain F) {S : List Credential} (hS : ∀ k ∈ S, Usable k)
    (hw : HeaderDetectsWrongCredentials C hdr c S) (hsat : c.satisfied (heldBy C S) = true) (G : Bytes) :
    DecryptionOf L S F G ↔ G = plain := by
  obtain ⟨hi, hne, hmax, key, size, hd, rfl, hpos, hsize, hmod, hread, hfor⟩ := h
  have hC := hL _ _ hi
  constructor
  · rintro ⟨flt, h⟩
    exact ((file_of_format_decrypts hL hC hi hwf hpos ⟨hsize, hmod⟩ hne hmax hread hfor hS hw hsat h).2 _ rfl).2 rfl
  · rintro rfl
    have hopen := header_of_format_opens hC hi hwf ⟨hsize, hmod⟩ hread hfor hS hw
    rw [if_pos hsat] at hopen
    have := decryption_can_finish (body := payload C key (C.hash hdr) size G) hL hne hmax hopen
    rw [convertStream_decrypt hC hpos] at this
    exact ⟨false, this⟩

/-- C128: what the program writes when it encrypts files: files in the format, for the credentials asked for. -/
theorem files_written_in_format (p : Start) (hL : p.lib.Lawful) (hwf : p.fs.WF) (occs : List Occ) (free : List Arg)
    (hc : ConvertsFiles p .encrypt occs free) (hf : ¬ Given occs .force) (hun : NoChain p .encrypt occs free) (m : Moment)
    (h : Reaches p m) (hx : m.exit = some 0) :
    ∃ c fast t ext, Asked p occs t (.encrypt c fast) ∧ SuffixOf occs ext ∧ ∀ a ∈ free, ∀ b, p.fs.holds a b →
      ∃ q F C hdr, OutputName false ext a .encrypt (some q) ∧ m.fs.holds q F ∧ c.WF ∧ InFormat p.lib fast c C hdr b F := by
  obtain ⟨d, t, ext, hd, ha, he, hall⟩ := files_are_converted p hL hwf _ _ _ hc hf hun m h hx
  cases d with
  | decrypt => cases hd
  | encrypt c fast =>
    refine ⟨c, fast, t, ext, ha, he, fun a ham b hb => ?_⟩
    obtain ⟨q, F, hq, hF, hres⟩ := hall a ham b hb
    have hres' := hres
    obtain ⟨draw, tape, hdr, codec, cs, -, henc, -⟩ := hres'
    obtain ⟨C, hdr', hin⟩ := encryption_in_format hL (asked_wf ha henc) hres
    exact ⟨q, F, C, hdr', hq, hF, asked_wf ha henc, hin⟩

/-- C128: and what it writes to standard output. -/
theorem stream_written_in_format (p : Start) (hL : p.lib.Lawful) (occs : List Occ) (free : List Arg)
    (hc : ConvertsStream p .encrypt occs free) (m : Moment) (h : Reaches p m) (hx : m.exit = some 0) :
    ∃ c fast t b C hdr, Asked p occs t (.encrypt c fast) ∧ c.WF ∧ InFormat p.lib fast c C hdr b m.stdout ∧
      (free = [] ∨ free = [['-']] → t.stdin = b.map .byte) ∧
      (∀ a ino, free = [a] → a ≠ ['-'] → p.fs.openRead a = some (.file ino) → b = p.fs.content ino) := by
  obtain ⟨-, d, t, b, hd, ha, hres, h1, h2⟩ := stream_is_converted p hL _ _ _ hc m h hx
  cases d with
  | decrypt => cases hd
  | encrypt c fast =>
    have hres' := hres
    obtain ⟨draw, tape, hdr, codec, cs, -, henc, -⟩ := hres'
    obtain ⟨C, hdr', hin⟩ := encryption_in_format hL (asked_wf ha henc) hres
    exact ⟨c, fast, t, b, C, hdr', ha, asked_wf ha henc, hin, h1, h2⟩

/-- C128: when the program has decrypted files, those that were in the format, whoever made them, have become files with their content,
if the credentials given satisfy the tree they were made for. -/
theorem files_in_format_decrypted (p : Start) (hL : p.lib.Lawful) (hwf : p.fs.WF) (occs : List Occ) (free : List Arg)
    (hc : ConvertsFiles p .decrypt occs free) (hf : ¬ Given occs .force) (hun : NoChain p .decrypt occs free) (m : Moment)
    (h : Reaches p m) (hx : m.exit = some 0) :
    ∃ S t ext, Asked p occs t (.decrypt S) ∧ SuffixOf occs ext ∧ ∀ a ∈ free, ∀ F, p.fs.holds a F →
      ∃ q, OutputName false ext a .decrypt (some q) ∧ ∀ fast c C hdr plain, c.WF → InFormat p.lib fast c C hdr plain F →
        HeaderDetectsWrongCredentials C hdr c S → c.satisfied (heldBy C S) = true → m.fs.holds q plain := by
  obtain ⟨d, t, ext, hd, ha, he, hall⟩ := files_are_converted p hL hwf _ _ _ hc hf hun m h hx
  cases d with
  | encrypt => cases hd
  | decrypt S =>
    refine ⟨S, t, ext, ha, he, fun a ham F hF => ?_⟩
    obtain ⟨q, G, hq, hG, hres⟩ := hall a ham F hF
    refine ⟨q, hq, fun fast c C hdr plain hcw hin hw hsat => ?_⟩
    rwa [(decryption_of_format hL hcw hin (asked_usable ha) hw hsat G).mp hres] at hG

/-- C128: the same for what is read from standard input or written to standard output. -/
theorem stream_in_format_decrypted (p : Start) (hL : p.lib.Lawful) (occs : List Occ) (free : List Arg)
    (hc : ConvertsStream p .decrypt occs free) (m : Moment) (h : Reaches p m) (hx : m.exit = some 0) :
    ∃ S t F, Asked p occs t (.decrypt S) ∧
      (free = [] ∨ free = [['-']] → t.stdin = F.map .byte) ∧
      (∀ a ino, free = [a] → a ≠ ['-'] → p.fs.openRead a = some (.file ino) → F = p.fs.content ino) ∧
      ∀ fast c C hdr plain, c.WF → InFormat p.lib fast c C hdr plain F →
        HeaderDetectsWrongCredentials C hdr c S → c.satisfied (heldBy C S) = true → m.stdout = plain := by
  obtain ⟨-, d, t, F, hd, ha, hres, h1, h2⟩ := stream_is_converted p hL _ _ _ hc m h hx
  cases d with
  | encrypt => cases hd
  | decrypt S =>
    exact ⟨S, t, F, ha, h1, h2, fun fast c C hdr plain hcw hin hw hsat =>
      (decryption_of_format hL hcw hin (asked_usable ha) hw hsat _).mp hres⟩

/-- C128: and they can be decrypted, if nothing is wrong with the command line, the files are ready and sufficient credentials can be had. -/
theorem files_in_format_can_be_decrypted (p : Start) (hL : p.lib.Lawful) (hwf : p.fs.WF) (occs : List Occ) (free : List Arg)
    (tokens : List Token) (hp : Proper p .decrypt occs free tokens) (hr : FilesReady p .decrypt occs free)
    (hcred : ∀ v, (askedVerbosity occs ≠ 0 → v = askedVerbosity occs) → (askedVerbosity occs = 0 → v = 1 ∨ v = -1) →
      ∃ S t', ProvidesAll p.env .decrypt false tokens { p.ui.term with verbosity := v } S t' ∧ S.length < 2 ^ 64 ∧
        ∀ a ∈ free, ∀ F, p.fs.holds a F → ∃ fast c C hdr plain, c.WF ∧ InFormat p.lib fast c C hdr plain F ∧
          HeaderDetectsWrongCredentials C hdr c S ∧ c.satisfied (heldBy C S) = true) :
    ∃ m, Reaches p m ∧ m.exit = some 0 := by
  refine decryption_can_succeed p hwf occs free tokens hp hr fun v hv1 hv2 => ?_
  obtain ⟨S, t', h1, h2, h3⟩ := hcred v hv1 hv2
  refine ⟨S, t', h1, h2, fun a ha F hF => ?_⟩
  obtain ⟨fast, c, C, hdr, plain, hcw, hin, hw, hsat⟩ := h3 a ha F hF
  exact ⟨plain, (decryption_of_format hL hcw hin (providesAll_usable h1) hw hsat plain).mpr rfl⟩

/-- C128: files that another program has encrypted with a password, in the format, can be decrypted by entering the password; no hypothesis
on the cryptography is needed except that it is lawful. -/
theorem password_file_in_format_can_be_decrypted (p : Start) (hL : p.lib.Lawful) (hwf : p.fs.WF) (occs : List Occ) (free : List Arg)
    (hp : Proper p .decrypt occs free [.interactivePassword]) (hr : FilesReady p .decrypt occs free)
    (htty : p.ttys.stdin = true ∧ p.ttys.stderr = true) (hq : -1 ≤ askedVerbosity occs) (hw : ∀ w ∈ p.writes, w = none)
    (pw : List Char) (hne : pw ≠ []) (pre l rest : List UI.Input) (hst : p.stdin = pre ++ l ++ rest)
    (hpre : Spec.Attempts .decrypt pre) (hl : Spec.Entered .decrypt pw l)
    (henc : ∀ a ∈ free, ∀ F, p.fs.holds a F → ∃ fast C hdr plain,
      InFormat p.lib fast ⟨[(1, .password (Spec.utf8 pw))], 1, 1⟩ C hdr plain F) : ∃ m, Reaches p m ∧ m.exit = some 0 := by
  refine files_in_format_can_be_decrypted p hL hwf occs free _ hp hr fun v hv1 hv2 => ?_
  obtain ⟨t', -, hprov⟩ := typed_password_provided p.env false .decrypt { p.ui.term with verbosity := v } pw pre l rest
    ⟨rfl, htty.1, htty.2, by
      by_cases h0 : askedVerbosity occs = 0
      · rcases hv2 h0 with h | h <;> simp [h]
      · simpa [hv1 h0] using hq⟩ hw hpre hne hl hst
  refine ⟨[.password (Spec.utf8 pw)], t', .cons _ _ _ _ _ _ [] hprov (.nil _), by simp, fun a ha b hb => ?_⟩
  obtain ⟨fast, C, hdr, plain, hin⟩ := henc a ha b hb
  obtain ⟨h3, h4, h5⟩ := single_opens (C := C) (k := .password (Spec.utf8 pw)) (k' := .password (Spec.utf8 pw)) rfl hdr
  exact ⟨fast, _, C, hdr, plain, by simp [ComplexCredential.WF, Credential.WF, MembersWF, Rypt.totalShares], hin, h4, h5⟩

namespace InterchangeSample

open ProgramSample

/-- `rypt f` has made a file in the format, and `rypt -d f.rypt` can read it. -/
example : ∃ F C hdr m, InFormat Toy.lib false ⟨[(1, .password (Spec.utf8 "pw".toList))], 1, 1⟩ C hdr [1, 2, 3] F ∧
    Reaches (decStart F) m ∧ m.exit = some 0 ∧ m.fs.holds "f".toList [1, 2, 3] := by
  obtain ⟨F, hF⟩ := encryption_result
  obtain ⟨C, hdr, hin⟩ := encryption_in_format Toy.lib_lawful
    (by simp [ComplexCredential.WF, Credential.WF, MembersWF, Rypt.totalShares]) hF
  have hhold : (decStart F).fs.holds "f.rypt".toList F := ⟨1, rfl, rfl⟩
  obtain ⟨m, h, hx⟩ := password_file_in_format_can_be_decrypted (decStart F) Toy.lib_lawful (fs_wf _ _ _ _) decOccs _ (decProper F)
    (decReady F) ⟨rfl, rfl⟩ (by decide) (by intro w hw; cases hw) "pw".toList (by decide) [] pwOnce [] (by simp [decStart, start]) .nil
    (show Spec.LineOf _ _ from .lf "pw".toList (by decide) (by decide)) (by
      intro a ha b hb
      rw [List.mem_singleton.mp ha] at hb
      obtain ⟨ino, he, hc⟩ := hb
      have : (Node.file 1) = .file ino := Option.some.inj he
      cases this
      rw [← hc]
      exact ⟨_, _, _, _, hin⟩)
  refine ⟨F, C, hdr, m, hin, h, hx, ?_⟩
  obtain ⟨S, t, ext, ha, he, hall⟩ := files_in_format_decrypted (decStart F) Toy.lib_lawful (fs_wf _ _ _ _) _ _ (decConverts F)
    (by simp [Given, decOccs]) (decNoChain F) m h hx
  obtain ⟨q, hq, hres⟩ := hall _ (List.mem_singleton.mpr rfl) F hhold
  rw [suffix_default (by simp [Given, decOccs]) he] at hq
  rw [Option.some.inj (output_name_unique _ _ _ _ _ _ hq (decName false))] at hres
  have hS : S = [.password (Spec.utf8 "pw".toList)] :=
    asked_decrypt_single (typed := []) (TypedTokens.skip _ _ _ rfl .nil) (if_pos rfl) ha (fun _ _ _ _ hp =>
      provides_entered (pre := []) (l := pwOnce) (rest := []) hp (by intro w hw; cases hw) (by decide) .nil
        (show Spec.LineOf _ _ from .lf "pw".toList (by decide) (by decide)) (by simp [decStart, start, Start.ui]))
  subst hS
  obtain ⟨h3, h4, h5⟩ := single_opens (C := C) (k := .password (Spec.utf8 "pw".toList)) (k' := .password (Spec.utf8 "pw".toList)) rfl hdr
  exact hres _ _ _ _ _ (by simp [ComplexCredential.WF, Credential.WF, MembersWF, Rypt.totalShares]) hin h4 h5

/-- A file of another program: chunks of 64 bytes, which rypt itself never makes, for the tree of the sample. -/
example (plain G : Bytes) : DecryptionOf Toy.lib Sample.good (file Toy.crypto Sample.codec.payloadKey Sample.smallHdr 64 plain) G ↔ G = plain :=
  decryption_of_format Toy.lib_lawful Sample.cred_wf (fast := false)
    ⟨rfl, by decide +kernel, by decide +kernel, _, 64, _, rfl, by norm_num, by norm_num, by norm_num,
      (Proto.header_iff _ _).mp Sample.small_decodes, Sample.small_format⟩ Sample.good_usable (toyDetects_detects (by decide +kernel))
    (by rw [← sample_crypto]; exact Sample.good_satisfies) G

end InterchangeSample

end Rypt.Props
