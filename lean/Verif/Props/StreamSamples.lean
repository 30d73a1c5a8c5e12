import Verif.Props.ProgramFailureSamples
import Verif.Props.Crashes

/-! Cases that meet the hypotheses of the theorems about conversions to standard output (C83, C84, C87, C89 to C91) and about
crashes (C98). -/

namespace Rypt.Props.ProgramSample

open Getopts Cli UI Filesystem CryptStreams HeaderCrypto Program KeyText

/-! ### `rypt --password-file k`, from a pipe to a pipe; the file has the password -/

def pipeStart (args : List Arg) (input : List UI.Input) : Start :=
  { start args input (fs (some [1, 2, 3]) none (some [112, 119]) none) with ttys := ⟨false, false, false⟩ }

def pipeEncArgs : List Arg := ["--password-file".toList, "k".toList]
def pipeEncOccs : List Occ := [⟨.passwordFile, 0, some "k".toList⟩]
def pipeDecArgs : List Arg := ["-d".toList, "--password-file".toList, "k".toList]
def pipeDecOccs : List Occ := [⟨.decrypt, 0, none⟩, ⟨.passwordFile, 1, some "k".toList⟩]

theorem pipeEncTyped (input : List UI.Input) : Typed 0 (pipeStart pipeEncArgs input).args pipeEncOccs [] := by
  have h : parse pipeEncArgs = .ok ⟨pipeEncOccs, []⟩ := by decide +kernel
  exact ((Getopts.parse_iff _ _).mp h).1

theorem pipeDecTyped (input : List UI.Input) : Typed 0 (pipeStart pipeDecArgs input).args pipeDecOccs [] := by
  have h : parse pipeDecArgs = .ok ⟨pipeDecOccs, []⟩ := by decide +kernel
  exact ((Getopts.parse_iff _ _).mp h).1

theorem pipeEncConverts (input : List UI.Input) : ConvertsStream (pipeStart pipeEncArgs input) .encrypt pipeEncOccs [] :=
  ⟨pipeEncTyped input, .inl ⟨by simp [pipeEncOccs, modeOf], rfl⟩, .inr (.inl rfl), by rintro ⟨h, -⟩; cases h⟩

theorem pipeDecConverts (input : List UI.Input) : ConvertsStream (pipeStart pipeDecArgs input) .decrypt pipeDecOccs [] :=
  ⟨pipeDecTyped input, .inr ⟨⟨.decrypt, 0, none⟩, by simp [pipeDecOccs], rfl, by simp [pipeDecOccs, modeOf]⟩, .inr (.inl rfl),
    by rintro ⟨h, -⟩; cases h⟩

theorem pipeEncParse (input : List UI.Input) : ∃ policy ui, (pipeStart pipeEncArgs input).parse =
    (.ok (.cryptStreams [⟨.stdin, some .stdout⟩] policy false (.encrypt ⟨[(1, pw)], 1, 1⟩ false)), ui) ∧ ui.term.stdin = input :=
  ⟨.promptUser, (pipeStart pipeEncArgs input).parse.2, Prod.ext (by with_unfolding_all rfl) rfl, by with_unfolding_all rfl⟩

theorem pipeDecParse (input : List UI.Input) : ∃ policy ui, (pipeStart pipeDecArgs input).parse =
    (.ok (.cryptStreams [⟨.stdin, some .stdout⟩] policy false (.decrypt [pw])), ui) ∧ ui.term.stdin = input :=
  ⟨.promptUser, (pipeStart pipeDecArgs input).parse.2, Prod.ext (by with_unfolding_all rfl) rfl, by with_unfolding_all rfl⟩

/-- C87 for the encryption. -/
theorem pipeEncRuns : ∃ d, Reaches (pipeStart pipeEncArgs ([1, 2, 3].map .byte)) ⟨d, ownFile false, some 0, none⟩ := by
  obtain ⟨policy, ui, hp, hin⟩ := pipeEncParse ([1, 2, 3].map .byte)
  exact ⟨_, accepted_stream_can_succeed _ _ _ (pipeEncTyped _) (.inr (.inl rfl)) _ _ _ _ _ hp [1, 2, 3] (fun _ => hin)
    (by rintro a ⟨⟩) (.encrypt (ownOpts false) 5 Sample.tape) (ownFile false) false ⟨rfl, by omega⟩
    (encryption_can_finish Toy.lib_lawful (by omega) (own_ok false) (own_max false))⟩

/-- C87 for the decryption. -/
theorem pipeDecRuns : ∃ d, Reaches (pipeStart pipeDecArgs ((ownFile false).map .byte)) ⟨d, [1, 2, 3], some 0, none⟩ := by
  obtain ⟨policy, ui, hp, hin⟩ := pipeDecParse ((ownFile false).map .byte)
  obtain ⟨h3, h4, h5⟩ := single_opens (C := (ownCodec false).crypto) (k := pw) (k' := pw) rfl (ownHdr false)
  exact ⟨_, accepted_stream_can_succeed _ _ _ (pipeDecTyped _) (.inr (.inl rfl)) _ _ _ _ _ hp (ownFile false) (fun _ => hin)
    (by rintro a ⟨⟩) (.decrypt [pw]) [1, 2, 3] false rfl
    (decrypt_encrypt_possible Toy.lib_lawful (own_wf false) (by omega) (own_ok false)
      (encryption_can_finish Toy.lib_lawful (by omega) (own_ok false) (own_max false)) (by simp [pw, Usable]) h4 h5)⟩

theorem pipeKeyLines : Spec.KeyLines (some [112, 119]) ["pw".toList] :=
  (keyLines_of_text "pw".toList _).mpr (by decide +kernel)

/-- What is asked for, and what is left of standard input. -/
theorem pipeDecAsked {input : List UI.Input} {t : Term} {S : List Credential}
    (h : Asked (pipeStart pipeDecArgs input) pipeDecOccs t (.decrypt S)) : S = [pw] ∧ t.stdin = input := by
  obtain ⟨typed, v, force, ht, -, hd⟩ := h
  obtain rfl := typedTokens_unique ht (.skip _ _ _ rfl (.cons _ _ (.passwordFile "k".toList) _ (.passwordFile _ _) .nil))
  have := providesAll_single hd
  cases this with
  | passwordFile _ _ ls hl hne =>
    obtain rfl := keyLines_unique hl pipeKeyLines
    exact ⟨rfl, rfl⟩

theorem pipeEncAsked {input : List UI.Input} {t : Term} {c : ComplexCredential} {fast : Bool}
    (h : Asked (pipeStart pipeEncArgs input) pipeEncOccs t (.encrypt c fast)) : c = ⟨[(1, pw)], 1, 1⟩ ∧ fast = false ∧
      t.stdin = input := by
  refine ⟨asked_encrypt_single (.cons _ _ (.passwordFile "k".toList) _ (.passwordFile _ _) .nil) rfl trivial h
    (fun v skip cs t' hp => ?_), ?_⟩
  · cases hp with
    | passwordFile _ _ ls hl hne =>
      obtain rfl := keyLines_unique hl pipeKeyLines
      rfl
  · obtain ⟨typed, _, _, ht, -, h, ms, thr, hb, -⟩ := h
    refine ⟨by simpa [Given, pipeEncOccs] using h, ?_⟩
    obtain rfl := typedTokens_unique ht (.cons _ _ (.passwordFile "k".toList) _ (.passwordFile _ _) .nil)
    have := providesAll_single (body_providesAll hb (by simp [Token.IsKey]))
    generalize ms.map (·.2) = cs at this
    cases this
    rfl

/-- C83, C84: both runs, and what comes out. -/
example : ∃ m1 m2, Reaches (pipeStart pipeEncArgs ([1, 2, 3].map .byte)) m1 ∧ m1.exit = some 0 ∧
    Reaches (pipeStart pipeDecArgs (m1.stdout.map .byte)) m2 ∧ m2.exit = some 0 ∧ m2.stdout = [1, 2, 3] := by
  obtain ⟨d1, h1⟩ := pipeEncRuns
  obtain ⟨d2, h2⟩ := pipeDecRuns
  exact ⟨_, _, h1, rfl, h2, rfl, rfl⟩

/-- C84: for all runs. -/
example (m1 m2 : Moment) (h1 : Reaches (pipeStart pipeEncArgs ([1, 2, 3].map .byte)) m1) (hx1 : m1.exit = some 0)
    (h2 : Reaches (pipeStart pipeDecArgs (m1.stdout.map .byte)) m2) (hx2 : m2.exit = some 0) : m2.stdout = [1, 2, 3] := by
  obtain ⟨c, fast, t1, b, draw, tape, hdr, codec, cs, S, t2, ha1, ha2, hin, -, he, hall⟩ := program_pipe_round_trip
    (pipeStart pipeEncArgs _) (pipeStart pipeDecArgs _) Toy.lib_lawful rfl _ _ _ _ (pipeEncConverts _) (pipeDecConverts _) m1 m2 h1 hx1 h2 hx2 (.inl rfl)
  obtain ⟨rfl, rfl, ht1⟩ := pipeEncAsked ha1
  obtain ⟨rfl, ht2⟩ := pipeDecAsked ha2
  obtain ⟨-, h4, h5⟩ := single_opens (C := codec.crypto) (k := pw) (k' := pw) rfl hdr
  rw [hall ht2 h4 h5]
  exact List.map_injective_iff.mpr (fun x y h => by cases h; rfl) ((hin (.inl rfl)).symm.trans ht1)

/-- What the encryption of `f` with an entered password asks for. -/
theorem encAsked {t : Term} {c : ComplexCredential} {fast : Bool} (h : Asked encStart [] t (.encrypt c fast)) :
    c = ⟨[(1, pw)], 1, 1⟩ :=
  asked_encrypt_single .nil (if_pos rfl) trivial h (fun _ _ _ _ hp =>
    provides_entered (pre := []) (l := pwTwice) (rest := []) hp (by intro w hw; cases hw) (by decide) .nil entered_twice
      (by simp [encStart, start, Start.ui]))

/-- C84: `f` is encrypted with an entered password, `f.rypt` is sent through a pipe and decrypted with the password in a file. -/
example (m1 : Moment) (h1 : Reaches encStart m1) (hx1 : m1.exit = some 0) : ∃ F, m1.fs.holds "f.rypt".toList F ∧
    ∀ m2, Reaches (pipeStart pipeDecArgs (F.map .byte)) m2 → m2.exit = some 0 → m2.stdout = [1, 2, 3] := by
  obtain ⟨d, t, ext, -, -, he, hall⟩ := files_are_converted encStart Toy.lib_lawful (fs_wf _ _ _ _) _ _ _ encConverts (by simp [Given])
    encNoChain m1 h1 hx1
  obtain ⟨q, F, hq, hF, -⟩ := hall "f".toList (by simp [encArgs]) [1, 2, 3] ⟨0, by decide +kernel, rfl⟩
  obtain rfl := suffix_default (by simp [Given]) he
  obtain rfl := Option.some.inj (output_name_unique _ _ _ _ _ _ hq outName)
  refine ⟨F, hF, fun m2 h2 hx2 => ?_⟩
  obtain ⟨c, fast, t1, ext1, q, F', draw, tape, hdr, codec, cs, S, t2, ha1, he1, ho, hF', -, ha2, hres⟩ :=
    program_file_to_pipe_round_trip encStart (pipeStart pipeDecArgs (F.map .byte)) Toy.lib_lawful rfl (fs_wf _ _ _ _) _ _ _ _ encConverts
      (by simp [Given]) encNoChain (pipeDecConverts _) m1 m2 h1 hx1 h2 hx2 "f".toList (by simp [encArgs]) [1, 2, 3]
      ⟨0, by decide +kernel, rfl⟩
  obtain rfl := suffix_default (by simp [Given]) he1
  obtain rfl := Option.some.inj (output_name_unique _ _ _ _ _ _ ho outName)
  obtain rfl : F = F' := by
    obtain ⟨i, hi, rfl⟩ := hF
    obtain ⟨j, hj, rfl⟩ := hF'
    rw [hi] at hj
    cases hj
    rfl
  obtain rfl := encAsked ha1
  obtain ⟨rfl, ht2⟩ := pipeDecAsked ha2
  obtain ⟨-, h4, h5⟩ := single_opens (C := codec.crypto) (k := pw) (k' := pw) rfl hdr
  exact hres (.inl ⟨.inl rfl, ht2⟩) h4 h5

/-- C84: encrypted in a pipe with the password in a file; what came out is put into `f.rypt` and decrypted with an entered password. -/
example (m1 m2 : Moment) (h1 : Reaches (pipeStart pipeEncArgs ([1, 2, 3].map .byte)) m1) (hx1 : m1.exit = some 0)
    (h2 : Reaches (decStart m1.stdout) m2) (hx2 : m2.exit = some 0) : m2.fs.holds "f".toList [1, 2, 3] := by
  obtain ⟨c, fast, t1, b, draw, tape, hdr, codec, cs, S, t2, ext2, r, ha1, ha2, hin, -, -, he2, ho, hres⟩ :=
    program_pipe_to_file_round_trip (pipeStart pipeEncArgs _) (decStart m1.stdout) Toy.lib_lawful rfl (fs_wf _ _ _ _) _ _ _ _
      (pipeEncConverts _) (decConverts _) (by simp [Given, decOccs]) (decNoChain _) m1 m2 h1 hx1 h2 hx2 "f.rypt".toList (by simp)
      ⟨1, rfl, rfl⟩
  obtain ⟨rfl, rfl, ht1⟩ := pipeEncAsked ha1
  obtain rfl := decAsked ha2
  obtain rfl := suffix_default (by simp [Given, decOccs]) he2
  obtain rfl := Option.some.inj (output_name_unique _ _ _ _ _ _ ho (decName false))
  obtain ⟨-, h4, h5⟩ := single_opens (C := codec.crypto) (k := pw) (k' := pw) rfl hdr
  have hb : b = [1, 2, 3] := List.map_injective_iff.mpr (fun x y h => by cases h; rfl) ((hin (.inl rfl)).symm.trans ht1)
  exact hb ▸ hres h4 h5

/-- C89 and C90: the file of someone else. -/
example (m : Moment) (h : Reaches (pipeStart pipeDecArgs (foreign.map .byte)) m) : m.exit ≠ some 0 ∧ m.stdout = [] :=
  have h := wrong_credentials_stream _ Toy.lib_lawful _ _ (pipeDecConverts _) m h Sample.opts Sample.cred_wf [1, 2, 3] foreign _ _ _
    foreign_encrypted (.inl ⟨.inl rfl, fun t S hs => (pipeDecAsked hs).2⟩)
    (fun t S hs => by rw [(pipeDecAsked hs).1]; exact ⟨foreign_detects, foreign_fails.2⟩)
  ⟨h.1, h.2.1⟩

/-- C91: the changed file. -/
example (m : Moment) (h : Reaches (pipeStart pipeDecArgs (changed.map .byte)) m) : m.exit ≠ some 0 ∧ m.stdout <+: [1, 2, 3] :=
  have h := changed_stream _ Toy.lib_lawful _ _ (pipeDecConverts _) m h (ownOpts false) [1, 2, 3] (ownFile false) _ _ _ []
    (own_encrypted false) (by simp) changed changed_facts.2.1 (by have := changed_facts.2.2.1; omega)
    (.inl ⟨.inl rfl, fun t S hs => (pipeDecAsked hs).2⟩)
    (fun t S hs => by rw [(pipeDecAsked hs).1]; exact changed_rejected [])
  ⟨h.1, h.2.1⟩

/-! ### C98 -/

theorem toy_keysMatch : KeysMatch Toy.lib := by
  intro C seed h
  cases h
  simp [Toy.crypto, Toy.pad32_length]

/-- As `emptyPartsHeader`, for the password. -/
def hostileHeader : Bytes :=
  let epk := (Toy.crypto.keypair [3]).1
  let key := Toy.crypto.keyDerivation (Spec.utf8 "pw".toList) ((Toy.crypto.hmac epk KDF_SALT_NONCE).take KDF_SALT_LEN)
  Proto.encodeHeader { cryptoFamily := some 1, ephemeralPk := epk, protectedHeader := [],
                       payloadKey := some (.mk 0 [
                         .mk 2 (.encrypted (Toy.crypto.aeadEncryptEasy [] key (recipientSecretNonce 0)))]) }

theorem hostileHeader_panics : decryptHeader Toy.lib hostileHeader [pw] = .panic := by
  have h : panics (decryptHeader Toy.lib hostileHeader [pw]) = true := by decide +kernel
  exact panics_eq h

def hostile : Bytes := Spec.frame hostileHeader ++ [7]

theorem hostile_conversion : CryptFile.Conversion Toy.lib hostile (.decrypt [pw]) ⟨[], some .panic, false⟩ := by
  have hl : 0 < hostileHeader.length ∧ hostileHeader.length ≤ 1000 := by decide +kernel
  obtain ⟨n, r, hread, -⟩ := read_frame [7] hl.1 (by unfold Spec.maxHeader; omega)
  exact .decryptHeaderPanic _ _ n r hread hostileHeader_panics

/-- The same with other reports of progress. -/
def crashStart (H : Nat → List (Nat × Nat) → Prop) : Start := { decStart hostile with histories := H }

/-- `rypt -d f.rypt` crashes. -/
theorem hostile_crash (H : Nat → List (Nat × Nat) → Prop) : ∃ m, Reaches (crashStart H) m ∧ m.exit = some 101 := by
  obtain ⟨policy, ui, hp⟩ := decParse hostile
  generalize hcfg : (crashStart H).config [⟨.file "f.rypt".toList, some (.file "f".toList)⟩] policy false (.decrypt [pw]) ui = cfg
  have r0 : Run cfg (State.start cfg (crashStart H).fs) [] _ := .refl
  subst hcfg
  have r1 := Run.step _ _ _ _ r0 (.openInput _ _ _ _ (.file 1) (some hostile.length) rfl rfl rfl rfl)
  have r2 := Run.step _ _ _ _ r1 (.openOutput _ _ _ _ _ _ (.decrypt [pw]) hostile rfl rfl rfl (by rintro _ ⟨⟩ _; rfl) (by rintro ⟨⟩))
  have r3 := Run.step _ _ _ _ r2 (.panic _ _ _ _ _ _ _ [] false rfl (List.prefix_refl _) hostile_conversion)
  exact ⟨_, .crypt (p := crashStart H) _ _ _ _ _ _ _ hp r3, rfl⟩

/-- Where there are no reports of progress, its header is the only reason. -/
example : FlawedFile Toy.lib [pw] hostile := by
  obtain ⟨m, h, hx⟩ := hostile_crash (fun _ calls => calls = [])
  rcases file_crash_causes (crashStart fun _ calls => calls = []) Toy.lib_lawful (by simp [crashStart, decStart, start, Toy.lib]) toy_keysMatch (fs_wf _ _ _ _) .decrypt decOccs
    ["f.rypt".toList] ⟨(decConverts []).typed, (decConverts []).mode, (decConverts []).stream, (decConverts []).some, (decConverts []).dash⟩
    (by simp [Given, decOccs]) (decNoChain []) m h hx with
    ⟨-, path, pos, force, h1, -⟩ | ⟨t, c, fast, h1, -⟩ | ⟨t, S, -, ha, a, ham, b, hb, hf⟩ | ⟨a, ham, b, hb, h1⟩
  · simp [decOccs] at h1
  · cases h1
  · obtain rfl := decAsked (F := hostile) ha
    rw [List.mem_singleton.mp ham] at hb
    obtain ⟨ino, he, rfl⟩ := hb
    have : (Node.file 1) = .file ino := Option.some.inj he
    cases this
    exact hf
  · rw [List.mem_singleton.mp ham] at hb
    obtain ⟨ino, he, rfl⟩ := hb
    have : (Node.file 1) = .file ino := Option.some.inj he
    cases this
    rcases h1 with h1 | ⟨start, calls, h1, h2⟩
    · have hl : hostile.length ≤ 10000 := by decide +kernel
      exact absurd (Nat.le_trans h1 (Nat.mul_le_mul_right 1000 hl)) (by decide)
    · obtain rfl : calls = [] := h1
      rcases h2 with h2 | h2
      · exact absurd trivial h2
      · simp [Spec.lastInstant] at h2

/-- `rypt -d --password-file k` crashes when the clock runs backwards. -/
theorem clock_crash : ∃ m, Reaches (pipeStart pipeDecArgs (hostile.map .byte)) m ∧ m.exit = some 101 := by
  obtain ⟨policy, ui, hp, hin⟩ := pipeDecParse (hostile.map .byte)
  have hl : 0 < hostileHeader.length ∧ hostileHeader.length ≤ 1000 := by decide +kernel
  obtain ⟨n, r, hread, -⟩ := read_frame [7] hl.1 (by unfold Spec.maxHeader; omega)
  generalize hcfg : (pipeStart pipeDecArgs (hostile.map .byte)).config [⟨.stdin, some .stdout⟩] policy false (.decrypt [pw]) ui = cfg
  have r0 : Run cfg (State.start cfg (pipeStart pipeDecArgs (hostile.map .byte)).fs) [] _ := .refl
  subst hcfg
  have r1 := Run.step _ _ _ _ r0 (.openInput _ _ _ _ .other none rfl rfl rfl rfl)
  have r2 := Run.step _ _ _ _ r1 (.openOutput _ _ _ _ _ _ (.decrypt [pw]) hostile rfl rfl rfl (by rintro _ ⟨⟩) (fun _ => .inl hin))
  have r3 := Run.step _ _ _ _ r2 (.progressPanic _ _ _ _ _ _ _ [] false 5 none [(n, 4)] rfl (List.prefix_refl _) (.started _) trivial
    (fun _ => rfl) (by rintro _ ⟨⟩) rfl ⟨[], false, List.prefix_refl _, .headerRead _ _ n r hread⟩)
  exact ⟨_, .crypt _ _ _ _ _ _ _ hp r3, rfl⟩

end Rypt.Props.ProgramSample
