import Verif.Proofs.CliSafe
import Verif.Proofs.CliFrame
import Verif.Proofs.TokenOrder
import Verif.Proofs.Cli
import Verif.Props.KeyText
import Verif.Props.CommandLine
import Verif.Props.UI
import Verif.Props.Samples

/-! Properties C44, C45, C46, C71, C72: credentials given on the command line. -/

namespace Rypt.Props

open Cli Getopts UI CryptStreams Spec KeyText HeaderCrypto

/-! ## C44 -/

/-- C44: the credential arguments are accepted exactly if the grammar gives them a meaning, and the result is that meaning; on
decryption only key-providing arguments are accepted. -/
theorem credentials_follow_grammar (env : Env) (tokens : List Token) (dir : CryptDirection) (skip : Bool) (t t' : Term)
    (c : ComplexCredential) :
    parseComplexCredential env tokens dir skip t = (.ok c, t') ↔
      Describes env dir skip tokens t c t' ∧ (dir = .decrypt → ∀ tok ∈ tokens, tok.IsKey) :=
  Cli.parse_iff env tokens dir skip t t' c

/-- C44: for whole command lines: the credential for encryption is what the credential options describe, in the order they were
typed; without any, it is a password asked for. -/
theorem encryption_credential_is_typed (env : Env) (args : List Arg) (ttys : Ttys) (ui ui' : Ui) (occs : List Occ) (free : List Arg)
    (ht : Typed 0 args occs free) (streams : List Stream) (policy : CleanupPolicy) (force fast : Bool) (c : ComplexCredential)
    (h : parseCommandLine env args ttys ui = (.ok (.cryptStreams streams policy force (.encrypt c fast)), ui')) :
    ∃ typed v, TypedTokens occs typed ∧
      Describes env .encrypt force (if typed = [] then [.interactivePassword] else typed) { ui.term with verbosity := v } c ui'.term := by
  obtain ⟨m, hm, -, ha⟩ := accepted_of h
  obtain ⟨rfl, rfl⟩ := typed_unique ht ((Getopts.parse_iff args m).mp hm).1
  cases ha with
  | keypair streams h1 h2 h3 h4 h5 => cases h4
  | help h1 h2 h3 => cases h2
  | version h1 h2 h3 h4 => cases h3
  | crypt dir streams' policy' ui1 h1 h2 h3 h4 h5 h6 =>
    obtain ⟨-, -, ⟨rfl, c, hc, h7⟩ | ⟨rfl, cs, -, h7⟩⟩ := cryptCommand_ok h6
    swap
    · cases h7
    cases h7
    unfold getEncryptCredential at hc
    split at hc
    · rename_i toks he
      obtain ⟨typed, htt, -, hp⟩ := extract_typed (env := env) (dir := .encrypt) (skip := m.present .force) ht he
      obtain ⟨v, hv, -⟩ := check_term (isData_of_streams h3) h4
      refine ⟨typed, v, htt, ?_⟩
      have := ((Cli.parse_iff _ _ _ _ _ _ _).mp (hp _ _ _ hc)).1
      unfold defaultTokens at this
      rw [hv] at this
      simpa [List.isEmpty_iff] using this
    · cases hc
    · cases hc

/-- C44: an accepted credential has a threshold between 1 and its number of shares, and, unless the share counts of a group add
up to 2^64 or more, it is well-formed throughout: every group has the sum of its members' shares, a threshold between 1 and that sum,
and no member without shares. -/
theorem accepted_credential_wf (env : Env) (tokens : List Token) (skip : Bool) (t t' : Term) (c : ComplexCredential)
    (h : parseComplexCredential env tokens .encrypt skip t = (.ok c, t')) :
    c.subCreds ≠ [] ∧ 1 ≤ c.threshold ∧ c.threshold ≤ c.numShares ∧ (c.NoWrap → c.WF) := by
  have hd := ((Cli.parse_iff _ _ _ _ _ _ _).mp h).1
  refine ⟨?_, ?_, ?_, describes_wf hd⟩ <;> obtain ⟨ms, thr, -, hc⟩ := hd
  · rw [hc.subCreds]; exact closed_ne_nil hc
  · exact hc.threshold_pos
  · exact hc.threshold_le

/-- C44: parentheses that do not balance, an empty group, `--key-shares 0`, and `--key-shares` followed by something that is not a
key or a group are refused. -/
theorem bad_credentials_refused (env : Env) (tokens : List Token) (dir : CryptDirection) (skip : Bool) (t : Term)
    (hbad : tokens.count .startGroup ≠ tokens.count .endGroup ∨
      (∃ a b, tokens = a ++ .startGroup :: .endGroup :: b) ∨ Token.keyShares 0 ∈ tokens ∨
      (∃ a n tok b, tokens = a ++ .keyShares n :: tok :: b ∧ n ≠ 1 ∧ ¬ tok.IsKey ∧ tok ≠ .startGroup)) (c : ComplexCredential) :
    (parseComplexCredential env tokens dir skip t).1 ≠ .ok c := by
  intro h
  obtain ⟨⟨ms, thr, hb, -⟩, -⟩ := (Cli.parse_iff env tokens dir skip t _ c).mp (Prod.ext h rfl)
  have h1 := body_balanced hb
  have h2 := body_chain hb
  have h3 : ∀ a x y b, tokens = a ++ x :: y :: b → Follows x y := by
    intro a x y b he
    rw [he, List.isChain_append] at h2
    exact (List.isChain_cons_cons.mp h2.2.1).1
  rcases hbad with h | ⟨a, b, he⟩ | h | ⟨a, n, tok, b, he, hn, hk, hs⟩
  · exact h h1.1
  · exact (h3 _ _ _ _ he).1 rfl rfl
  · exact absurd (h1.2 0 h) (by decide)
  · rcases (h3 _ _ _ _ he).2 n rfl hn with h | h
    · exact hk h
    · exact hs h

/-- C44: outside of groups, the threshold is the one asked for: `--key-threshold k`, all with `--require-all-keys`, 1 by default.
So a threshold of 0 or above the number of shares is refused, as it contradicts `accepted_credential_wf`. -/
theorem threshold_is_asked (env : Env) (tokens : List Token) (skip : Bool) (t t' : Term) (c : ComplexCredential)
    (hg : Token.startGroup ∉ tokens) (h : parseComplexCredential env tokens .encrypt skip t = (.ok c, t')) :
    (∀ k, Token.keyThreshold k ∈ tokens → c.threshold = k) ∧ (Token.requireAllKeys ∈ tokens → c.threshold = c.numShares) ∧
      ((∀ k, Token.keyThreshold k ∉ tokens) → Token.requireAllKeys ∉ tokens → c.threshold = 1) ∧
      tokens.countP Token.isThreshold ≤ 1 := by
  obtain ⟨ms, thr, hb, hc⟩ := ((Cli.parse_iff _ _ _ _ _ _ _).mp h).1
  have h1 := body_thresholds hb
  have h2 := body_threshold hb hg
  have h3 := hc.threshold
  refine ⟨fun k hk => ?_, fun hk => ?_, fun hk1 hk2 => ?_, ?_⟩
  · rw [h2.1 k hk] at h3; exact h3
  · rw [h2.2.1 hk] at h3; exact h3
  · rw [h2.2.2 hk1 hk2] at h3; exact h3
  · rw [List.count_eq_zero_of_not_mem hg] at h1
    split at h1 <;> omega

/-- C44: there is at most one threshold option for the whole and one for each group; more are refused. -/
theorem repeated_threshold_refused (env : Env) (tokens : List Token) (dir : CryptDirection) (skip : Bool) (t : Term)
    (hbad : tokens.count .startGroup + 1 < tokens.countP Token.isThreshold) (c : ComplexCredential) :
    (parseComplexCredential env tokens dir skip t).1 ≠ .ok c := by
  intro h
  obtain ⟨⟨ms, thr, hb, -⟩, -⟩ := (Cli.parse_iff env tokens dir skip t _ c).mp (Prod.ext h rfl)
  have h1 := body_thresholds hb
  split at h1 <;> omega

/-- C44: `--key-shares` at the very end is accepted and ignored. -/
theorem dangling_shares_ignored (env : Env) (tokens : List Token) (n : Nat) (hn : 1 ≤ n) (skip : Bool) (t t' : Term)
    (c : ComplexCredential) (hne : ∀ k, tokens.getLast? ≠ some (.keyShares k))
    (h : parseComplexCredential env tokens .encrypt skip t = (.ok c, t')) :
    parseComplexCredential env (tokens ++ [.keyShares n]) .encrypt skip t = (.ok c, t') := by
  obtain ⟨ms, thr, hb, hc⟩ := ((Cli.parse_iff _ _ _ _ _ _ _).mp h).1
  exact (Cli.parse_iff _ _ _ _ _ _ _).mpr ⟨⟨ms, thr, body_dangling hn hb hne, hc⟩, by simp⟩

/-- Files of the examples: two passwords in `two`, one in `one`. -/
def credFiles : Env :=
  ⟨sampleHash, sampleHash_length, fun p => if p = "two".toList then some (Text.encode "a\nb\n".toList) else if p = "one".toList then some [120] else none⟩

/-- `(-a two) --key-shares 2 one -t 3`, i.e. both of "a", "b", or with another share "x". -/
def credTokens : List Token :=
  [.startGroup, .requireAllKeys, .passwordFile "two".toList, .endGroup, .keyShares 2, .passwordFile "one".toList, .keyThreshold 3]

/-- Is it this credential, up to its members? -/
def isCred (n threshold members : Nat) : Res ComplexCredential × Term → Bool
  | (.ok c, _) => decide (c.numShares = n ∧ c.threshold = threshold ∧ c.subCreds.length = members)
  | _ => false

/-- A terminal without user. -/
def noTerm : Term := ⟨[], true, false, false, 0, Spec.sampleTty, [], [], []⟩

example : isCred 3 3 2 (parseComplexCredential credFiles credTokens .encrypt false noTerm) = true ∧
    isCred 3 3 2 (parseComplexCredential credFiles (credTokens ++ [.keyShares 7]) .encrypt false noTerm) = true ∧
    isCred 3 3 2 (parseComplexCredential credFiles (credTokens ++ [.keyShares 7, .requireAllKeys]) .encrypt false noTerm) = false ∧
    isCred 2 1 2 (parseComplexCredential credFiles [.passwordFile "two".toList] .decrypt false noTerm) = true := by decide +kernel

/-! ## C71 -/

/-- C71: every well-formed credential whose passwords and keys are available can be asked for on the command line, however deeply
nested. -/
theorem every_credential_expressible (env : Env) (skip : Bool) (c : ComplexCredential) (hw : c.WF)
    (hs : ∀ l ∈ leavesOf c.subCreds, ∃ tok, ∀ t, Provides env .encrypt skip tok t [l] t) :
    ∃ tokens, ∀ t, parseComplexCredential env tokens .encrypt skip t = (.ok c, t) := by
  have hw' := hw
  unfold ComplexCredential.WF at hw'
  rw [Credential.WF] at hw'
  obtain ⟨h1, h2, h3, h4, h5⟩ := hw'
  obtain ⟨toks, -, ht⟩ := expressible_members env skip c.subCreds h5 (by omega) hs
  refine ⟨.keyThreshold c.threshold :: toks, fun t => (Cli.parse_iff _ _ _ _ _ _ _).mpr ⟨⟨c.subCreds, some (.threshold c.threshold),
    .threshold _ _ _ _ _ _ (ht true t), ?_⟩, by simp⟩⟩
  refine ⟨rfl, ?_, rfl, h3, h4⟩
  rw [totalShares_eq, ← h1, Nat.mod_eq_of_lt h2]

/-- C71: a public key can always be given as text. -/
theorem public_key_available (env : Env) (skip : Bool) (k : Bytes) (hk : k.length = 32) :
    ∃ text, ∀ t, Provides env .encrypt skip (.publicKeyText text) t [.publicKey k] t := by
  refine ⟨Hex.toHexStringChecksummed env.sha512 k, fun t => .publicKeyText _ t k rfl ((fromHex32_iff _ env.sha512_ne _ _ _).mp ?_)⟩
  unfold fromHex32
  rw [tryParseHex_checksummed env.sha512 k (env.sha512_ne k)]
  simp [hk]

example : ∃ tokens, ∀ t, parseComplexCredential credFiles tokens .encrypt false t =
    (.ok ⟨[(2, .complex [(1, .password [120]), (3, .complex [(1, .password [120])] 1 1)] 4 3), (1, .password [120])], 3, 2⟩, t) := by
  apply every_credential_expressible
  · simp [ComplexCredential.WF, Credential.WF, MembersWF, Rypt.totalShares]
  · intro l hl
    have hl : l = .password [120] := by simpa [leavesOf, Credential.leaves] using hl
    subst hl
    refine ⟨.passwordFile "one".toList, fun t => ?_⟩
    have h : KeyLines (credFiles.readFile "one".toList) [['x']] :=
      (keyLines_of_text ['x'] [['x']]).mpr (by decide +kernel)
    exact .passwordFile _ t [['x']] h (by simp)

/-! ## C45 -/

/-- C45: a credential accepted for encryption contains no private key, at any depth. -/
theorem no_private_key_for_encryption (env : Env) (args : List Arg) (ttys : Ttys) (ui ui' : Ui) (streams : List Stream)
    (policy : CleanupPolicy) (force fast : Bool) (c : ComplexCredential)
    (h : parseCommandLine env args ttys ui = (.ok (.cryptStreams streams policy force (.encrypt c fast)), ui')) :
    ∀ m ∈ c.subCreds, NoPrivate m.2 := by
  obtain ⟨m, hm, -⟩ := accepted_of h
  obtain ⟨typed, v, -, ms, thr, hb, hc⟩ := encryption_credential_is_typed env args ttys ui ui' _ _ ((Getopts.parse_iff args m).mp hm).1
    streams policy force fast c h
  rw [hc.subCreds]
  exact body_noPrivate hb

theorem decrypt_credentials (env : Env) (m : Matches) (force : Bool) (t t' : Term) (cs : List Credential)
    (h : getDecryptCredentials env m force t = (.ok cs, t')) : cs ≠ [] ∧ (∀ c ∈ cs, Usable c) ∧
      ∃ toks ms, extractTokens m = .ok toks ∧ Body env .decrypt force true (defaultTokens toks) t ms none t' ∧
        (∀ tok ∈ defaultTokens toks, tok.IsKey) ∧ cs = ms.map (·.2) ∧
        ∃ c, parseComplexCredential env (defaultTokens toks) .decrypt force t = (.ok c, t') ∧ c.subCreds = ms := by
  unfold getDecryptCredentials at h
  split at h
  · rename_i toks hx
    split at h
    · rename_i c t'' hp
      split at h
      · cases h
      split at h
      · cases h
      obtain ⟨⟨ms, thr, hb, hc⟩, hk⟩ := (Cli.parse_iff _ _ _ _ _ _ _).mp hp
      have hu := body_usable hb (hk rfl)
      have hne := closed_ne_nil hc
      rw [hc.subCreds] at h
      have := singleShares_eq (ms := ms) (fun m hm => (hu.2 m hm).1)
      rw [this] at h
      cases h
      refine ⟨by simpa using hne, fun c hc => ?_, toks, ms, hx, hu.1 ▸ hb, hk rfl, rfl, c, hp, hc.subCreds⟩
      obtain ⟨m, hm, rfl⟩ := List.mem_map.mp hc
      exact (hu.2 m hm).2
    · cases h
    · cases h
  · cases h
  · cases h

/-- C45: the credentials accepted for decryption are passwords, symmetric keys and private keys, and there is at least one. -/
theorem only_keys_for_decryption (env : Env) (args : List Arg) (ttys : Ttys) (ui ui' : Ui) (streams : List Stream)
    (policy : CleanupPolicy) (force : Bool) (cs : List Credential)
    (h : parseCommandLine env args ttys ui = (.ok (.cryptStreams streams policy force (.decrypt cs)), ui')) :
    cs ≠ [] ∧ ∀ c ∈ cs, Usable c := by
  obtain ⟨m, hm, -, ha⟩ := accepted_of h
  cases ha with
  | keypair streams h1 h2 h3 h4 h5 => cases h4
  | help h1 h2 h3 => cases h2
  | version h1 h2 h3 h4 => cases h3
  | crypt dir streams' policy' ui1 h1 h2 h3 h4 h5 h6 =>
    obtain ⟨-, -, ⟨rfl, c, hc, h7⟩ | ⟨rfl, cs, hc, h7⟩⟩ := cryptCommand_ok h6
    · cases h7
    cases h7
    obtain ⟨h1, h2, -⟩ := decrypt_credentials _ _ _ _ _ _ hc
    exact ⟨h1, h2⟩

/-- C45: the credentials for decryption are all the keys that the options of the command line provide, in the order typed; without
any option, a password asked for. -/
theorem decryption_credentials_complete (env : Env) (args : List Arg) (ttys : Ttys) (ui ui' : Ui) (occs : List Occ) (free : List Arg)
    (ht : Typed 0 args occs free) (streams : List Stream) (policy : CleanupPolicy) (force : Bool) (cs : List Credential)
    (h : parseCommandLine env args ttys ui = (.ok (.cryptStreams streams policy force (.decrypt cs)), ui')) :
    ∃ typed v, TypedTokens occs typed ∧
      ProvidesAll env .decrypt force (if typed = [] then [.interactivePassword] else typed) { ui.term with verbosity := v } cs ui'.term := by
  obtain ⟨m, hm, -, ha⟩ := accepted_of h
  obtain ⟨rfl, rfl⟩ := typed_unique ht ((Getopts.parse_iff args m).mp hm).1
  cases ha with
  | keypair streams h1 h2 h3 h4 h5 => cases h4
  | help h1 h2 h3 => cases h2
  | version h1 h2 h3 h4 => cases h3
  | crypt dir streams' policy' ui1 h1 h2 h3 h4 h5 h6 =>
    obtain ⟨-, -, ⟨rfl, c, hc, h7⟩ | ⟨rfl, cs, hc, h7⟩⟩ := cryptCommand_ok h6
    · cases h7
    cases h7
    obtain ⟨-, -, toks, ms, he, hb, hk, rfl, c, hp, rfl⟩ := decrypt_credentials _ _ _ _ _ _ hc
    obtain ⟨v, hv, -⟩ := check_term (isData_of_streams h3) h4
    obtain ⟨typed, htt, -, hp'⟩ := extract_typed (env := env) (dir := .decrypt) (skip := m.present .force) ht he
    refine ⟨typed, v, htt, ?_⟩
    obtain ⟨⟨ms', thr, hb', hc'⟩, hk'⟩ := (Cli.parse_iff _ _ _ _ _ _ _).mp (hp' _ _ _ hp)
    have := body_providesAll hb' (hk' rfl)
    rw [← hc'.subCreds, hv] at this
    unfold defaultTokens at this
    simpa [List.isEmpty_iff] using this

/-! ## C80 -/

theorem typed_mem {occs : List Occ} {typed : List Token} (h : TypedTokens occs typed) {x : Occ} (hx : x ∈ occs)
    (ha : aboutCredentials x.opt = true) : ∃ tok ∈ typed, IsToken x tok := by
  induction h with
  | nil => cases hx
  | skip y occs toks hy _ ih =>
    rcases List.mem_cons.mp hx with rfl | hx
    · rw [ha] at hy; cases hy
    · exact ih hx
  | cons y occs tok toks hy _ ih =>
    rcases List.mem_cons.mp hx with rfl | hx
    · exact ⟨tok, by simp, hy⟩
    · obtain ⟨tok', h1, h2⟩ := ih hx
      exact ⟨tok', by simp [h1], h2⟩

theorem conversion_provides (env : Env) (args : List Arg) (ttys : Ttys) (ui ui' : Ui) (occs : List Occ) (free : List Arg)
    (ht : Typed 0 args occs free) (streams : List Stream) (policy : CleanupPolicy) (force : Bool) (d : DirectionOpts)
    (h : parseCommandLine env args ttys ui = (.ok (.cryptStreams streams policy force d), ui')) (x : Occ) (hx : x ∈ occs)
    (ha : aboutCredentials x.opt = true) :
    ∃ tok, IsToken x tok ∧ (tok.IsKey → ∃ t cs t', Provides env d.dir force tok t cs t') := by
  have hdef : ∀ (typed : List Token) tok, tok ∈ typed → tok ∈ (if typed = [] then [Token.interactivePassword] else typed) := by
    intro typed tok htok
    rw [if_neg (by rintro rfl; cases htok)]
    exact htok
  cases d with
  | encrypt c fast =>
    obtain ⟨typed, v, htt, ms, thr, hb, -⟩ := encryption_credential_is_typed env args ttys ui ui' occs free ht streams policy force fast c h
    obtain ⟨tok, h1, h2⟩ := typed_mem htt hx ha
    exact ⟨tok, h2, fun hk => body_provides hb tok (hdef _ _ h1) hk⟩
  | decrypt cs =>
    obtain ⟨typed, v, htt, hb⟩ := decryption_credentials_complete env args ttys ui ui' occs free ht streams policy force cs h
    obtain ⟨tok, h1, h2⟩ := typed_mem htt hx ha
    exact ⟨tok, h2, fun hk => body_provides (top := true) (body_of_providesAll hb) tok (hdef _ _ h1) hk⟩

/-- C80: without `--force`, a conversion is refused if one of the public or private keys named on the command line is not hex text of
the right length with the letter case that the checksum asks for. -/
theorem mistyped_key_refused (env : Env) (args : List Arg) (ttys : Ttys) (ui : Ui) (occs : List Occ) (free : List Arg)
    (ht : Typed 0 args occs free) (hf : ¬ Given occs .force)
    (hbad : (∃ pos text, ⟨.publicKeyText, pos, some text⟩ ∈ occs ∧ ∀ k, ¬ IsKeyText env.sha512 true text k) ∨
      (∃ pos path ls l, ⟨.publicKey, pos, some path⟩ ∈ occs ∧ KeyLines (env.readFile path) ls ∧ l ∈ ls ∧
        ∀ k, ¬ IsKeyText env.sha512 true l k) ∨
      (∃ pos path ls l, ⟨.privateKey, pos, some path⟩ ∈ occs ∧ KeyLines (env.readFile path) ls ∧ l ∈ ls ∧
        ∀ k, ¬ IsPrivateKeyText env.sha512 true l k))
    (streams : List Stream) (policy : CleanupPolicy) (force : Bool) (d : DirectionOpts) :
    (parseCommandLine env args ttys ui).1 ≠ .ok (.cryptStreams streams policy force d) := by
  intro h
  have h : parseCommandLine env args ttys ui = (.ok (.cryptStreams streams policy force d), _) := Prod.ext h rfl
  have hforce : force = false := by
    rw [← Bool.not_eq_true, (flags_reach_command env args ttys ui _ occs free ht streams policy force d h).1]; exact hf
  subst hforce
  rcases hbad with ⟨pos, text, hx, hb⟩ | ⟨pos, path, ls, l, hx, hls, hl, hb⟩ | ⟨pos, path, ls, l, hx, hls, hl, hb⟩
  · obtain ⟨tok, htok, hp⟩ := conversion_provides env args ttys ui _ occs free ht streams policy _ d h _ hx rfl
    cases htok
    obtain ⟨t, cs, t', hp⟩ := hp trivial
    cases hp with
    | publicKeyText _ _ k _ hk => exact hb k hk
  · obtain ⟨tok, htok, hp⟩ := conversion_provides env args ttys ui _ occs free ht streams policy _ d h _ hx rfl
    cases htok
    obtain ⟨t, cs, t', hp⟩ := hp trivial
    cases hp with
    | publicKeyFile _ _ ls' ks _ h1 _ h2 =>
      rw [keyLines_unique hls h1] at hl
      obtain ⟨k, -, hk⟩ := forall₂_left h2 hl
      exact hb k hk
  · obtain ⟨tok, htok, hp⟩ := conversion_provides env args ttys ui _ occs free ht streams policy _ d h _ hx rfl
    cases htok
    obtain ⟨t, cs, t', hp⟩ := hp trivial
    cases hp with
    | privateKeyFile _ _ ls' ks _ h1 _ h2 =>
      rw [keyLines_unique hls h1] at hl
      obtain ⟨k, -, hk⟩ := forall₂_left h2 hl
      exact hb k hk

/-- C80: an empty or unreadable key file, or one that is not text, refuses the conversion, with or without `--force`. -/
theorem empty_key_file_refused (env : Env) (args : List Arg) (ttys : Ttys) (ui : Ui) (occs : List Occ) (free : List Arg)
    (ht : Typed 0 args occs free) (o : Opt) (ho : o = .passwordFile ∨ o = .symmetricKey ∨ o = .publicKey ∨ o = .privateKey)
    (pos : Nat) (path : Arg) (hx : ⟨o, pos, some path⟩ ∈ occs) (hbad : ∀ ls, KeyLines (env.readFile path) ls → ls = [])
    (streams : List Stream) (policy : CleanupPolicy) (force : Bool) (d : DirectionOpts) :
    (parseCommandLine env args ttys ui).1 ≠ .ok (.cryptStreams streams policy force d) := by
  intro h
  have h : parseCommandLine env args ttys ui = (.ok (.cryptStreams streams policy force d), _) := Prod.ext h rfl
  obtain ⟨tok, htok, hp⟩ := conversion_provides env args ttys ui _ occs free ht streams policy _ d h _ hx
    (by rcases ho with rfl | rfl | rfl | rfl <;> rfl)
  rcases ho with rfl | rfl | rfl | rfl
  all_goals
    cases htok
    obtain ⟨t, cs, t', hp⟩ := hp trivial
    cases hp
    exact absurd (hbad _ ‹_›) ‹_›

/-- The key of the examples, with the right and the wrong case. -/
def goodKeyText : List Char := (Hex.toHexStringChecksummed sampleHash samplePair.1)
/-- See `goodKeyText`. -/
def badKeyText : List Char := goodKeyText.map Char.toUpper

theorem badKeyText_bad (k : Bytes) : ¬ IsKeyText sampleHash true badKeyText k := by
  have hne : ∀ b, sampleHash b ≠ [] := fun b h => by have := sampleHash_length b; simp [h] at this
  intro h
  have := (fromHex32_iff sampleHash hne badKeyText false k).mpr h
  have h2 : (match fromHex32 sampleHash badKeyText false with | .err _ => true | _ => false) = true := by decide +kernel
  rw [this] at h2
  cases h2

/-- `--public-key-text TEXT f` -/
def keyTextArgs (text : List Char) : List Arg := ["--public-key-text".toList, text, "f".toList]

/-- Is it accepted? -/
def isAccepted (r : Res Command × Ui) : Bool :=
  match r.1 with
  | .ok _ => true
  | _ => false

example : (∃ occs free, Typed 0 (keyTextArgs badKeyText) occs free ∧ ¬ Given occs .force ∧
      ⟨.publicKeyText, 0, some badKeyText⟩ ∈ occs) ∧
    isAccepted (parseCommandLine sampleEnv (keyTextArgs badKeyText) ⟨true, true, true⟩ ⟨noTerm, false⟩) = false ∧
    isAccepted (parseCommandLine sampleEnv (keyTextArgs goodKeyText) ⟨true, true, true⟩ ⟨noTerm, false⟩) = true ∧
    isAccepted (parseCommandLine sampleEnv ("-f".toList :: keyTextArgs badKeyText) ⟨true, true, true⟩ ⟨noTerm, false⟩) = true := by
  refine ⟨?_, by decide +kernel⟩
  have h : parse (keyTextArgs badKeyText) = .ok ⟨[⟨.publicKeyText, 0, some badKeyText⟩], ["f".toList]⟩ := by decide +kernel
  exact ⟨_, _, ((Getopts.parse_iff _ _).mp h).1, by simp [Given], by simp⟩

/-! ## C81 -/

/-- Up to the credentials nothing depends on the contents of files. -/
theorem conversion_reaches_credentials (env : Env) (args : List Arg) (ttys : Ttys) (ui : Ui) (occs : List Occ) (free : List Arg)
    (ht : Typed 0 args occs free) (hd : NoDuplicates occs) (hv : -2 ≤ askedVerbosity occs ∧ askedVerbosity occs ≤ 2)
    (hne : ¬ (args = [] ∧ ttys.stdout = true)) (dir : CryptDirection) (hl : LastMode occs (.crypt dir))
    (hs1 : Given occs .stream → free.length ≤ 1) (hs2 : ¬ Given occs .stream → free ≠ [['-']] → ∀ a ∈ free, ¬ TrimsTo a ['-'])
    (hterm : ¬ Given occs .force →
      (dir = .encrypt → Given occs .stream ∨ free = [] ∨ free = [['-']] → ttys.stdout = false) ∧
      (dir = .decrypt → free = [] ∨ free = [['-']] → ttys.stdin = false))
    (hpol : ¬ (Given occs .keepInputs ∧ Given occs .discardInputs))
    (typed : List Token) (htt : TypedTokens occs typed)
    (hsep : occs.Pairwise (fun x y => aboutCredentials x.opt = true → aboutCredentials y.opt = true → x.pos ≠ y.pos))
    (force : Bool) (hforce : force = true ↔ Given occs .force) :
    ∃ streams policy v ui1, ((askedVerbosity occs ≠ 0 → v = askedVerbosity occs) ∧ (askedVerbosity occs = 0 → v = 1 ∨ v = -1)) ∧
      ui1.term = { ui.term with verbosity := v } ∧ extractTokens ⟨occs, free⟩ = .ok typed ∧
      (⟨occs, free⟩ : Matches).present .force = force ∧
      parseCommandLine env args ttys ui = cryptCommand env ⟨occs, free⟩ streams policy dir ui1 := by
  have hf' : (⟨occs, free⟩ : Matches).present .force = force := by
    rw [Bool.eq_iff_iff, present_iff, hforce]; rfl
  have hm : getMode ⟨occs, free⟩ = .crypt dir := last_mode_unique _ _ _ (getMode_last ⟨occs, free⟩) hl
  have hst : (⟨occs, free⟩ : Matches).present .stream = true ↔ Given occs .stream := present_iff _ _
  obtain ⟨streams, hs, hct⟩ : ∃ streams, getInputOutputStreams ⟨occs, free⟩ dir force = .ok streams ∧
      (force = true ∨ ¬ CipherOnTerminal dir streams ttys) := by
    have hcf : ∀ (P : Prop), (¬ Given occs .force → ¬ P) → force = true ∨ ¬ P := by
      intro P h
      by_cases hg : Given occs .force
      · exact .inl (hforce.mpr hg)
      · exact .inr (h hg)
    rcases streams_cases ⟨occs, free⟩ dir force with ⟨hs, ⟨h2, e, h'⟩ | ⟨i, h', hi⟩⟩ | ⟨hs, ⟨⟨a, ha, hdash⟩, e, h'⟩ | ⟨hno, h'⟩⟩
    · exfalso
      rw [hst] at hs
      have h2 : 2 ≤ free.length := h2
      rcases hs with hs | hs | hs
      · have := hs1 hs; omega
      · rw [show free = [] from hs] at h2; simp at h2
      · rw [show free = [['-']] from hs] at h2; simp at h2
    · refine ⟨_, h', hcf _ fun hg hc => ?_⟩
      have hterm := hterm hg
      rcases hc with ⟨rfl, ⟨s, hs', hin⟩, htty⟩ | ⟨rfl, -, htty⟩
      · rw [List.mem_singleton.mp hs'] at hin
        rcases hi with ⟨-, hi⟩ | ⟨p, rfl, -⟩
        · rw [hterm.2 rfl hi] at htty; cases htty
        · cases hin
      · rw [hst] at hs
        rw [hterm.1 rfl hs] at htty; cases htty
    · exfalso
      rw [hst] at hs
      exact hs2 (fun h => hs (.inl h)) (fun h => hs (.inr (.inr h))) a ha (Text.trim_iff.mp hdash)
    · refine ⟨_, h', .inr fun hc => ?_⟩
      obtain ⟨h1, h2⟩ := isData_of_streams h'
      have ho : ∀ r, fileOutput r ≠ some .stdout := by intro r; cases r <;> simp [fileOutput]
      rcases hc with ⟨-, ⟨s, hs', hin⟩, -⟩ | ⟨-, ⟨s, hs', hin⟩, -⟩
      · obtain ⟨a, -, rfl⟩ := List.mem_map.mp hs'; cases hin
      · obtain ⟨a, -, rfl⟩ := List.mem_map.mp hs'; exact ho _ hin
  have hd' := isData_of_streams hs
  have hck := (check_iff (ui := ui.setVerbosity (askedVerbosity occs)) (v := askedVerbosity occs) (dir := dir)
    (force := force) (ttys := ttys) hd').1.mpr hct
  obtain ⟨ui1, hck⟩ : ∃ ui1, checkAndAdjustUiVerbosity (ui.setVerbosity (askedVerbosity occs)) (askedVerbosity occs) streams dir force ttys
      = (.ok (), ui1) := ⟨_, Prod.ext hck rfl⟩
  obtain ⟨v, hv', hv1⟩ := check_term hd' hck
  obtain ⟨policy, hp⟩ : ∃ policy, cleanupPolicy ⟨occs, free⟩ = .ok policy := by
    unfold Given at hpol
    rw [show (∃ x ∈ occs, x.opt = .keepInputs) ↔ _ from (present_iff ⟨occs, free⟩ .keepInputs).symm,
      show (∃ x ∈ occs, x.opt = .discardInputs) ↔ _ from (present_iff ⟨occs, free⟩ .discardInputs).symm] at hpol
    unfold cleanupPolicy
    split <;> simp_all
  have hx := extract_separate (m := ⟨occs, free⟩) ht htt hsep
  have hall : parseCommandLine env args ttys ui = cryptCommand env ⟨occs, free⟩ streams policy dir ui1 := by
    unfold parseCommandLine
    rw [parse_of_typed ht hd]
    dsimp only
    rw [verbosity_eq, if_neg (not_not_intro hv)]
    have he : (args.isEmpty && ttys.stdout) = false := by
      rw [← Bool.not_eq_true]
      intro h; apply hne; simpa using h
    rw [he]
    simp only [Bool.false_eq_true, if_false]
    rw [hm]
    dsimp only
    rw [hf', hs]
    dsimp only
    rw [hck]
    dsimp only
    rw [hp]
  exact ⟨streams, policy, v, ui1, hv1, hv', hx, hf', hall⟩

/-- C81: a conversion is accepted whenever the command line can be read, the files fit together, no encrypted data would be on a
terminal (or `--force` is given), and the credential options, each in an argument of its own, describe a credential; without
credential options a password is asked for. -/
theorem conversion_accepted (env : Env) (args : List Arg) (ttys : Ttys) (ui : Ui) (occs : List Occ) (free : List Arg)
    (ht : Typed 0 args occs free) (hd : NoDuplicates occs) (hv : -2 ≤ askedVerbosity occs ∧ askedVerbosity occs ≤ 2)
    (hne : ¬ (args = [] ∧ ttys.stdout = true)) (dir : CryptDirection) (hl : LastMode occs (.crypt dir))
    (hs1 : Given occs .stream → free.length ≤ 1) (hs2 : ¬ Given occs .stream → free ≠ [['-']] → ∀ a ∈ free, ¬ TrimsTo a ['-'])
    (hterm : ¬ Given occs .force →
      (dir = .encrypt → Given occs .stream ∨ free = [] ∨ free = [['-']] → ttys.stdout = false) ∧
      (dir = .decrypt → free = [] ∨ free = [['-']] → ttys.stdin = false))
    (hpol : ¬ (Given occs .keepInputs ∧ Given occs .discardInputs))
    (typed : List Token) (htt : TypedTokens occs typed)
    (hsep : occs.Pairwise (fun x y => aboutCredentials x.opt = true → aboutCredentials y.opt = true → x.pos ≠ y.pos))
    (force : Bool) (hforce : force = true ↔ Given occs .force) :
    ∃ streams policy v, ((askedVerbosity occs ≠ 0 → v = askedVerbosity occs) ∧ (askedVerbosity occs = 0 → v = 1 ∨ v = -1)) ∧
      (dir = .encrypt → ∀ c t', Describes env .encrypt force (if typed = [] then [.interactivePassword] else typed)
          { ui.term with verbosity := v } c t' →
        ∃ fast ui', parseCommandLine env args ttys ui = (.ok (.cryptStreams streams policy force (.encrypt c fast)), ui') ∧
          ui'.term = t') ∧
      (dir = .decrypt → ∀ cs t', ProvidesAll env .decrypt force (if typed = [] then [.interactivePassword] else typed)
          { ui.term with verbosity := v } cs t' → cs.length < 2 ^ 64 →
        ∃ ui', parseCommandLine env args ttys ui = (.ok (.cryptStreams streams policy force (.decrypt cs)), ui') ∧
          ui'.term = t') := by
  obtain ⟨streams, policy, v, ui1, hv1, hv', hx, hf', hall⟩ := conversion_reaches_credentials env args ttys ui occs free ht hd hv hne dir hl
    hs1 hs2 hterm hpol typed htt hsep force hforce
  have hdef : defaultTokens typed = if typed = [] then [.interactivePassword] else typed := by
    unfold defaultTokens; simp [List.isEmpty_iff]
  refine ⟨streams, policy, v, hv1, ?_, ?_⟩
  · rintro rfl c t' hdesc
    have := (Cli.parse_iff env _ .encrypt force _ _ _).mpr ⟨hdesc, by simp⟩
    rw [hall]
    unfold cryptCommand
    dsimp only
    unfold getEncryptCredential
    rw [hx]
    dsimp only
    rw [hf', hdef, hv', this]
    exact ⟨_, _, rfl, rfl⟩
  · rintro rfl cs t' hprov hlen
    have hb := body_of_providesAll (top := true) hprov
    have hne' := providesAll_ne hprov (by split <;> simp_all)
    have hkeys : ∀ tok ∈ (if typed = [] then [Token.interactivePassword] else typed), tok.IsKey := providesAll_keys hprov
    have htot : Cli.totalShares (cs.map (1, ·)) = cs.length := by rw [totalShares_map, Nat.one_mul]
    have hpos : 0 < cs.length := List.length_pos_iff.mpr hne'
    have hclosed : Closed (cs.map (1, ·)) none ⟨cs.map (1, ·), cs.length, 1⟩ :=
      ⟨rfl, by rw [htot, Nat.mod_eq_of_lt hlen], rfl, Nat.le_refl _, hpos⟩
    have := (Cli.parse_iff env _ .decrypt force _ _ _).mpr ⟨⟨_, _, hb, hclosed⟩, fun _ => hkeys⟩
    rw [hall]
    unfold cryptCommand
    dsimp only
    unfold getDecryptCredentials
    rw [hx]
    dsimp only
    rw [hf', hdef, hv', this]
    dsimp only
    rw [if_neg (by omega), if_neg (by simp), singleShares_eq (by simp)]
    dsimp only
    rw [List.map_map, show ((fun m : Nat × Credential => m.2) ∘ fun x => (1, x)) = id from rfl, List.map_id]
    exact ⟨_, rfl, rfl⟩

/-- A password typed properly is what asking for a password provides. -/
theorem typed_password_provided (env : Env) (skip : Bool) (dir : CryptDirection) (t : Term) (pw : List Char) (pre l rest : List UI.Input)
    (hc : CanPrompt t) (hw : WritesWork t) (hpre : Attempts dir pre) (hne : pw ≠ []) (hl : Entered dir pw l)
    (hst : t.stdin = pre ++ l ++ rest) :
    ∃ t', t'.stdin = rest ∧ Provides env dir skip .interactivePassword t [.password (utf8 pw)] t' := by
  obtain ⟨t', h1, h2⟩ := password_confirmed_is_used dir t none pw pre l rest hc hw hpre hne hl hst
  exact ⟨t', h2, .password _ _ _ h1⟩

/-- C81: without credential options, a password typed properly at a terminal (twice when encrypting, perhaps after failed attempts)
is what the conversion is done with, and nothing beyond it is read. -/
theorem default_password (env : Env) (args : List Arg) (ttys : Ttys) (ui : Ui) (occs : List Occ) (free : List Arg)
    (ht : Typed 0 args occs free) (hd : NoDuplicates occs) (hv : -1 ≤ askedVerbosity occs ∧ askedVerbosity occs ≤ 2)
    (hne : ¬ (args = [] ∧ ttys.stdout = true)) (dir : CryptDirection) (hl : LastMode occs (.crypt dir))
    (hs1 : Given occs .stream → free.length ≤ 1) (hs2 : ¬ Given occs .stream → free ≠ [['-']] → ∀ a ∈ free, ¬ TrimsTo a ['-'])
    (hterm : ¬ Given occs .force →
      (dir = .encrypt → Given occs .stream ∨ free = [] ∨ free = [['-']] → ttys.stdout = false) ∧
      (dir = .decrypt → free = [] ∨ free = [['-']] → ttys.stdin = false))
    (hpol : ¬ (Given occs .keepInputs ∧ Given occs .discardInputs))
    (hnone : TypedTokens occs [])
    (hsep : occs.Pairwise (fun x y => aboutCredentials x.opt = true → aboutCredentials y.opt = true → x.pos ≠ y.pos))
    (hcan : ui.term.hasInput = true ∧ ui.term.inputIsTty = true ∧ ui.term.outputIsTty = true) (hw : WritesWork ui.term)
    (pw : List Char) (hpw : pw ≠ []) (pre l rest : List UI.Input) (hpre : Attempts dir pre) (hen : Entered dir pw l)
    (hst : ui.term.stdin = pre ++ l ++ rest) :
    ∃ streams policy force op ui', (force = true ↔ Given occs .force) ∧
      parseCommandLine env args ttys ui = (.ok (.cryptStreams streams policy force op), ui') ∧ ui'.term.stdin = rest ∧
      (dir = .encrypt → ∃ fast, op = .encrypt ⟨[(1, .password (utf8 pw))], 1, 1⟩ fast) ∧
      (dir = .decrypt → op = .decrypt [.password (utf8 pw)]) := by
  obtain ⟨force, hforce⟩ : ∃ force : Bool, force = true ↔ Given occs .force := by
    by_cases h : Given occs .force
    · exact ⟨true, by simp [h]⟩
    · exact ⟨false, by simp [h]⟩
  obtain ⟨streams, policy, v, hv', he, hdec⟩ := conversion_accepted env args ttys ui occs free ht hd ⟨by omega, hv.2⟩ hne dir hl hs1 hs2
    hterm hpol [] hnone hsep force hforce
  have hvm : -1 ≤ v := by
    by_cases h0 : askedVerbosity occs = 0
    · rcases hv'.2 h0 with h | h <;> omega
    · have := hv'.1 h0; omega
  obtain ⟨t', hrest, hp⟩ := typed_password_provided env force dir { ui.term with verbosity := v } pw pre l rest
    ⟨hcan.1, hcan.2.1, hcan.2.2, hvm⟩ hw hpre hpw hen hst
  cases dir with
  | encrypt =>
    obtain ⟨fast, ui', h, hu⟩ := he rfl ⟨[(1, .password (utf8 pw))], 1, 1⟩ t'
      ⟨_, _, .keys true [] 1 .interactivePassword [] _ _ _ _ _ _ .default trivial hp (by simp) (.nil _ _), rfl, rfl, rfl,
        Nat.le_refl 1, Nat.le_refl 1⟩
    exact ⟨streams, policy, force, _, ui', hforce, h, by rw [hu]; exact hrest, fun _ => ⟨fast, rfl⟩, by simp⟩
  | decrypt =>
    obtain ⟨ui', h, hu⟩ := hdec rfl [.password (utf8 pw)] t' (.cons _ _ _ _ _ _ [] hp (.nil _)) (by simp)
    exact ⟨streams, policy, force, _, ui', hforce, h, by rw [hu]; exact hrest, by simp, fun _ => rfl⟩

/-- `rypt f` at a terminal where the user types `pw` twice: accepted with the password. -/
example : ∃ streams policy fast ui',
    parseCommandLine sampleEnv ["f".toList] allTtys ⟨{ sampleUi.term with stdin := typed "pw\npw\n".toList }, false⟩ =
      (.ok (.cryptStreams streams policy false (.encrypt ⟨[(1, .password (utf8 "pw".toList))], 1, 1⟩ fast)), ui') := by
  have h : parse ["f".toList] = .ok ⟨[], ["f".toList]⟩ := by decide +kernel
  obtain ⟨h1, h2⟩ := (Getopts.parse_iff _ _).mp h
  obtain ⟨streams, policy, force, op, ui', hf, hp, -, he, -⟩ := default_password sampleEnv ["f".toList] allTtys
    ⟨{ sampleUi.term with stdin := typed "pw\npw\n".toList }, false⟩ [] ["f".toList] h1 h2 (by decide) (by simp) .encrypt
    (.inl ⟨by simp, rfl⟩) (by simp [Given]) (fun _ _ a ha => by
      rw [List.mem_singleton.mp ha, ← Text.trim_iff]; decide +kernel) (by simp [Given]) (by simp [Given]) .nil .nil
    ⟨rfl, rfl, rfl⟩ (by simp [WritesWork, sampleUi]) "pw".toList (by decide) [] (typed "pw\npw\n".toList) [] .nil
    ⟨typed "pw\n".toList, typed "pw\n".toList, rfl, .lf "pw".toList (by decide) (by decide), .lf "pw".toList (by decide) (by decide)⟩
    (by simp)
  obtain ⟨fast, rfl⟩ := he rfl
  have : force = false := by simpa [Given] using hf
  subst this
  exact ⟨streams, policy, fast, ui', hp⟩

/-! ## C73 -/

/-- C73, the part that holds: parsing a command line never crashes, except by a line of a private key file that crashes the reader
of private keys (see C54), when decrypting. Missing: such files. -/
theorem command_line_no_panic_partial (env : Env) (args : List Arg) (ttys : Ttys) (ui : Ui)
    (hf : ∀ path bytes text, env.readFile path = some bytes → Text.fromUtf8 bytes = .ok text →
      ∀ line ∈ Text.lines text, ∀ skip, fromHex64PrivateKey env.sha512 (Text.trim line) skip ≠ .panic) :
    (parseCommandLine env args ttys ui).1 ≠ .panic := parseCommandLine_no_panic env args ttys ui hf

/-- C73: so it does not when all files are ASCII. -/
theorem command_line_no_panic_ascii_partial (env : Env) (args : List Arg) (ttys : Ttys) (ui : Ui)
    (hf : ∀ path bytes text, env.readFile path = some bytes → Text.fromUtf8 bytes = .ok text → ∀ c ∈ text, c.toNat < 128) :
    (parseCommandLine env args ttys ui).1 ≠ .panic := by
  refine command_line_no_panic_partial env args ttys ui (fun path bytes text h1 h2 line hl skip => ?_)
  refine private_key_line_no_panic_partial _ _ _ (fun c hc => hf path bytes text h1 h2 c ?_)
  exact mem_of_lines hl (mem_of_trim hc)

/-- C73: the full claim fails: a private key file with a non-ASCII line of 128 bytes crashes the program. -/
theorem command_line_can_panic : ¬ ∀ (env : Env) (args : List Arg) (ttys : Ttys) (ui : Ui), (parseCommandLine env args ttys ui).1 ≠ .panic := by
  intro h
  refine h ⟨sampleHash, sampleHash_length, fun _ => some (Text.encode (List.replicate 63 'a' ++ ['é'] ++ List.replicate 63 'a'))⟩
    ["-d".toList, "--private-key".toList, "k".toList, "f".toList] ⟨true, true, true⟩ ⟨noTerm, false⟩ ?_
  have : isPanic (parseCommandLine ⟨sampleHash, sampleHash_length, fun _ => some (Text.encode (List.replicate 63 'a' ++ ['é'] ++ List.replicate 63 'a'))⟩
    ["-d".toList, "--private-key".toList, "k".toList, "f".toList] ⟨true, true, true⟩ ⟨noTerm, false⟩).1 = true := by decide +kernel
  exact isPanic_iff.mp this

example : ∀ path bytes text, credFiles.readFile path = some bytes → Text.fromUtf8 bytes = .ok text → ∀ c ∈ text, c.toNat < 128 := by
  intro path bytes text h1 h2
  have key : ∀ b, b = Text.encode "a\nb\n".toList ∨ b = [120] → Text.fromUtf8 b = .ok text → ∀ c ∈ text, c.toNat < 128 := by
    rintro b (rfl | rfl) h
    · rw [show Text.fromUtf8 (Text.encode "a\nb\n".toList) = .ok "a\nb\n".toList from by decide +kernel] at h
      cases h; decide
    · rw [show Text.fromUtf8 [120] = .ok ['x'] from by decide +kernel] at h
      cases h; decide
  refine key bytes ?_ h2
  unfold credFiles at h1
  dsimp only at h1
  split at h1
  · exact .inl (by cases h1; rfl)
  · split at h1
    · exact .inr (by cases h1; rfl)
    · cases h1

/-! ## C72 -/

/-- C72, the part that holds: building the header for a credential from the command line never crashes, unless the share counts of
a group add up to 2^64 or more. Missing: such share counts, see `huge_shares_panic`. -/
theorem accepted_credential_no_panic_partial (env : Env) (args : List Arg) (ttys : Ttys) (ui ui' : Ui) (streams : List Stream)
    (policy : CleanupPolicy) (force fast : Bool) (c : ComplexCredential)
    (h : parseCommandLine env args ttys ui = (.ok (.cryptStreams streams policy force (.encrypt c fast)), ui')) (hw : c.NoWrap)
    (L : CryptoLib) (hL : ∀ alg, L.instantiate alg ≠ .panic) (draw : Nat) (tape : Tape) :
    encryptHeader L ⟨c, fast⟩ draw tape ≠ .panic := by
  obtain ⟨m, hm, -⟩ := accepted_of h
  obtain ⟨typed, t, -, hd⟩ := encryption_credential_is_typed env args ttys ui ui' _ _ ((Getopts.parse_iff args m).mp hm).1
    streams policy force fast c h
  exact encryptHeader_no_panic hL (describes_wf hd hw) draw tape

/-- C72: and for such share counts no header is ever made: the outcome is an error or a crash. -/
theorem accepted_credential_no_header_if_wraps (env : Env) (args : List Arg) (ttys : Ttys) (ui ui' : Ui) (streams : List Stream)
    (policy : CleanupPolicy) (force fast : Bool) (c : ComplexCredential)
    (h : parseCommandLine env args ttys ui = (.ok (.cryptStreams streams policy force (.encrypt c fast)), ui')) (hw : ¬ c.NoWrap)
    (L : CryptoLib) (draw : Nat) (tape : Tape) (r : Bytes × Codec × Nat) : encryptHeader L ⟨c, fast⟩ draw tape ≠ .ok r := by
  intro he
  obtain ⟨m, hm, -⟩ := accepted_of h
  obtain ⟨typed, t, -, hd⟩ := encryption_credential_is_typed env args ttys ui ui' _ _ ((Getopts.parse_iff args m).mp hm).1
    streams policy force fast c h
  exact hw (encryptHeader_noWrap hd he)

/-- Share counts that add up to 2^64 + 2. -/
def hugeArgs : List Arg :=
  ["--key-shares".toList, "18446744073709551615".toList, "--password-file".toList, "one".toList,
    "--key-shares".toList, "3".toList, "--password-file".toList, "one".toList, "f".toList]

/-- The outcome of parsing and then building the header. -/
def headerOutcome (r : Res Command × Ui) : Option (Res (Bytes × Codec × Nat)) :=
  match r.1 with
  | .ok (.cryptStreams _ _ _ (.encrypt c fast)) => some (encryptHeader Toy.lib ⟨c, fast⟩ 5 Sample.tape)
  | _ => none

/-- C72: the full claim fails: the sum of share counts wraps to 2, two key parts are made, and handing out 2^64 - 1 of them crashes. -/
theorem huge_shares_panic : ∃ streams policy force c fast ui',
    parseCommandLine credFiles hugeArgs ⟨true, true, true⟩ ⟨noTerm, false⟩ = (.ok (.cryptStreams streams policy force (.encrypt c fast)), ui') ∧
      c.numShares = 2 ∧ encryptHeader Toy.lib ⟨c, fast⟩ 5 Sample.tape = .panic := by
  have h : (match (parseCommandLine credFiles hugeArgs ⟨true, true, true⟩ ⟨noTerm, false⟩).1 with
    | .ok (.cryptStreams _ _ _ (.encrypt c fast)) => decide (c.numShares = 2) && isPanic (encryptHeader Toy.lib ⟨c, fast⟩ 5 Sample.tape)
    | _ => false) = true := by decide +kernel
  split at h
  · rename_i streams policy force c fast hr
    rw [Bool.and_eq_true, decide_eq_true_eq, isPanic_iff] at h
    exact ⟨streams, policy, force, c, fast, _, Prod.ext hr rfl, h.1, h.2⟩
  · cases h

/-- Its share counts wrap. -/
example : ∃ streams policy force c fast ui',
    parseCommandLine credFiles hugeArgs ⟨true, true, true⟩ ⟨noTerm, false⟩ = (.ok (.cryptStreams streams policy force (.encrypt c fast)), ui') ∧
      ¬ c.NoWrap := by
  obtain ⟨streams, policy, force, c, fast, ui', h, -, hp⟩ := huge_shares_panic
  exact ⟨streams, policy, force, c, fast, ui', h, fun hw => accepted_credential_no_panic_partial _ _ _ _ _ _ _ _ _ _ h hw Toy.lib
    (fun alg => by cases alg <;> simp [Toy.lib]) _ _ hp⟩

/-! ## C46 -/

/-- C46: credential options merged into one argument are never misread: if such a command line is accepted, the result is that of
the options in the order typed; nothing is dropped. -/
theorem merged_options_not_misread (env : Env) (dir : CryptDirection) (skip : Bool) (args : List Arg) (occs : List Occ) (free : List Arg)
    (ht : Typed 0 args occs free) (tokens : List Token) (he : extractTokens ⟨occs, free⟩ = .ok tokens) :
    ∃ typed, TypedTokens occs typed ∧ typed.Perm tokens ∧
      ∀ (t t' : Term) (c : ComplexCredential), parseComplexCredential env (defaultTokens tokens) dir skip t = (.ok c, t') →
        parseComplexCredential env (defaultTokens typed) dir skip t = (.ok c, t') :=
  extract_typed (m := ⟨occs, free⟩) ht he

/-- C46: options in arguments of their own are always taken in the order typed. -/
theorem separate_options_in_order (args : List Arg) (occs : List Occ) (free : List Arg) (ht : Typed 0 args occs free)
    (typed : List Token) (htt : TypedTokens occs typed)
    (hsep : occs.Pairwise (fun x y => aboutCredentials x.opt = true → aboutCredentials y.opt = true → x.pos ≠ y.pos)) :
    extractTokens ⟨occs, free⟩ = .ok typed := extract_separate (m := ⟨occs, free⟩) ht htt hsep

/-- The tokens of a command line, if it is accepted. -/
def tokensOf (args : List Arg) : Option (List Token) :=
  match parse args with
  | .ok m => match extractTokens m with
    | .ok toks => some toks
    | _ => none
  | _ => none

/-- C46: the rule is stricter than needed: `-pp -t 2` is refused, though `-p -p -t 2` is accepted; merged options alone are accepted. -/
theorem merged_with_others_refused :
    tokensOf ["-pp".toList, "-t".toList, "2".toList] = none ∧
      tokensOf ["-p".toList, "-p".toList, "-t".toList, "2".toList] =
        some [.interactivePassword, .interactivePassword, .keyThreshold 2] ∧
      tokensOf ["-ppt2".toList] = some [.interactivePassword, .interactivePassword, .keyThreshold 2] := by decide +kernel

end Rypt.Props
