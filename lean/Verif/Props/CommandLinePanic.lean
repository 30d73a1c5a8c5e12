import Verif.Proofs.CliPanic
import Verif.Props.CliCredentials

/-! Property C73: exactly which command lines crash the program. -/

namespace Rypt.Props

open Cli Getopts UI CryptStreams Spec KeyText HeaderCrypto

/-- C73: whenever parsing crashes, the command line asks for decryption with a private key file one line of which is, without
whitespace, 128 bytes long with a character across the middle; the lines before it are private keys. -/
theorem command_line_panic_cause (env : Env) (args : List Arg) (ttys : Ttys) (ui : Ui)
    (h : (parseCommandLine env args ttys ui).1 = .panic) :
    ∃ occs free path pos force, Typed 0 args occs free ∧ LastMode occs (.crypt .decrypt) ∧ (⟨.privateKey, pos, some path⟩ : Occ) ∈ occs ∧
      (force = true ↔ Given occs .force) ∧ CrashingKeyFile env.sha512 (!force) (env.readFile path) := by
  obtain ⟨m, ui', hm, hmode, hd⟩ := parseCommandLine_panic env args ttys ui h
  obtain ⟨toks, hx, hp⟩ := (getDecryptCredentials_panic_iff _ _ _ _).mp hd
  obtain ⟨pre, path, post, cs, t', he, -, hc⟩ := (parseComplexCredential_panic_iff _ _ _ _).mp hp
  obtain ⟨ht, -⟩ := (Getopts.parse_iff args m).mp hm
  obtain ⟨typed, htt, hperm, -⟩ := extract_typed (env := env) (dir := .decrypt) (skip := false) ht hx
  have hmem : Token.privateKeyFile path ∈ toks := by
    have : Token.privateKeyFile path ∈ defaultTokens toks := by rw [he]; simp
    unfold defaultTokens at this
    split at this
    · simp at this
    · exact this
  have hocc : ∀ {occs typed}, TypedTokens occs typed → Token.privateKeyFile path ∈ typed →
      ∃ pos, (⟨.privateKey, pos, some path⟩ : Occ) ∈ occs := by
    intro occs typed h
    induction h with
    | nil => simp
    | skip x occs toks _ _ ih =>
      intro h
      obtain ⟨pos, h⟩ := ih h
      exact ⟨pos, by simp [h]⟩
    | cons x occs tok toks hx _ ih =>
      intro h
      rcases List.mem_cons.mp h with rfl | h
      · cases hx with
        | privateKey pos v => exact ⟨pos, by simp⟩
      · obtain ⟨pos, h⟩ := ih h
        exact ⟨pos, by simp [h]⟩
  obtain ⟨pos, hpos⟩ := hocc htt (hperm.mem_iff.mpr hmem)
  exact ⟨m.vals, m.free, path, pos, m.present .force, ht, hmode ▸ getMode_last m, hpos, present_iff _ _, hc⟩

/-- C73: and a decryption that gets as far as its credentials, each option in an argument of its own, crashes exactly if one of
them is such a file and those before it provide their keys. -/
theorem command_line_panics_iff (env : Env) (args : List Arg) (ttys : Ttys) (ui : Ui) (occs : List Occ) (free : List Arg)
    (ht : Typed 0 args occs free) (hd : NoDuplicates occs) (hv : -2 ≤ askedVerbosity occs ∧ askedVerbosity occs ≤ 2)
    (hne : ¬ (args = [] ∧ ttys.stdout = true)) (hl : LastMode occs (.crypt .decrypt))
    (hs1 : Given occs .stream → free.length ≤ 1) (hs2 : ¬ Given occs .stream → free ≠ [['-']] → ∀ a ∈ free, ¬ TrimsTo a ['-'])
    (hterm : ¬ Given occs .force → free = [] ∨ free = [['-']] → ttys.stdin = false)
    (hpol : ¬ (Given occs .keepInputs ∧ Given occs .discardInputs))
    (typed : List Token) (htt : TypedTokens occs typed)
    (hsep : occs.Pairwise (fun x y => aboutCredentials x.opt = true → aboutCredentials y.opt = true → x.pos ≠ y.pos))
    (force : Bool) (hforce : force = true ↔ Given occs .force) :
    ∃ v, ((askedVerbosity occs ≠ 0 → v = askedVerbosity occs) ∧ (askedVerbosity occs = 0 → v = 1 ∨ v = -1)) ∧
      ((parseCommandLine env args ttys ui).1 = .panic ↔ ∃ pre path post cs t', typed = pre ++ .privateKeyFile path :: post ∧
        ProvidesAll env .decrypt force pre { ui.term with verbosity := v } cs t' ∧
        CrashingKeyFile env.sha512 (!force) (env.readFile path)) := by
  obtain ⟨streams, policy, v, ui1, hv1, hv', hx, hf', hall⟩ := conversion_reaches_credentials env args ttys ui occs free ht hd hv hne
    .decrypt hl hs1 hs2 (fun h => ⟨by simp, fun _ => hterm h⟩) hpol typed htt hsep force hforce
  refine ⟨v, hv1, ?_⟩
  have h1 : (parseCommandLine env args ttys ui).1 = .panic ↔
      (getDecryptCredentials env ⟨occs, free⟩ force { ui.term with verbosity := v }).1 = .panic := by
    rw [hall]
    unfold cryptCommand
    dsimp only
    rw [hf', hv']
    split <;> rename_i h <;> rw [h] <;> simp
  rw [h1, getDecryptCredentials_panic_iff]
  have h2 : (∃ toks, extractTokens ⟨occs, free⟩ = .ok toks ∧
      (parseComplexCredential env (defaultTokens toks) .decrypt force { ui.term with verbosity := v }).1 = .panic) ↔
      (parseComplexCredential env (defaultTokens typed) .decrypt force { ui.term with verbosity := v }).1 = .panic := by
    rw [hx]
    constructor
    · rintro ⟨_, h, h'⟩; cases h; exact h'
    · exact fun h => ⟨_, rfl, h⟩
  rw [h2, parseComplexCredential_panic_iff]
  unfold defaultTokens
  cases typed with
  | nil =>
    refine iff_of_false ?_ (by simp)
    rintro ⟨pre, path, post, cs, t', he, -⟩
    cases pre <;> simp at he
  | cons => rfl

/-- `rypt -d --private-key k f`, where `k` has one line with an accented letter in the middle: all hypotheses hold, and it crashes. -/
example : (parseCommandLine ⟨sampleHash, sampleHash_length, fun _ => some (utf8 (List.replicate 63 'a' ++ ['é'] ++ List.replicate 63 'a'))⟩
    ["-d".toList, "--private-key".toList, "k".toList, "f".toList] ⟨true, true, true⟩ ⟨noTerm, false⟩).1 = .panic := by
  have h : parse ["-d".toList, "--private-key".toList, "k".toList, "f".toList] =
      .ok ⟨[⟨.decrypt, 0, none⟩, ⟨.privateKey, 1, some ['k']⟩], ["f".toList]⟩ := by decide +kernel
  obtain ⟨h1, h2⟩ := (Getopts.parse_iff _ _).mp h
  obtain ⟨v, -, hv⟩ := command_line_panics_iff
    ⟨sampleHash, sampleHash_length, fun _ => some (utf8 (List.replicate 63 'a' ++ ['é'] ++ List.replicate 63 'a'))⟩ _ ⟨true, true, true⟩
    ⟨noTerm, false⟩ _ _ h1 h2 (by decide +kernel) (by simp)
    (.inr ⟨⟨.decrypt, 0, none⟩, by simp, rfl, by simp [modeOf]⟩)
    (by simp [Given]) (fun _ _ a ha => by
      rw [List.mem_singleton.mp ha, ← Text.trim_iff]; decide +kernel) (by simp [Given]) (by simp [Given])
    [.privateKeyFile ['k']] (.skip _ _ _ rfl (.cons _ _ _ _ (.privateKey _ _) .nil)) (by simp [aboutCredentials]) false (by simp [Given])
  have hk : KeyLines (some (utf8 (List.replicate 63 'a' ++ ['é'] ++ List.replicate 63 'a')))
      ([] ++ (List.replicate 63 'a' ++ ['é'] ++ List.replicate 63 'a') :: []) := (keyLines_of_text _ _).mpr (by decide +kernel)
  refine hv.mpr ⟨[], ['k'], [], [], _, rfl, .nil _, [], _, [], hk, by simp, ?_⟩
  have := (private_key_line_panics_iff (fun _ => []) (List.replicate 63 'a' ++ ['é'] ++ List.replicate 63 'a') false).mp
    (private_key_line_can_panic _ _)
  unfold CrashingLine
  simp only [utf8_eq]
  exact this

end Rypt.Props
