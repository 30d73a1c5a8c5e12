import Verif.Proofs.Cli
import Verif.Proofs.TokenOrder
import Verif.Spec.CliPanic

/-! When the credential arguments crash the program. -/

namespace Rypt.Cli

open Getopts UI KeyText Spec

theorem collect_panic_iff {α β : Type} (f : α → Res β) (l : List α) :
    collect f l = .panic ↔ ∃ pre a post, l = pre ++ a :: post ∧ (∀ b ∈ pre, ∃ c, f b = .ok c) ∧ f a = .panic := by
  induction l with
  | nil => simp [collect]
  | cons x l ih =>
    rw [collect]
    constructor
    · intro h
      rcases Res.bind_eq_panic.mp h with h | ⟨c, hc, h⟩
      · exact ⟨[], x, l, rfl, by simp, h⟩
      · rcases Res.bind_eq_panic.mp h with h | ⟨_, _, h⟩
        · obtain ⟨pre, a, post, rfl, hp, ha⟩ := ih.mp h
          exact ⟨x :: pre, a, post, rfl, fun b hb => by
            rcases List.mem_cons.mp hb with rfl | hb
            · exact ⟨c, hc⟩
            · exact hp b hb, ha⟩
        · cases h
    · rintro ⟨pre, a, post, h, hp, ha⟩
      cases pre with
      | nil =>
        rw [List.nil_append] at h
        cases h
        rw [ha]; rfl
      | cons y pre =>
        rw [List.cons_append] at h
        cases h
        obtain ⟨c, hc⟩ := hp x (by simp)
        rw [hc, Res.bind_ok, ih.mpr ⟨pre, a, post, rfl, fun b hb => hp b (by simp [hb]), ha⟩]
        rfl

theorem readFileLines_panic_iff (content : Option Bytes) (f : List Char → Res Credential) :
    readFileLines content f = .panic ↔ ∃ pre line post, KeyLines content (pre ++ line :: post) ∧
      (∀ l ∈ pre, ∃ c, f l = .ok c) ∧ f line = .panic := by
  unfold readFileLines
  split
  · constructor
    · simp
    · rintro ⟨_, _, _, ⟨_, _, h, -⟩, -⟩; cases h
  · rename_i bytes
    split
    · rename_i e he
      constructor
      · simp
      · rintro ⟨_, _, _, ⟨text, _, h, -⟩, -⟩
        cases h
        rw [utf8_eq, Text.fromUtf8_encode] at he
        cases he
    · rename_i text htext
      have hb : bytes = utf8 text := by rw [utf8_eq, Text.encode_of_fromUtf8 _ _ htext]
      subst hb
      have hk : ∀ ls, KeyLines (some (utf8 text)) ls ↔ ls = ((Text.lines text).map Text.trim).filter (fun s => !s.isEmpty) := by
        intro ls
        rw [keyLines_of_text, Text.lines_trim_filter]
        have : (fun s : List Char => decide (s ≠ [])) = fun s => !s.isEmpty := by
          funext s; cases s <;> simp
        rw [this]
      constructor
      · intro h
        rcases Res.bind_eq_panic.mp h with h | ⟨l, -, h⟩
        · obtain ⟨pre, a, post, he, hp, ha⟩ := (collect_panic_iff _ _).mp h
          exact ⟨pre, a, post, (hk _).mpr he.symm, hp, ha⟩
        · split at h <;> cases h
      · rintro ⟨pre, a, post, he, hp, ha⟩
        rw [(collect_panic_iff _ _).mpr ⟨pre, a, post, ((hk _).mp he).symm, hp, ha⟩]
        rfl

theorem privateKeyLine_panic_iff (sha512 : Bytes → Bytes) (skip : Bool) (line : List Char) :
    privateKeyLine sha512 skip line = .panic ↔ CrashingLine line := by
  unfold privateKeyLine
  rw [Res.bind_eq_panic]
  have h : fromHex64PrivateKey sha512 line skip = .panic ↔ CrashingLine line := by
    rw [fromHex64_panic_iff]
    unfold CrashingLine
    simp only [utf8_eq]
    rfl
  rw [h]
  constructor
  · rintro (h | ⟨_, _, h⟩)
    · exact h
    · cases h
  · exact .inl

theorem privateKeyFile_panic_iff (env : Env) (skip : Bool) (path : List Char) :
    readFileLines (env.readFile path) (privateKeyLine env.sha512 skip) = .panic ↔ CrashingKeyFile env.sha512 (!skip) (env.readFile path) := by
  rw [readFileLines_panic_iff]
  unfold CrashingKeyFile
  refine exists_congr fun pre => exists_congr fun line => exists_congr fun post => and_congr_right fun _ => ?_
  rw [privateKeyLine_panic_iff]
  refine and_congr_left fun _ => forall_congr' fun l => imp_congr_right fun _ => ?_
  have hne : ∀ b, env.sha512 b ≠ [] := by
    intro b h
    have := env.sha512_length b
    rw [h] at this
    simp at this
  unfold privateKeyLine
  constructor
  · rintro ⟨c, h⟩
    obtain ⟨k, hk, -⟩ := Res.bind_eq_ok.mp h
    exact ⟨k, (fromHex64_iff _ hne _ _ _).mp hk⟩
  · rintro ⟨k, hk⟩
    rw [(fromHex64_iff _ hne _ _ _).mpr hk]
    exact ⟨_, rfl⟩

theorem readKeys_panic_iff (env : Env) (dir : CryptDirection) (skip : Bool) (t : Term) (tok : Token) (hk : tok.IsKey) :
    (readKeys env dir skip t tok).1 = .panic ↔
      ∃ path, tok = .privateKeyFile path ∧ dir = .decrypt ∧ CrashingKeyFile env.sha512 (!skip) (env.readFile path) := by
  by_cases h : ∃ path, tok = .privateKeyFile path ∧ dir = .decrypt
  · obtain ⟨path, rfl, rfl⟩ := h
    simp [readKeys, privateKeyFile_panic_iff]
  · refine iff_of_false (readKeys_no_panic hk fun path hp hd => absurd ⟨path, hp, hd⟩ h) ?_
    rintro ⟨path, hp, hd, -⟩
    exact h ⟨path, hp, hd⟩

theorem parseLoop_panic_iff (env : Env) (skip : Bool) (fuel : Nat) :
    ∀ (level : Nat) (acc : Acc) (toks : List Token) (t : Term), toks.length ≤ fuel →
      ((parseLoop env .decrypt skip fuel level acc toks t).1 = .panic ↔
        ∃ pre path post cs t', toks = pre ++ .privateKeyFile path :: post ∧ ProvidesAll env .decrypt skip pre t cs t' ∧
          CrashingKeyFile env.sha512 (!skip) (env.readFile path)) := by
  induction fuel with
  | zero =>
    intro level acc toks t hl
    have : toks = [] := List.length_eq_zero_iff.mp (by omega)
    subst this
    rw [parseLoop]
    have := acc.finish_no_panic level false
    refine iff_of_false ?_ (by simp)
    split <;> simp_all
  | succ fuel ih =>
    intro level acc toks t hl
    cases toks with
    | nil =>
      rw [parseLoop]
      have := acc.finish_no_panic level false
      refine iff_of_false ?_ (by simp)
      split <;> simp_all
    | cons tok toks =>
      have hlen : toks.length ≤ fuel := by simpa using hl
      have hbad : ∀ tok : Token, ¬ tok.IsKey → ¬ ∃ pre path post cs t', tok :: toks = pre ++ .privateKeyFile path :: post ∧
          ProvidesAll env .decrypt skip pre t cs t' ∧ CrashingKeyFile env.sha512 (!skip) (env.readFile path) := by
        rintro tok hn ⟨pre, path, post, cs, t', he, hp, -⟩
        cases pre with
        | nil => cases he; exact hn trivial
        | cons a pre =>
          cases he
          exact hn (providesAll_keys hp _ (by simp))
      rcases isKey_cases tok with hk | rfl | rfl | rfl | ⟨n, rfl⟩ | ⟨n, rfl⟩
      · rw [parseLoop_key _ _ _ _ _ _ _ _ _ hk]
        have h1 := readKeys_panic_iff env .decrypt skip t tok hk
        split
        · rename_i cs t1 hr
          have h2 := acc.add_no_panic cs
          have hprov := (readKeys_provides _ _ _ _ _ _ _ hr).2
          rw [hr] at h1
          have h1' := h1.not.mp (by simp)
          have hadd : ∃ acc', acc.add cs = .ok acc' := by
            have := (provides_leaf hprov).1
            unfold Acc.add
            rw [if_neg (by simpa using this)]
            exact ⟨_, rfl⟩
          obtain ⟨acc', ha⟩ := hadd
          rw [ha]
          dsimp only
          rw [ih _ _ _ _ hlen]
          constructor
          · rintro ⟨pre, path, post, cs', t', rfl, hp, hc⟩
            exact ⟨tok :: pre, path, post, _, t', rfl, .cons _ _ _ _ _ _ _ hprov hp, hc⟩
          · rintro ⟨pre, path, post, cs', t', he, hp, hc⟩
            cases pre with
            | nil =>
              cases he
              exact absurd ⟨path, rfl, rfl, hc⟩ h1'
            | cons a pre =>
              cases he
              cases hp with
              | cons _ _ _ t2 _ cs1 cs2 hp1 hp2 =>
                rw [provides_readKeys _ _ _ _ _ _ _ hp1] at hr
                cases hr
                exact ⟨pre, path, post, _, t', rfl, hp2, hc⟩
        · rename_i e t1 hr
          refine iff_of_false (by simp) ?_
          rintro ⟨pre, path, post, cs', t', he, hp, hc⟩
          rw [hr] at h1
          have h1' := h1.not.mp (by simp)
          cases pre with
          | nil =>
            cases he
            exact h1' ⟨path, rfl, rfl, hc⟩
          | cons a pre =>
            cases he
            cases hp with
            | cons _ _ _ t2 _ cs1 cs2 hp1 hp2 =>
              rw [provides_readKeys _ _ _ _ _ _ _ hp1] at hr
              cases hr
        · rename_i t1 hr
          rw [hr] at h1
          obtain ⟨path, rfl, -, hc⟩ := h1.mp rfl
          exact iff_of_true rfl ⟨[], path, toks, [], t, rfl, .nil _, hc⟩
      all_goals
        rw [parseLoop]
        refine iff_of_false ?_ (hbad _ (by simp [Token.IsKey]))
        simp [decryptAllowed]

theorem parseComplexCredential_panic_iff (env : Env) (skip : Bool) (toks : List Token) (t : Term) :
    (parseComplexCredential env toks .decrypt skip t).1 = .panic ↔
        ∃ pre path post cs t', toks = pre ++ .privateKeyFile path :: post ∧ ProvidesAll env .decrypt skip pre t cs t' ∧
          CrashingKeyFile env.sha512 (!skip) (env.readFile path) := by
  rw [← parseLoop_panic_iff env skip toks.length 0 Acc.init toks t (Nat.le_refl _)]
  unfold parseComplexCredential
  split <;> rename_i h <;> rw [h] <;> simp

theorem getDecryptCredentials_panic_iff (env : Env) (m : Matches) (force : Bool) (t : Term) :
    (getDecryptCredentials env m force t).1 = .panic ↔ ∃ toks, extractTokens m = .ok toks ∧
      (parseComplexCredential env (defaultTokens toks) .decrypt force t).1 = .panic := by
  unfold getDecryptCredentials
  split
  · rename_i toks hx
    split
    · rename_i c t'' hp
      obtain ⟨⟨ms, thr, hb, hc⟩, hk⟩ := (Cli.parse_iff _ _ _ _ _ _ _).mp hp
      have hu := body_usable hb (hk rfl)
      have h1 := hc.threshold_pos
      have h2 := hc.threshold_le
      have h3 := hc.threshold
      rw [hu.1] at h3
      rw [if_neg (by omega), if_neg (by simpa [thresholdOf] using h3), hc.subCreds,
        singleShares_eq (ms := ms) (fun m hm => (hu.2 m hm).1)]
      refine iff_of_false (by simp) ?_
      rintro ⟨toks', he, h⟩
      cases hx.symm.trans he
      rw [hp] at h
      cases h
    · rename_i e t'' hp
      refine iff_of_false (by simp) ?_
      rintro ⟨toks', he, h⟩
      cases hx.symm.trans he
      rw [hp] at h
      cases h
    · rename_i t'' hp
      exact iff_of_true rfl ⟨toks, hx, by rw [hp]⟩
  · rename_i hx
    exact iff_of_false (by simp) (by rintro ⟨_, h, -⟩; cases hx.symm.trans h)
  · exact absurd ‹_› (extractTokens_no_panic m)

/-- Only the reading of credentials for decryption can crash. -/
theorem parseCommandLine_panic (env : Env) (args : List Arg) (ttys : Ttys) (ui : Ui) (h : (parseCommandLine env args ttys ui).1 = .panic) :
    ∃ m, ∃ ui' : Ui, parse args = .ok m ∧ getMode m = .crypt .decrypt ∧
      (getDecryptCredentials env m (m.present .force) ui'.term).1 = .panic := by
  unfold parseCommandLine at h
  split at h
  · simp at h
  · exact absurd ‹_› (parse_no_panic args)
  dsimp only at h
  split at h
  · simp at h
  rename_i m hm _
  refine ⟨m, ?_⟩
  have hmode : ∀ dir, (if (args.isEmpty && ttys.stdout) = true then OperationMode.help else getMode m) = .crypt dir → getMode m = .crypt dir := by
    intro dir h
    split at h
    · cases h
    · exact h
  generalize (if (args.isEmpty && ttys.stdout) = true then OperationMode.help else getMode m) = mode at h hmode
  cases mode with
  | crypt dir =>
    dsimp only at h
    split at h
    · simp at h
    · exact absurd ‹_› (streams_no_panic _ _ _)
    split at h
    · simp at h
    · exact absurd (congrArg Prod.fst ‹_›) (check_no_panic _ _ _ _ _ _)
    split at h
    · simp at h
    · rename_i h'
      unfold cleanupPolicy at h'
      split at h' <;> cases h'
    unfold cryptCommand at h
    dsimp only at h
    split at h
    · split at h
      · simp at h
      · simp at h
      · exact absurd (congrArg Prod.fst ‹_›) (getEncryptCredential_no_panic _ _ _ _)
    · split at h
      · simp at h
      · simp at h
      · rename_i hd
        exact ⟨_, hm, hmode _ rfl, by rw [hd]⟩
  | generateKeypair =>
    dsimp only at h
    split at h
    · simp at h
    · simp at h
    · rename_i h'
      unfold getKeypairStreams at h'
      split at h'
      · cases h'
      · exact absurd h' (keypairStreams_no_panic _ _)
  | help => simp at h
  | version => simp at h

end Rypt.Cli
