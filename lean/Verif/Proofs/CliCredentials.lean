import Verif.Spec.CliCredentials
import Verif.Proofs.Passwords
import Verif.Proofs.KeyText
import Mathlib.Tactic.SplitIfs

/-! Lemmas on the parser of credential arguments. -/

namespace Rypt.Cli

open Getopts UI KeyText

theorem Env.sha512_ne (env : Env) (b : Bytes) : env.sha512 b ≠ [] := by
  have := env.sha512_length b
  intro h; simp [h] at this

theorem symmetricLines_iff (env : Env) (content : Option Bytes) (cs : List Credential) :
    readFileLines content (symmetricKeyLine env.sha512) = .ok cs ↔ ∃ ls ks, Spec.KeyLines content ls ∧ ls ≠ [] ∧
      List.Forall₂ (Spec.IsKeyText env.sha512 false) ls ks ∧ cs = ks.map .symmetricKey := by
  apply keyLines_iff
  intro l c
  rw [symmetricKeyLine, Res.bind_eq_ok]
  simp only [fromHex32_iff _ env.sha512_ne, Bool.not_true, Res.pure_def, Res.ok.injEq, eq_comm]

theorem publicLines_iff (env : Env) (skip : Bool) (content : Option Bytes) (cs : List Credential) :
    readFileLines content (publicKeyLine env.sha512 skip) = .ok cs ↔ ∃ ls ks, Spec.KeyLines content ls ∧ ls ≠ [] ∧
      List.Forall₂ (Spec.IsKeyText env.sha512 (!skip)) ls ks ∧ cs = ks.map .publicKey := by
  apply keyLines_iff
  intro l c
  rw [publicKeyLine, Res.bind_eq_ok]
  simp only [fromHex32_iff _ env.sha512_ne, Res.pure_def, Res.ok.injEq, eq_comm]

theorem privateLines_iff (env : Env) (skip : Bool) (content : Option Bytes) (cs : List Credential) :
    readFileLines content (privateKeyLine env.sha512 skip) = .ok cs ↔ ∃ ls ks, Spec.KeyLines content ls ∧ ls ≠ [] ∧
      List.Forall₂ (Spec.IsPrivateKeyText env.sha512 (!skip)) ls ks ∧ cs = ks.map .privateKey := by
  apply keyLines_iff
  intro l c
  rw [privateKeyLine, Res.bind_eq_ok]
  simp only [fromHex64_iff _ env.sha512_ne, Res.pure_def, Res.ok.injEq, eq_comm]

theorem readKeys_provides (env : Env) (dir : CryptDirection) (skip : Bool) (t t' : Term) (tok : Token) (cs : List Credential)
    (h : readKeys env dir skip t tok = (.ok cs, t')) : tok.IsKey ∧ Provides env dir skip tok t cs t' := by
  have pw : ∀ (r : Res (List Char) × Term), passwordCred r = (.ok cs, t') →
      ∃ p, r = (.ok p, t') ∧ cs = [.password (Text.encode p)] := by
    rintro ⟨r, t''⟩ h
    cases r with
    | ok p =>
      simp only [passwordCred, Prod.mk.injEq, Res.ok.injEq] at h
      exact ⟨p, by rw [h.2], h.1.symm⟩
    | err e => simp [passwordCred] at h
    | panic => simp [passwordCred] at h
  have hdir : dir ≠ .decrypt → dir = .encrypt := by cases dir <;> simp
  have hdir' : dir ≠ .encrypt → dir = .decrypt := by cases dir <;> simp
  cases tok with
  | keyThreshold n => simp [readKeys] at h
  | requireAllKeys => simp [readKeys] at h
  | keyShares n => simp [readKeys] at h
  | startGroup => simp [readKeys] at h
  | endGroup => simp [readKeys] at h
  | interactivePassword =>
    obtain ⟨p, hp, rfl⟩ := pw _ h
    exact ⟨trivial, utf8_eq p ▸ .password _ _ _ hp⟩
  | namedInteractivePassword name =>
    obtain ⟨p, hp, rfl⟩ := pw _ h
    exact ⟨trivial, utf8_eq p ▸ .named _ _ _ _ hp⟩
  | passwordFile path =>
    simp only [readKeys, Prod.mk.injEq] at h
    obtain ⟨h, rfl⟩ := h
    obtain ⟨ls, h1, h2, rfl⟩ := (passwordLines_iff _ _).mp h
    exact ⟨trivial, .passwordFile _ _ _ h1 h2⟩
  | symmetricKeyFile path =>
    simp only [readKeys, Prod.mk.injEq] at h
    obtain ⟨h, rfl⟩ := h
    obtain ⟨ls, ks, h1, h2, h3, rfl⟩ := (symmetricLines_iff _ _ _).mp h
    exact ⟨trivial, .symmetricKeyFile _ _ _ _ h1 h2 h3⟩
  | publicKeyFile path =>
    simp only [readKeys] at h
    split_ifs at h with hd
    · simp at h
    · simp only [Prod.mk.injEq] at h
      obtain ⟨h, rfl⟩ := h
      obtain ⟨ls, ks, h1, h2, h3, rfl⟩ := (publicLines_iff _ _ _ _).mp h
      exact ⟨trivial, .publicKeyFile _ _ _ _ (hdir hd) h1 h2 h3⟩
  | publicKeyText text =>
    simp only [readKeys] at h
    split_ifs at h with hd
    · simp at h
    · simp only [Prod.mk.injEq, Res.bind_eq_ok, Res.pure_def, Res.ok.injEq] at h
      obtain ⟨⟨k, hk, rfl⟩, rfl⟩ := h
      exact ⟨trivial, .publicKeyText _ _ _ (hdir hd) ((fromHex32_iff _ env.sha512_ne _ _ _).mp hk)⟩
  | privateKeyFile path =>
    simp only [readKeys] at h
    split_ifs at h with hd
    · simp at h
    · simp only [Prod.mk.injEq] at h
      obtain ⟨h, rfl⟩ := h
      obtain ⟨ls, ks, h1, h2, h3, rfl⟩ := (privateLines_iff _ _ _ _).mp h
      exact ⟨trivial, .privateKeyFile _ _ _ _ (hdir' hd) h1 h2 h3⟩

theorem provides_readKeys (env : Env) (dir : CryptDirection) (skip : Bool) (t t' : Term) (tok : Token) (cs : List Credential)
    (h : Provides env dir skip tok t cs t') : readKeys env dir skip t tok = (.ok cs, t') := by
  cases h with
  | password _ _ p h => simp [readKeys, h, passwordCred, utf8_eq]
  | named name _ _ p h => simp [readKeys, h, passwordCred, utf8_eq]
  | passwordFile path _ ls h1 h2 => rw [readKeys, (passwordLines_iff _ _).mpr ⟨ls, h1, h2, rfl⟩]
  | symmetricKeyFile path _ ls ks h1 h2 h3 => rw [readKeys, (symmetricLines_iff _ _ _).mpr ⟨ls, ks, h1, h2, h3, rfl⟩]
  | publicKeyFile path _ ls ks hd h1 h2 h3 =>
    rw [readKeys, if_neg (by rw [hd]; simp), (publicLines_iff _ _ _ _).mpr ⟨ls, ks, h1, h2, h3, rfl⟩]
  | publicKeyText text _ k hd h =>
    rw [readKeys, if_neg (by rw [hd]; simp), (fromHex32_iff _ env.sha512_ne _ _ _).mpr h]
    rfl
  | privateKeyFile path _ ls ks hd h1 h2 h3 =>
    rw [readKeys, if_neg (by rw [hd]; simp), (privateLines_iff _ _ _ _).mpr ⟨ls, ks, h1, h2, h3, rfl⟩]

theorem provides_isKey {env : Env} {dir : CryptDirection} {skip : Bool} {t t' : Term} {tok : Token} {cs : List Credential}
    (h : Provides env dir skip tok t cs t') : tok.IsKey := by cases h <;> trivial

theorem totalShares_append (a b : List (Nat × Credential)) : totalShares (a ++ b) = totalShares a + totalShares b := by
  simp [totalShares]

theorem totalShares_map (k : Nat) (cs : List Credential) : totalShares (cs.map (k, ·)) = k * cs.length := by
  induction cs with
  | nil => rfl
  | cons c cs ih =>
    simp only [totalShares, List.map_cons, List.sum_cons, List.length_cons] at ih ⊢
    rw [ih, Nat.mul_succ]; omega

/-- The variables are those of the members so far. -/
def Acc.Good (acc : Acc) : Prop := acc.numShares = totalShares acc.subCreds % 2 ^ 64 ∧ 1 ≤ acc.nextKeyShares

theorem Acc.good_init : Acc.init.Good := ⟨rfl, Nat.le_refl _⟩

theorem Acc.add_ok {acc acc' : Acc} {cs : List Credential} (h : acc.add cs = .ok acc') (hg : acc.Good) :
    cs ≠ [] ∧ acc'.Good ∧ acc'.subCreds = acc.subCreds ++ cs.map (acc.nextKeyShares, ·) ∧ acc'.nextKeyShares = 1 ∧
      acc'.threshold = acc.threshold := by
  unfold Acc.add at h
  split_ifs at h with hc
  cases h
  refine ⟨by simpa using hc, ⟨?_, Nat.le_refl _⟩, rfl, rfl, rfl⟩
  simp only [totalShares_append, totalShares_map, wrap64, hg.1]
  omega

theorem Acc.add_of {acc : Acc} {cs : List Credential} (hc : cs ≠ []) : ∃ acc', acc.add cs = .ok acc' := by
  unfold Acc.add
  have : cs.isEmpty = false := by simpa using hc
  rw [this]
  exact ⟨_, rfl⟩

theorem Acc.finish_ok {acc : Acc} {level : Nat} {eg : Bool} {c : ComplexCredential} (hg : acc.Good) :
    acc.finish level eg = .ok c ↔ (eg = true ↔ level ≠ 0) ∧ Closed acc.subCreds acc.threshold c := by
  unfold Acc.finish
  have hthr : acc.finalThreshold = thresholdOf acc.threshold acc.numShares := by
    unfold thresholdOf Acc.finalThreshold
    rcases acc.threshold with _ | _ | n <;> rfl
  simp only [hthr]
  constructor
  · intro h
    split_ifs at h with h1 h2 h3 h4 h5
    cases h
    refine ⟨?_, rfl, hg.1, rfl, h4, h5⟩
    constructor
    · intro h0 h0'; exact h1 ⟨h0', h0⟩
    · intro h0
      by_cases he : eg = true
      · exact he
      · exact absurd ⟨Nat.pos_of_ne_zero h0, he⟩ h2
  · rintro ⟨h0, hc⟩
    have hn : c.numShares = acc.numShares := by rw [hc.numShares, hg.1]
    have ht := hc.threshold
    rw [hn] at ht
    have h3 : acc.numShares > 0 := by
      have := hc.threshold_pos
      have := hc.threshold_le
      omega
    have h4 := hc.threshold_pos
    have h5 := hc.threshold_le
    rw [ht] at h4 h5
    rw [hn] at h5
    rw [if_neg (fun h => h0.1 h.2 h.1), if_neg (fun h => h.2 (h0.2 (Nat.ne_of_gt h.1))), if_neg (by omega), if_neg (by omega),
      if_neg (by omega)]
    have hs := hc.subCreds
    cases c
    simp_all

/-- Shares given so far. -/
def pre (k : Nat) : List Token := if k = 1 then [] else [.keyShares k]

theorem shares_pre (k : Nat) (h : 1 ≤ k) : Shares (pre k) k := by
  unfold pre
  split_ifs with hk
  · rw [hk]; exact .default
  · exact .given _ h

/-- What follows a group. -/
def tail (level : Nat) (rest : List Token) : List Token := if level = 0 then [] else .endGroup :: rest

theorem isKey_cases (tok : Token) :
    tok.IsKey ∨ tok = .startGroup ∨ tok = .endGroup ∨ tok = .requireAllKeys ∨ (∃ n, tok = .keyShares n) ∨
      ∃ n, tok = .keyThreshold n := by
  cases tok <;> simp [Token.IsKey]

theorem isKey_allowed {tok : Token} (h : tok.IsKey) : decryptAllowed tok = true ∧ keySharesAllowed tok = true := by
  cases tok <;> first | exact ⟨rfl, rfl⟩ | exact h.elim

/-- The step for a key-providing argument. -/
theorem parseLoop_key (env : Env) (dir : CryptDirection) (skip : Bool) (fuel level : Nat) (acc : Acc) (tok : Token)
    (toks : List Token) (t : Term) (hk : tok.IsKey) :
    parseLoop env dir skip (fuel + 1) level acc (tok :: toks) t =
      match readKeys env dir skip t tok with
      | (.ok creds, t) =>
        match acc.add creds with
        | .ok acc => parseLoop env dir skip fuel level acc toks t
        | .err e => (.err e, t)
        | .panic => (.panic, t)
      | (.err e, t) => (.err e, t)
      | (.panic, t) => (.panic, t) := by
  cases tok <;> first | exact hk.elim | (rw [parseLoop, if_neg (by simp [decryptAllowed]), if_neg (by simp [keySharesAllowed])] <;>
    first | rfl | simp)

theorem parseLoop_sound (env : Env) (dir : CryptDirection) (skip : Bool) (fuel : Nat) :
    ∀ (level : Nat) (acc : Acc) (toks : List Token) (t : Term) (c : ComplexCredential) (rest : List Token) (t' : Term),
      acc.Good → parseLoop env dir skip fuel level acc toks t = (.ok (c, rest), t') →
      ∃ body ms thr, toks = body ++ tail level rest ∧ (level = 0 → rest = []) ∧
        Body env dir skip (level == 0) (pre acc.nextKeyShares ++ body) t ms thr t' ∧ (acc.threshold = none ∨ thr = none) ∧
        Closed (acc.subCreds ++ ms) (acc.threshold <|> thr) c ∧ (dir = .decrypt → ∀ tok ∈ toks, tok.IsKey) := by
  induction fuel with
  | zero =>
    intro level acc toks t c rest t' hg h
    cases toks with
    | cons tok toks => simp [parseLoop] at h
    | nil =>
      rw [parseLoop] at h
      split at h
      · rename_i c' hf
        simp only [Prod.mk.injEq, Res.ok.injEq] at h
        obtain ⟨⟨rfl, rfl⟩, rfl⟩ := h
        obtain ⟨hl, hc⟩ := (Acc.finish_ok hg).1 hf
        have hl : level = 0 := by simpa using hl
        subst hl
        refine ⟨[], [], none, rfl, fun _ => rfl, ?_, .inr rfl, ?_, by simp⟩
        · unfold pre
          split_ifs with hk
          · exact .nil _ _
          · exact .danglingShares _ _ hg.2
        · simpa using hc
      · simp at h
      · simp at h
  | succ fuel ih =>
    intro level acc toks t c rest t' hg h
    cases toks with
    | nil =>
      rw [parseLoop] at h
      split at h
      · rename_i c' hf
        simp only [Prod.mk.injEq, Res.ok.injEq] at h
        obtain ⟨⟨rfl, rfl⟩, rfl⟩ := h
        obtain ⟨hl, hc⟩ := (Acc.finish_ok hg).1 hf
        have hl : level = 0 := by simpa using hl
        subst hl
        refine ⟨[], [], none, rfl, fun _ => rfl, ?_, .inr rfl, ?_, by simp⟩
        · unfold pre
          split_ifs with hk
          · exact .nil _ _
          · exact .danglingShares _ _ hg.2
        · simpa using hc
      · simp at h
      · simp at h
    | cons tok toks =>
      rcases isKey_cases tok with hk | rfl | rfl | rfl | ⟨n, rfl⟩ | ⟨n, rfl⟩
      · -- a key
        rw [parseLoop_key _ _ _ _ _ _ _ _ _ hk] at h
        split at h
        · rename_i cs t1 hr
          split at h
          · rename_i acc' ha
            obtain ⟨hne, hg', hs, hn, ht⟩ := Acc.add_ok ha hg
            obtain ⟨body, ms, thr, rfl, hrest, hb, hthr, hc, hd⟩ := ih _ _ _ _ _ _ _ hg' h
            rw [hn] at hb
            rw [ht] at hthr hc
            rw [hs] at hc
            refine ⟨tok :: body, cs.map (acc.nextKeyShares, ·) ++ ms, thr, rfl, hrest, ?_, hthr, ?_, ?_⟩
            · exact .keys _ _ _ _ _ _ _ _ _ _ _ (shares_pre _ hg.2) hk (readKeys_provides _ _ _ _ _ _ _ hr).2 hne hb
            · rw [← List.append_assoc]; exact hc
            · intro hdd x hx
              rcases List.mem_cons.1 hx with rfl | hx
              · exact hk
              · exact hd hdd x hx
          · simp at h
          · simp at h
        · simp at h
        · simp at h
      · -- start of a group
        rw [parseLoop] at h
        split_ifs at h with h1 h2
        · simp at h
        · simp [keySharesAllowed] at h2
        · have hdir : dir ≠ .decrypt := fun hd => h1 ⟨hd, by simp [decryptAllowed]⟩
          split at h
          · rename_i c' rest' t1 hr
            obtain ⟨inner, ms', thr', rfl, _, hb', _, hc', _⟩ := ih _ _ _ _ _ _ _ Acc.good_init hr
            split at h
            · rename_i acc' ha
              obtain ⟨hne, hg', hs, hn, ht⟩ := Acc.add_ok ha hg
              obtain ⟨body, ms, thr, rfl, hrest, hb, hthr, hc, hd⟩ := ih _ _ _ _ _ _ _ hg' h
              rw [hn] at hb
              rw [ht] at hthr hc
              rw [hs] at hc
              refine ⟨.startGroup :: (inner ++ .endGroup :: body),
                (acc.nextKeyShares, .complex c'.subCreds c'.numShares c'.threshold) :: ms, thr, ?_, hrest, ?_, hthr, ?_, ?_⟩
              · simp [tail]
              · exact .group _ _ _ _ _ _ _ _ _ _ _ _ _ (shares_pre _ hg.2) (by simpa [pre, Acc.init] using hb')
                  (by simpa [Acc.init] using hc') hb
              · simpa using hc
              · exact fun hdd => absurd hdd hdir
            · simp at h
            · simp at h
          · simp at h
          · simp at h
      · -- end of a group
        rw [parseLoop] at h
        split_ifs at h with h1 h2
        · simp at h
        · simp at h
        · have hn : acc.nextKeyShares = 1 := by
            by_cases hn : acc.nextKeyShares = 1
            · exact hn
            · exact absurd ⟨hn, by simp [keySharesAllowed]⟩ h2
          have hdir : dir ≠ .decrypt := fun hd => h1 ⟨hd, by simp [decryptAllowed]⟩
          split at h
          · rename_i c' hf
            simp only [Prod.mk.injEq, Res.ok.injEq] at h
            obtain ⟨⟨rfl, rfl⟩, rfl⟩ := h
            obtain ⟨hl, hc⟩ := (Acc.finish_ok hg).1 hf
            have hl : level ≠ 0 := by simpa using hl
            refine ⟨[], [], none, by simp [tail, hl], fun h => absurd h hl, ?_, .inr rfl, ?_, fun hdd => absurd hdd hdir⟩
            · rw [hn]; exact .nil _ _
            · simpa using hc
          · simp at h
          · simp at h
      · -- require all keys
        rw [parseLoop] at h
        by_cases h1 : dir = .decrypt ∧ ¬ decryptAllowed .requireAllKeys
        · rw [if_pos h1] at h; simp at h
        by_cases h2 : acc.nextKeyShares ≠ 1 ∧ ¬ keySharesAllowed .requireAllKeys
        · rw [if_neg h1, if_pos h2] at h; simp at h
        · rw [if_neg h1, if_neg h2] at h
          have hn : acc.nextKeyShares = 1 := by
            by_cases hn : acc.nextKeyShares = 1
            · exact hn
            · exact absurd ⟨hn, by simp [keySharesAllowed]⟩ h2
          have hdir : dir ≠ .decrypt := fun hd => h1 ⟨hd, by simp [decryptAllowed]⟩
          split_ifs at h with h3
          · simp at h
          · have h3 : acc.threshold = none := by simpa using h3
            obtain ⟨body, ms, thr, rfl, hrest, hb, hthr, hc, hd⟩ := ih _ _ _ _ _ _ _ (by exact ⟨hg.1, hg.2⟩) h
            have hthr : thr = none := by simpa using hthr
            subst hthr
            refine ⟨.requireAllKeys :: body, ms, some .allKeys, rfl, hrest, ?_, .inl h3, ?_, fun hdd => absurd hdd hdir⟩
            · rw [hn]
              exact .allKeys _ _ _ _ _ (by simpa [hn, pre] using hb)
            · rw [h3]; exact hc
      · -- key shares
        rw [parseLoop] at h
        by_cases h1 : dir = .decrypt ∧ ¬ decryptAllowed (.keyShares n)
        · rw [if_pos h1] at h; simp at h
        by_cases h2 : acc.nextKeyShares ≠ 1 ∧ ¬ keySharesAllowed (.keyShares n)
        · rw [if_neg h1, if_pos h2] at h; simp at h
        · rw [if_neg h1, if_neg h2] at h
          have hn : acc.nextKeyShares = 1 := by
            by_cases hn : acc.nextKeyShares = 1
            · exact hn
            · exact absurd ⟨hn, by simp [keySharesAllowed]⟩ h2
          have hdir : dir ≠ .decrypt := fun hd => h1 ⟨hd, by simp [decryptAllowed]⟩
          split_ifs at h with h3
          · have h3 : 1 ≤ n := h3
            obtain ⟨body, ms, thr, rfl, hrest, hb, hthr, hc, hd⟩ := ih _ _ _ _ _ _ _ (by exact ⟨hg.1, h3⟩) h
            refine ⟨.keyShares n :: body, ms, thr, rfl, hrest, ?_, hthr, hc, fun hdd => absurd hdd hdir⟩
            dsimp only at hb
            rw [hn]
            unfold pre at hb ⊢
            by_cases hn1 : n = 1
            · subst hn1
              exact .oneShare _ _ _ _ _ _ (by simpa using hb)
            · simpa [hn1] using hb
          · simp at h
      · -- threshold
        rw [parseLoop] at h
        by_cases h1 : dir = .decrypt ∧ ¬ decryptAllowed (.keyThreshold n)
        · rw [if_pos h1] at h; simp at h
        by_cases h2 : acc.nextKeyShares ≠ 1 ∧ ¬ keySharesAllowed (.keyThreshold n)
        · rw [if_neg h1, if_pos h2] at h; simp at h
        · rw [if_neg h1, if_neg h2] at h
          have hn : acc.nextKeyShares = 1 := by
            by_cases hn : acc.nextKeyShares = 1
            · exact hn
            · exact absurd ⟨hn, by simp [keySharesAllowed]⟩ h2
          have hdir : dir ≠ .decrypt := fun hd => h1 ⟨hd, by simp [decryptAllowed]⟩
          split_ifs at h with h3
          · simp at h
          · have h3 : acc.threshold = none := by simpa using h3
            obtain ⟨body, ms, thr, rfl, hrest, hb, hthr, hc, hd⟩ := ih _ _ _ _ _ _ _ (by exact ⟨hg.1, hg.2⟩) h
            have hthr : thr = none := by simpa using hthr
            subst hthr
            refine ⟨.keyThreshold n :: body, ms, some (.threshold n), rfl, hrest, ?_, .inl h3, ?_, fun hdd => absurd hdd hdir⟩
            · rw [hn]
              exact .threshold _ _ _ _ _ _ (by simpa [hn, pre] using hb)
            · rw [h3]; exact hc

theorem parseLoop_shares (env : Env) (dir : CryptDirection) (skip : Bool) (fuel level n : Nat) (acc : Acc) (pre toks : List Token)
    (t : Term) (hp : Shares pre n) (hn : acc.nextKeyShares = 1) (hd : dir = .decrypt → ∀ tok ∈ pre, tok.IsKey) :
    parseLoop env dir skip (fuel + pre.length) level acc (pre ++ toks) t =
      parseLoop env dir skip fuel level { acc with nextKeyShares := n } toks t := by
  cases hp with
  | default => simp [← hn]
  | given _ h1 =>
    have hdir : dir ≠ .decrypt := fun h => by simpa [Token.IsKey] using hd h
    simp only [List.length_cons, List.length_nil, Nat.zero_add, List.cons_append, List.nil_append]
    rw [parseLoop, if_neg (by simp [hdir]), if_neg (by simp [hn]), if_neg (by omega)]

theorem parseLoop_complete (env : Env) (dir : CryptDirection) (skip : Bool) {top : Bool} {body : List Token} {t t' : Term}
    {ms : List (Nat × Credential)} {thr : Option KeyThresholdType} (h : Body env dir skip top body t ms thr t') :
    ∀ (fuel level : Nat) (acc : Acc) (rest : List Token), top = (level == 0) → (level = 0 → rest = []) →
      (body ++ tail level rest).length ≤ fuel → acc.Good → acc.nextKeyShares = 1 → (acc.threshold = none ∨ thr = none) →
      (dir = .decrypt → ∀ tok ∈ body ++ tail level rest, tok.IsKey) →
      ∀ c, Closed (acc.subCreds ++ ms) (acc.threshold <|> thr) c →
      parseLoop env dir skip fuel level acc (body ++ tail level rest) t = (.ok (c, rest), t') := by
  induction h with
  | nil top t =>
    intro fuel level acc rest htop hrest hfuel hg hn hthr hd c hc
    simp only [List.append_nil, Option.orElse_eq_orElse, Option.orElse_eq_or, Option.or_none] at hc
    by_cases hl : level = 0
    · subst hl
      rw [hrest rfl]
      simp only [tail, if_true, List.nil_append]
      rw [parseLoop]
      rw [(Acc.finish_ok hg).2 ⟨by simp, hc⟩]
    · simp only [tail, if_neg hl, List.nil_append] at hd hfuel ⊢
      have hdir : dir ≠ .decrypt := fun h => by simpa [Token.IsKey] using hd h .endGroup (by simp)
      obtain ⟨fuel, rfl⟩ : ∃ f, fuel = f + 1 := ⟨fuel - 1, by simp at hfuel; omega⟩
      rw [parseLoop, if_neg (by simp [hdir]), if_neg (by simp [hn])]
      rw [(Acc.finish_ok hg).2 ⟨by simp [hl], hc⟩]
  | keys top pre n tok toks t t1 t2 cs ms thr hp hk hpr hne _ ih =>
    intro fuel level acc rest htop hrest hfuel hg hn hthr hd c hc
    obtain ⟨fuel, rfl⟩ : ∃ f, fuel = (f + 1) + pre.length := ⟨fuel - 1 - pre.length, by simp at hfuel; omega⟩
    rw [List.append_assoc, parseLoop_shares _ _ _ _ _ _ _ _ _ _ hp hn (fun h x hx => hd h x (by simp [hx])), List.cons_append,
      parseLoop_key _ _ _ _ _ _ _ _ _ hk, provides_readKeys _ _ _ _ _ _ _ hpr]
    dsimp only
    obtain ⟨acc', ha⟩ := Acc.add_of (acc := { acc with nextKeyShares := n }) hne
    rw [ha]
    have h1 : 1 ≤ n := by cases hp <;> omega
    obtain ⟨_, hg', hs, hn', ht⟩ := Acc.add_ok ha (by exact ⟨hg.1, h1⟩)
    dsimp only at hs ht ⊢
    refine ih fuel level acc' rest htop hrest ?_ hg' hn' (by rw [ht]; exact hthr) (fun h x hx => ?_) c ?_
    · simp at hfuel ⊢; omega
    · refine hd h x ?_
      simp only [List.mem_append, List.mem_cons] at hx ⊢
      rcases hx with hx | hx
      · exact .inl (.inr (.inr hx))
      · exact .inr hx
    · rw [hs, ht, List.append_assoc]; exact hc
  | group top pre n inner toks t t1 t2 ms' ms thr' thr c' hp _ hc' _ ih1 ih2 =>
    intro fuel level acc rest htop hrest hfuel hg hn hthr hd c hc
    have hdir : dir ≠ .decrypt := fun h => by simpa [Token.IsKey] using hd h .startGroup (by simp)
    obtain ⟨fuel, rfl⟩ : ∃ f, fuel = (f + 1) + pre.length := ⟨fuel - 1 - pre.length, by simp at hfuel; omega⟩
    rw [List.append_assoc, parseLoop_shares _ _ _ _ _ _ _ _ _ _ hp hn (fun h => absurd h hdir), List.cons_append, parseLoop,
      if_neg (by simp [hdir]), if_neg (by simp [keySharesAllowed])]
    have hin := ih1 fuel (level + 1) Acc.init (toks ++ tail level rest) (by simp) (by simp) (by simp [tail] at hfuel ⊢; omega)
      Acc.good_init rfl (.inl rfl) (fun h => absurd h hdir) c' (by simpa [Acc.init] using hc')
    have htl : (inner ++ Token.endGroup :: toks) ++ tail level rest = inner ++ tail (level + 1) (toks ++ tail level rest) := by
      simp [tail]
    rw [htl, hin]
    dsimp only
    obtain ⟨acc', ha⟩ := Acc.add_of (acc := { acc with nextKeyShares := n })
      (cs := [.complex c'.subCreds c'.numShares c'.threshold]) (by simp)
    rw [ha]
    have h1 : 1 ≤ n := by cases hp <;> omega
    obtain ⟨_, hg', hs, hn', ht⟩ := Acc.add_ok ha (by exact ⟨hg.1, h1⟩)
    dsimp only at hs ht ⊢
    refine ih2 fuel level acc' rest htop hrest ?_ hg' hn' (by rw [ht]; exact hthr) (fun h => absurd h hdir) c ?_
    · simp at hfuel ⊢; omega
    · rw [hs, ht, List.append_assoc]; exact hc
  | allKeys top toks t t' ms _ ih =>
    intro fuel level acc rest htop hrest hfuel hg hn hthr hd c hc
    have hdir : dir ≠ .decrypt := fun h => by simpa [Token.IsKey] using hd h .requireAllKeys (by simp)
    have hthr : acc.threshold = none := by simpa using hthr
    obtain ⟨fuel, rfl⟩ : ∃ f, fuel = f + 1 := ⟨fuel - 1, by simp at hfuel; omega⟩
    rw [List.cons_append, parseLoop, if_neg (by simp [hdir]), if_neg (by simp [hn]), if_neg (by simp [hthr])]
    refine ih fuel level { acc with threshold := some .allKeys } rest htop hrest ?_ (by exact hg) hn (.inr rfl) (fun h => absurd h hdir) c ?_
    · simp at hfuel ⊢; omega
    · rw [hthr] at hc; exact hc
  | threshold top k toks t t' ms _ ih =>
    intro fuel level acc rest htop hrest hfuel hg hn hthr hd c hc
    have hdir : dir ≠ .decrypt := fun h => by simpa [Token.IsKey] using hd h (.keyThreshold k) (by simp)
    have hthr : acc.threshold = none := by simpa using hthr
    obtain ⟨fuel, rfl⟩ : ∃ f, fuel = f + 1 := ⟨fuel - 1, by simp at hfuel; omega⟩
    rw [List.cons_append, parseLoop, if_neg (by simp [hdir]), if_neg (by simp [hn]), if_neg (by simp [hthr])]
    refine ih fuel level { acc with threshold := some (.threshold k) } rest htop hrest ?_ (by exact hg) hn (.inr rfl) (fun h => absurd h hdir) c ?_
    · simp at hfuel ⊢; omega
    · rw [hthr] at hc; exact hc
  | oneShare top toks t t' ms thr _ ih =>
    intro fuel level acc rest htop hrest hfuel hg hn hthr hd c hc
    have hdir : dir ≠ .decrypt := fun h => by simpa [Token.IsKey] using hd h (.keyShares 1) (by simp)
    obtain ⟨fuel, rfl⟩ : ∃ f, fuel = f + 1 := ⟨fuel - 1, by simp at hfuel; omega⟩
    rw [List.cons_append, parseLoop, if_neg (by simp [hdir]), if_neg (by simp [hn]), if_neg (by simp)]
    refine ih fuel level { acc with nextKeyShares := 1 } rest htop hrest ?_ (by exact ⟨hg.1, Nat.le_refl _⟩) rfl hthr (fun h => absurd h hdir) c hc
    · simp at hfuel ⊢; omega
  | danglingShares n t h1 =>
    intro fuel level acc rest htop hrest hfuel hg hn hthr hd c hc
    have hdir : dir ≠ .decrypt := fun h => by simpa [Token.IsKey] using hd h (.keyShares n) (by simp)
    have hl : level = 0 := by simpa using htop.symm
    subst hl
    rw [hrest rfl]
    obtain ⟨fuel, rfl⟩ : ∃ f, fuel = f + 1 := ⟨fuel - 1, by simp at hfuel; omega⟩
    simp only [tail, if_true, List.append_nil, Option.orElse_eq_orElse, Option.orElse_eq_or, Option.or_none] at hc ⊢
    rw [parseLoop, if_neg (by simp [hdir]), if_neg (by simp [hn]), if_neg (by omega), parseLoop]
    rw [(Acc.finish_ok (acc := { acc with nextKeyShares := n }) (by exact ⟨hg.1, h1⟩)).2 ⟨by simp, hc⟩]

/-- The parser accepts what the grammar describes. -/
theorem parse_iff (env : Env) (tokens : List Token) (dir : CryptDirection) (skip : Bool) (t t' : Term) (c : ComplexCredential) :
    parseComplexCredential env tokens dir skip t = (.ok c, t') ↔
      Describes env dir skip tokens t c t' ∧ (dir = .decrypt → ∀ tok ∈ tokens, tok.IsKey) := by
  unfold parseComplexCredential
  constructor
  · intro h
    split at h
    · rename_i c' rest t1 hl
      simp only [Prod.mk.injEq, Res.ok.injEq] at h
      obtain ⟨rfl, rfl⟩ := h
      obtain ⟨body, ms, thr, he, hr, hb, _, hc, hd⟩ := parseLoop_sound _ _ _ _ _ _ _ _ _ _ _ Acc.good_init hl
      have : tokens = body := by simpa [tail] using he
      subst this
      exact ⟨⟨ms, thr, by simpa [pre, Acc.init] using hb, by simpa [Acc.init] using hc⟩, hd⟩
    · simp at h
    · simp at h
  · rintro ⟨⟨ms, thr, hb, hc⟩, hd⟩
    have := parseLoop_complete env dir skip hb tokens.length 0 Acc.init [] rfl (by simp) (by simp [tail]) Acc.good_init rfl
      (.inl rfl) (by simpa [tail] using hd) c (by simpa [Acc.init] using hc)
    simp only [tail, if_true, List.append_nil] at this
    rw [this]

end Rypt.Cli
