import Verif.Props.CliCredentials

/-! Property C71 for whole command lines. -/

namespace Rypt.Props

open Cli Getopts UI CryptStreams Spec KeyText HeaderCrypto

private theorem number_exists (n : Nat) : ∃ cs ds, cs ≠ [] ∧ List.Forall₂ IsDecimalDigit cs ds ∧ n = ds.foldl (fun a d => 10 * a + d) 0 := by
  induction n using Nat.strongRecOn with
  | _ n ih =>
    have hd : ∀ d < 10, ∃ c, IsDecimalDigit c d := by
      intro d hd
      exact ⟨_, List.getElem?_eq_getElem (by simpa using hd)⟩
    obtain ⟨c, hc⟩ := hd (n % 10) (by omega)
    by_cases h : n < 10
    · exact ⟨[c], [n % 10], by simp, .cons hc .nil, by simp; omega⟩
    · obtain ⟨cs, ds, hne, hf, hn⟩ := ih (n / 10) (by omega)
      refine ⟨cs ++ [c], ds ++ [n % 10], by simp, ?_, ?_⟩
      · exact List.rel_append hf (.cons hc .nil)
      · rw [List.foldl_append, ← hn]
        simp
        omega

private theorem isNumber_exists {n : Nat} (h : n < 2 ^ 64) : ∃ v, IsNumber v n := by
  obtain ⟨cs, ds, h1, h2, h3⟩ := number_exists n
  exact ⟨cs, cs, ds, .inl rfl, h1, h2, h3, h⟩

/-- An argument for a credential option. -/
private theorem argument_exists (tok : Token) (h : tok.Typable) : ∃ (a : Arg) (o : Opt) (v : Option Arg), aboutCredentials o = true ∧
    ∀ n, IsToken ⟨o, n, v⟩ tok ∧ ∀ args occs free, Typed (n + 1) args occs free → Typed n (a :: args) (⟨o, n, v⟩ :: occs) free := by
  have flag : ∀ o : Opt, o.IsFlag → ∀ n args occs free, Typed (n + 1) args occs free →
      Typed n (('-' :: '-' :: o.longName) :: args) (⟨o, n, none⟩ :: occs) free :=
    fun o ho n args occs free => .longFlag n _ o args occs free (.inl rfl) ho
  have value : ∀ (o : Opt) (v : Arg), ¬ o.IsFlag → ∀ n args occs free, Typed (n + 1) args occs free →
      Typed n (('-' :: '-' :: (o.longName ++ '=' :: v)) :: args) (⟨o, n, some v⟩ :: occs) free :=
    fun o v ho n args occs free => .longEq n _ v o args occs free (.inl rfl) ho
  cases tok with
  | keyThreshold k =>
    obtain ⟨v, hv⟩ := isNumber_exists h
    exact ⟨_, .keyThreshold, some v, rfl, fun n => ⟨.keyThreshold n v k hv, value _ v (by simp [Opt.IsFlag]) n⟩⟩
  | keyShares k =>
    obtain ⟨v, hv⟩ := isNumber_exists h
    exact ⟨_, .keyShares, some v, rfl, fun n => ⟨.keyShares n v k hv, value _ v (by simp [Opt.IsFlag]) n⟩⟩
  | requireAllKeys => exact ⟨_, .requireAllKeys, none, rfl, fun n => ⟨.requireAllKeys n _, flag _ (by simp [Opt.IsFlag]) n⟩⟩
  | startGroup => exact ⟨_, .startGroup, none, rfl, fun n => ⟨.startGroup n _, flag _ (by simp [Opt.IsFlag]) n⟩⟩
  | endGroup => exact ⟨_, .endGroup, none, rfl, fun n => ⟨.endGroup n _, flag _ (by simp [Opt.IsFlag]) n⟩⟩
  | interactivePassword => exact ⟨_, .password, none, rfl, fun n => ⟨.password n _, flag _ (by simp [Opt.IsFlag]) n⟩⟩
  | namedInteractivePassword v => exact ⟨_, .passwordNamed, some v, rfl, fun n => ⟨.passwordNamed n v, value _ v (by simp [Opt.IsFlag]) n⟩⟩
  | passwordFile v => exact ⟨_, .passwordFile, some v, rfl, fun n => ⟨.passwordFile n v, value _ v (by simp [Opt.IsFlag]) n⟩⟩
  | symmetricKeyFile v => exact ⟨_, .symmetricKey, some v, rfl, fun n => ⟨.symmetricKey n v, value _ v (by simp [Opt.IsFlag]) n⟩⟩
  | publicKeyFile v => exact ⟨_, .publicKey, some v, rfl, fun n => ⟨.publicKey n v, value _ v (by simp [Opt.IsFlag]) n⟩⟩
  | publicKeyText v => exact ⟨_, .publicKeyText, some v, rfl, fun n => ⟨.publicKeyText n v, value _ v (by simp [Opt.IsFlag]) n⟩⟩
  | privateKeyFile v => exact ⟨_, .privateKey, some v, rfl, fun n => ⟨.privateKey n v, value _ v (by simp [Opt.IsFlag]) n⟩⟩

/-- Arguments for several credential options, with any file names after them. -/
private theorem arguments_exist (toks : List Token) (h : ∀ tok ∈ toks, tok.Typable) : ∃ opts : List Arg, ∀ n files, ∃ occs,
    Typed n (opts ++ ['-', '-'] :: files) occs files ∧ TypedTokens occs toks ∧ (∀ x ∈ occs, aboutCredentials x.opt = true ∧ n ≤ x.pos) ∧
      occs.Pairwise (fun x y => x.pos ≠ y.pos) := by
  induction toks with
  | nil => exact ⟨[], fun n files => ⟨[], .stop n files, .nil, by simp, .nil⟩⟩
  | cons tok toks ih =>
    obtain ⟨opts, ih⟩ := ih (fun x hx => h x (by simp [hx]))
    obtain ⟨a, o, v, habout, ha⟩ := argument_exists tok (h tok (by simp))
    refine ⟨a :: opts, fun n files => ?_⟩
    obtain ⟨occs, h1, h2, h3, h4⟩ := ih (n + 1) files
    obtain ⟨h5, h6⟩ := ha n
    refine ⟨⟨o, n, v⟩ :: occs, h6 _ _ _ h1, .cons _ _ _ _ h5 h2, ?_, .cons ?_ h4⟩
    · intro x hx
      rcases List.mem_cons.mp hx with rfl | hx
      · exact ⟨habout, Nat.le_refl _⟩
      · exact ⟨(h3 x hx).1, by have := (h3 x hx).2; omega⟩
    · intro y hy
      have := (h3 y hy).2
      show n ≠ y.pos
      omega

/-- C71: for every well-formed credential, however deeply nested, whose passwords and keys are available, there are options with which
the program encrypts any files to exactly this credential, without asking for anything. -/
theorem every_credential_typable (env : Env) (c : ComplexCredential) (hw : c.WF)
    (hs : ∀ l ∈ leavesOf c.subCreds, ∃ tok, ∀ t, Provides env .encrypt false tok t [l] t) :
    ∃ opts : List Arg, ∀ (files : List Arg) (ttys : Ttys) (ui : Ui), files ≠ [] → (∀ a ∈ files, ¬ TrimsTo a ['-']) →
      ∃ streams ui' v, parseCommandLine env (opts ++ files) ttys ui =
          (.ok (.cryptStreams streams .promptUser false (.encrypt c false)), ui') ∧ ui'.term = { ui.term with verbosity := v } ∧
        List.Forall₂ (fun a s => s.input = .file a) files streams := by
  have hw' := hw
  unfold ComplexCredential.WF at hw'
  rw [Credential.WF] at hw'
  obtain ⟨h1, h2, h3, h4, h5⟩ := hw'
  obtain ⟨toks, hty, ht⟩ := expressible_members env false c.subCreds h5 (by omega) hs
  obtain ⟨opts, hopts⟩ := arguments_exist (.keyThreshold c.threshold :: toks) (by
    intro tok htok
    rcases List.mem_cons.mp htok with rfl | htok
    · show c.threshold < 2 ^ 64
      omega
    · exact hty _ htok)
  refine ⟨opts ++ [['-', '-']], fun files ttys ui hne hdash => ?_⟩
  obtain ⟨occs, hT, htt, habout, hpos⟩ := hopts 0 files
  have hT : Typed 0 (opts ++ [['-', '-']] ++ files) occs files := by simpa using hT
  have hnot : ∀ o, aboutCredentials o = false → ¬ Given occs o := by
    rintro o ho ⟨x, hx, rfl⟩
    rw [(habout x hx).1] at ho
    cases ho
  have hcount : ∀ o, aboutCredentials o = false → occs.countP (fun x => x.opt = o) = 0 := by
    intro o ho
    rw [List.countP_eq_zero]
    intro x hx hxo
    exact hnot o ho ⟨x, hx, by simpa using hxo⟩
  have hverb : askedVerbosity occs = 0 := by
    unfold askedVerbosity
    rw [hcount .verbose rfl, hcount .quiet rfl]
    rfl
  have hmode : LastMode occs (.crypt .encrypt) := by
    refine .inl ⟨fun x hx => ?_, rfl⟩
    have := (habout x hx).1
    cases ho : x.opt <;> simp_all [aboutCredentials, modeOf]
  have hdup : NoDuplicates occs := by
    intro o ho
    by_cases hab : aboutCredentials o = true
    · exact absurd (by cases o <;> simp_all [aboutCredentials, Opt.Repeatable]) ho
    · rw [hcount o (by simpa using hab)]
      omega
  have hfree : files ≠ [['-']] := by
    rintro rfl
    exact hdash ['-'] (by simp) ⟨[], [], by simp, by simp, by simp, by decide⟩
  obtain ⟨streams, policy, v, -, henc, -⟩ := conversion_accepted env _ ttys ui occs files hT hdup (by omega) (by simp) .encrypt hmode
    (fun h => absurd h (hnot _ rfl)) (fun _ _ => hdash)
    (fun _ => ⟨fun _ h => by
        rcases h with h | h | h
        · exact absurd h (hnot _ rfl)
        · exact absurd h hne
        · exact absurd h hfree, fun h => by cases h⟩)
    (fun h => hnot _ rfl h.1) _ htt (hpos.imp (fun h _ _ => h)) false ⟨by simp, fun h => absurd h (hnot _ rfl)⟩
  obtain ⟨fast, ui', hp, hui⟩ := henc rfl c _ (by
    rw [if_neg (by simp)]
    exact ⟨c.subCreds, some (.threshold c.threshold), .threshold _ _ _ _ _ _ (ht true _), rfl,
      by rw [totalShares_eq, ← h1, Nat.mod_eq_of_lt h2], rfl, h3, h4⟩)
  obtain ⟨-, hk, hd, -, hfast⟩ := flags_reach_command _ _ _ _ _ _ _ hT _ _ _ _ hp
  have hpol : policy = .promptUser := by
    cases policy with
    | promptUser => rfl
    | keepFiles => exact absurd (hk.mp rfl) (hnot _ rfl)
    | deleteFiles => exact absurd (hd.mp rfl) (hnot _ rfl)
  have hfast : fast = false := by
    rw [← Bool.not_eq_true, hfast _ _ rfl]
    exact hnot _ rfl
  subst hpol hfast
  refine ⟨streams, ui', v, hp, hui, ?_⟩
  rcases streams_selected _ _ _ _ _ _ _ hT _ _ _ _ hp with ⟨h | h | h, -⟩ | ⟨-, -, -, ext, -, -, hall⟩
  · exact absurd h (hnot _ rfl)
  · exact absurd h hne
  · exact absurd h hfree
  · exact hall.imp fun a s h => h.1

example : ∃ opts : List Arg, ∀ (files : List Arg) (ttys : Ttys) (ui : Ui), files ≠ [] → (∀ a ∈ files, ¬ TrimsTo a ['-']) →
    ∃ streams ui' v, parseCommandLine credFiles (opts ++ files) ttys ui =
        (.ok (.cryptStreams streams .promptUser false (.encrypt
          ⟨[(2, .complex [(1, .password [120]), (3, .complex [(1, .password [120])] 1 1)] 4 3), (1, .password [120])], 3, 2⟩ false)), ui') ∧
      ui'.term = { ui.term with verbosity := v } ∧ List.Forall₂ (fun a s => s.input = .file a) files streams := by
  apply every_credential_typable
  · simp [ComplexCredential.WF, Credential.WF, MembersWF, Rypt.totalShares]
  · intro l hl
    have hl : l = .password [120] := by simpa [leavesOf, Credential.leaves] using hl
    subst hl
    refine ⟨.passwordFile "one".toList, fun t => ?_⟩
    have h : KeyLines (credFiles.readFile "one".toList) [['x']] :=
      (keyLines_of_text ['x'] [['x']]).mpr (by decide +kernel)
    exact .passwordFile _ t [['x']] h (by simp)

/-- C71: for every list of passwords and keys that are available there are options with which the program decrypts any files with
exactly these, without asking for anything. -/
theorem every_key_list_typable (env : Env) (cs : List Credential) (hne : cs ≠ []) (hlen : cs.length < 2 ^ 64)
    (hs : ∀ l ∈ cs, ∃ tok, ∀ t, Provides env .decrypt false tok t [l] t) :
    ∃ opts : List Arg, ∀ (files : List Arg) (ttys : Ttys) (ui : Ui), files ≠ [] → (∀ a ∈ files, ¬ TrimsTo a ['-']) →
      ∃ streams ui' v, parseCommandLine env (opts ++ files) ttys ui =
          (.ok (.cryptStreams streams .promptUser false (.decrypt cs)), ui') ∧ ui'.term = { ui.term with verbosity := v } ∧
        List.Forall₂ (fun a s => s.input = .file a) files streams := by
  have htoks : ∃ toks : List Token, toks.length = cs.length ∧ (∀ tok ∈ toks, tok.Typable) ∧ ∀ t, ProvidesAll env .decrypt false toks t cs t := by
    clear hlen hne
    induction cs with
    | nil => exact ⟨[], rfl, by simp, fun t => .nil t⟩
    | cons c cs ih =>
      obtain ⟨toks, h0, h1, h2⟩ := ih (fun l hl => hs l (by simp [hl]))
      obtain ⟨tok, htok⟩ := hs c (by simp)
      refine ⟨tok :: toks, by simp [h0], ?_, fun t => .cons tok toks t t t [c] cs (htok t) (h2 t)⟩
      intro x hx
      rcases List.mem_cons.mp hx with rfl | hx
      · exact (provides_isKey (htok ⟨[], false, false, false, 0, .zeroed, [], [], []⟩)).typable
      · exact h1 x hx
  obtain ⟨toks, htl, hty, hprov⟩ := htoks
  obtain ⟨opts, hopts⟩ := arguments_exist toks hty
  refine ⟨"--decrypt".toList :: (opts ++ [['-', '-']]), fun files ttys ui hfn hdash => ?_⟩
  obtain ⟨occs, hT, htt, habout, hpos⟩ := hopts 1 files
  have hT : Typed 0 ("--decrypt".toList :: (opts ++ [['-', '-']]) ++ files) (⟨.decrypt, 0, none⟩ :: occs) files :=
    .longFlag 0 _ .decrypt _ _ _ (.inl rfl) (by simp [Opt.IsFlag]) (by simpa using hT)
  have hnot : ∀ o, aboutCredentials o = false → o ≠ .decrypt → ¬ Given (⟨.decrypt, 0, none⟩ :: occs) o := by
    rintro o ho hod ⟨x, hx, rfl⟩
    rcases List.mem_cons.mp hx with rfl | hx
    · exact hod rfl
    · rw [(habout x hx).1] at ho
      cases ho
  have hcount : ∀ o, aboutCredentials o = false → o ≠ .decrypt →
      (⟨.decrypt, 0, none⟩ :: occs : List Occ).countP (fun x => x.opt = o) = 0 := by
    intro o ho hod
    rw [List.countP_eq_zero]
    intro x hx hxo
    exact hnot o ho hod ⟨x, hx, by simpa using hxo⟩
  have hverb : askedVerbosity (⟨.decrypt, 0, none⟩ :: occs) = 0 := by
    unfold askedVerbosity
    rw [hcount .verbose rfl (by decide), hcount .quiet rfl (by decide)]
    rfl
  have hother : ∀ x ∈ occs, modeOf x.opt = none := by
    intro x hx
    have := (habout x hx).1
    cases ho : x.opt <;> simp_all [aboutCredentials, modeOf]
  have hmode : LastMode (⟨.decrypt, 0, none⟩ :: occs) (.crypt .decrypt) := by
    refine .inr ⟨_, List.mem_cons_self, rfl, fun y hy mode' hm => ?_⟩
    rcases List.mem_cons.mp hy with rfl | hy
    · cases hm
      exact .inr ⟨rfl, Nat.le_refl _⟩
    · rw [hother y hy] at hm
      cases hm
  have hdup : NoDuplicates (⟨.decrypt, 0, none⟩ :: occs) := by
    intro o ho
    by_cases hab : aboutCredentials o = true
    · exact absurd (by cases o <;> simp_all [aboutCredentials, Opt.Repeatable]) ho
    · by_cases hod : o = .decrypt
      · subst hod
        rw [List.countP_cons_of_pos (by simp), List.countP_eq_zero.mpr]
        intro x hx hxo
        have := (habout x hx).1
        rw [show x.opt = .decrypt by simpa using hxo] at this
        cases this
      · rw [hcount o (by simpa using hab) hod]
        omega
  have hfree : files ≠ [['-']] := by
    rintro rfl
    exact hdash ['-'] (by simp) ⟨[], [], by simp, by simp, by simp, by decide⟩
  obtain ⟨streams, policy, v, -, -, hdec⟩ := conversion_accepted env _ ttys ui _ files hT hdup (by omega) (by simp) .decrypt hmode
    (fun h => absurd h (hnot _ rfl (by decide))) (fun _ _ => hdash)
    (fun _ => ⟨(fun h => by cases h), fun _ h => by
        rcases h with h | h
        · exact absurd h hfn
        · exact absurd h hfree⟩)
    (fun h => hnot _ rfl (by decide) h.1) _ (.skip _ _ _ rfl htt) (by
      refine .cons (fun y hy h => ?_) (hpos.imp (fun h _ _ => h))
      cases h) false ⟨by simp, fun h => absurd h (hnot _ rfl (by decide))⟩
  obtain ⟨ui', hp, hui⟩ := hdec rfl cs _ (by
    rw [if_neg (by rintro rfl; simp at htl; exact hne (by simpa using htl.symm))]
    exact hprov _) hlen
  obtain ⟨-, hk, hd, -, -⟩ := flags_reach_command _ _ _ _ _ _ _ hT _ _ _ _ hp
  have hpol : policy = .promptUser := by
    cases policy with
    | promptUser => rfl
    | keepFiles => exact absurd (hk.mp rfl) (hnot _ rfl (by decide))
    | deleteFiles => exact absurd (hd.mp rfl) (hnot _ rfl (by decide))
  subst hpol
  refine ⟨streams, ui', v, hp, hui, ?_⟩
  rcases streams_selected _ _ _ _ _ _ _ hT _ _ _ _ hp with ⟨h | h | h, -⟩ | ⟨-, -, -, ext, -, -, hall⟩
  · exact absurd h (hnot _ rfl (by decide))
  · exact absurd h hfn
  · exact absurd h hfree
  · exact hall.imp fun a s h => h.1

example : ∃ opts : List Arg, ∀ (files : List Arg) (ttys : Ttys) (ui : Ui), files ≠ [] → (∀ a ∈ files, ¬ TrimsTo a ['-']) →
    ∃ streams ui' v, parseCommandLine credFiles (opts ++ files) ttys ui =
        (.ok (.cryptStreams streams .promptUser false (.decrypt [.password [120], .password [120]])), ui') ∧
      ui'.term = { ui.term with verbosity := v } ∧ List.Forall₂ (fun a s => s.input = .file a) files streams := by
  apply every_key_list_typable _ _ (by simp) (by decide)
  intro l hl
  have hl : l = .password [120] := by simpa using hl
  subst hl
  refine ⟨.passwordFile "one".toList, fun t => ?_⟩
  have h : KeyLines (credFiles.readFile "one".toList) [['x']] :=
    (keyLines_of_text ['x'] [['x']]).mpr (by decide +kernel)
  exact .passwordFile _ t [['x']] h (by simp)

end Rypt.Props
