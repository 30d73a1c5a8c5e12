import Verif.Proofs.CliCredentials
import Verif.Proofs.Passwords
import Verif.Proofs.KeyText
import Verif.Proofs.Header
import Verif.Proofs.NoPanic
import Verif.Props.Header

/-! Credentials from the command line suit the direction; no panic. -/

namespace Rypt.Cli

open Getopts UI KeyText Text

theorem collect_all {α β : Type} {f : α → Res β} {P : β → Prop} (hP : ∀ a b, f a = .ok b → P b) :
    ∀ {l : List α} {r : List β}, collect f l = .ok r → ∀ b ∈ r, P b := by
  intro l
  induction l with
  | nil => intro r h; rw [collect] at h; cases h; simp
  | cons a l ih =>
    intro r h
    rw [collect] at h
    obtain ⟨b, hb, h⟩ := Res.bind_eq_ok.mp h
    obtain ⟨bs, hbs, h⟩ := Res.bind_eq_ok.mp h
    cases h
    intro x hx
    rcases List.mem_cons.mp hx with rfl | hx
    · exact hP _ _ hb
    · exact ih hbs x hx

theorem collect_no_panic {α β : Type} {f : α → Res β} : ∀ {l : List α}, (∀ a ∈ l, f a ≠ .panic) → collect f l ≠ .panic := by
  intro l
  induction l with
  | nil => intro _ h; cases h
  | cons a l ih =>
    intro hf h
    rw [collect] at h
    rcases Res.bind_eq_panic.mp h with h | ⟨b, -, h⟩
    · exact hf a (by simp) h
    rcases Res.bind_eq_panic.mp h with h | ⟨b, -, h⟩
    · exact ih (fun a ha => hf a (by simp [ha])) h
    · cases h

theorem readFileLines_all {content : Option Bytes} {f : List Char → Res Credential} {P : Credential → Prop} {cs : List Credential}
    (hP : ∀ a b, f a = .ok b → P b) (h : readFileLines content f = .ok cs) : cs ≠ [] ∧ ∀ c ∈ cs, P c := by
  unfold readFileLines at h
  split at h
  · cases h
  split at h
  · cases h
  obtain ⟨l, hl, h⟩ := Res.bind_eq_ok.mp h
  split at h
  · cases h
  rename_i hne
  cases h
  exact ⟨by simpa using hne, collect_all hP hl⟩

theorem readFileLines_no_panic {content : Option Bytes} {f : List Char → Res Credential}
    (hf : ∀ bytes text, content = some bytes → fromUtf8 bytes = .ok text → ∀ line ∈ lines text, f (trim line) ≠ .panic) :
    readFileLines content f ≠ .panic := by
  unfold readFileLines
  split
  · simp
  split
  · simp
  rename_i bytes _ text htext
  intro h
  rcases Res.bind_eq_panic.mp h with h | ⟨l, -, h⟩
  · refine collect_no_panic ?_ h
    intro a ha
    obtain ⟨ha, -⟩ := List.mem_filter.mp ha
    obtain ⟨line, hl, rfl⟩ := List.mem_map.mp ha
    exact hf _ _ rfl htext line hl
  · split at h <;> cases h

theorem fromHex32_no_panic (sha512 : Bytes → Bytes) (s : List Char) (skip : Bool) : fromHex32 sha512 s skip ≠ .panic := by
  unfold fromHex32
  intro h
  rcases Res.bind_eq_panic.mp h with h | ⟨b, -, h⟩
  · exact tryParseHex_not_panic _ _ _ h
  · split at h <;> cases h

theorem ne_of_forall₂ {α β : Type} {R : α → β → Prop} {l : List α} {r : List β} (hne : l ≠ []) (h : List.Forall₂ R l r) : r ≠ [] := by
  cases h with
  | nil => exact absurd rfl hne
  | cons => simp

/-- The keys provided suit the direction. -/
theorem provides_leaf {env : Env} {dir : CryptDirection} {skip : Bool} {t t' : Term} {tok : Token} {cs : List Credential}
    (h : Provides env dir skip tok t cs t') :
    cs ≠ [] ∧ ∀ c ∈ cs, (dir = .encrypt → ∃ b, c = .password b ∨ c = .symmetricKey b ∨ c = .publicKey b) ∧ (dir = .decrypt → Usable c) := by
  cases h with
  | password => exact ⟨by simp, fun c hc => by rw [List.mem_singleton.mp hc]; exact ⟨fun _ => ⟨_, .inl rfl⟩, fun _ => trivial⟩⟩
  | named => exact ⟨by simp, fun c hc => by rw [List.mem_singleton.mp hc]; exact ⟨fun _ => ⟨_, .inl rfl⟩, fun _ => trivial⟩⟩
  | passwordFile _ _ ls h hne =>
    refine ⟨by simpa using hne, fun c hc => ?_⟩
    obtain ⟨l, -, rfl⟩ := List.mem_map.mp hc
    exact ⟨fun _ => ⟨_, .inl rfl⟩, fun _ => trivial⟩
  | symmetricKeyFile _ _ ls ks h hne hk =>
    refine ⟨by simpa using ne_of_forall₂ hne hk, fun c hc => ?_⟩
    obtain ⟨l, -, rfl⟩ := List.mem_map.mp hc
    exact ⟨fun _ => ⟨_, .inr (.inl rfl)⟩, fun _ => trivial⟩
  | publicKeyFile _ _ ls ks hd h hne hk =>
    refine ⟨by simpa using ne_of_forall₂ hne hk, fun c hc => ?_⟩
    obtain ⟨l, -, rfl⟩ := List.mem_map.mp hc
    exact ⟨fun _ => ⟨_, .inr (.inr rfl)⟩, fun h => by rw [hd] at h; cases h⟩
  | publicKeyText _ _ _ hd h =>
    exact ⟨by simp, fun c hc => by
      rw [List.mem_singleton.mp hc]; exact ⟨fun _ => ⟨_, .inr (.inr rfl)⟩, fun h => by rw [hd] at h; cases h⟩⟩
  | privateKeyFile _ _ ls ks hd h hne hk =>
    refine ⟨by simpa using ne_of_forall₂ hne hk, fun c hc => ?_⟩
    obtain ⟨l, -, rfl⟩ := List.mem_map.mp hc
    exact ⟨fun h => by (rw [hd] at h; cases h), fun _ => trivial⟩

/-- On encryption: no private keys, at any depth. -/
theorem body_noPrivate {env : Env} {skip : Bool} {top : Bool} {toks : List Token} {t t' : Term} {ms : List (Nat × Credential)}
    {thr : Option KeyThresholdType} (h : Body env .encrypt skip top toks t ms thr t') : ∀ m ∈ ms, NoPrivate m.2 := by
  induction h with
  | nil => simp
  | keys _ _ _ _ _ _ _ _ cs ms _ _ _ hp _ _ ih =>
    intro m hm
    rcases List.mem_append.mp hm with hm | hm
    · obtain ⟨c, hc, rfl⟩ := List.mem_map.mp hm
      obtain ⟨b, hb⟩ := ((provides_leaf hp).2 c hc).1 rfl
      rcases hb with rfl | rfl | rfl
      · exact .password _
      · exact .symmetricKey _
      · exact .publicKey _
    · exact ih m hm
  | group _ _ _ _ _ _ _ _ ms' ms _ _ c _ _ hc _ ih1 ih2 =>
    intro m hm
    rcases List.mem_cons.mp hm with rfl | hm
    · exact .complex _ _ _ (by rw [hc.subCreds]; exact ih1)
    · exact ih2 m hm
  | allKeys _ _ _ _ _ _ ih => exact ih
  | threshold _ _ _ _ _ _ _ ih => exact ih
  | oneShare _ _ _ _ _ _ _ ih => exact ih
  | danglingShares => simp

/-- Every key-providing argument provides keys. -/
theorem body_provides {env : Env} {dir : CryptDirection} {skip : Bool} {top : Bool} {toks : List Token} {t t' : Term}
    {ms : List (Nat × Credential)} {thr : Option KeyThresholdType} (h : Body env dir skip top toks t ms thr t') :
    ∀ tok ∈ toks, tok.IsKey → ∃ t cs t', Provides env dir skip tok t cs t' := by
  have hpre : ∀ pre n, Shares pre n → ∀ tok ∈ pre, ¬ tok.IsKey := by
    intro pre n hs tok htok
    cases hs with
    | default => cases htok
    | given n hn => rw [List.mem_singleton.mp htok]; exact id
  induction h with
  | nil => simp
  | keys _ pre n tok rest _ _ _ cs ms _ hs _ hp _ _ ih =>
    intro tok' htok hk
    rcases List.mem_append.mp htok with h | h
    · exact absurd hk (hpre _ _ hs _ h)
    rcases List.mem_cons.mp h with rfl | h
    · exact ⟨_, _, _, hp⟩
    · exact ih tok' h hk
  | group _ pre n inner rest _ _ _ ms' ms _ _ c hs _ hc _ ih1 ih2 =>
    intro tok htok hk
    rcases List.mem_append.mp htok with h | h
    · exact absurd hk (hpre _ _ hs _ h)
    rcases List.mem_cons.mp h with rfl | h
    · exact hk.elim
    rcases List.mem_append.mp h with h | h
    · exact ih1 tok h hk
    rcases List.mem_cons.mp h with rfl | h
    · exact hk.elim
    · exact ih2 tok h hk
  | allKeys _ _ _ _ _ _ ih =>
    intro tok htok hk
    rcases List.mem_cons.mp htok with rfl | h
    · exact hk.elim
    · exact ih tok h hk
  | threshold _ _ _ _ _ _ _ ih =>
    intro tok htok hk
    rcases List.mem_cons.mp htok with rfl | h
    · exact hk.elim
    · exact ih tok h hk
  | oneShare _ _ _ _ _ _ _ ih =>
    intro tok htok hk
    rcases List.mem_cons.mp htok with rfl | h
    · exact hk.elim
    · exact ih tok h hk
  | danglingShares n =>
    intro tok htok hk
    rw [List.mem_singleton.mp htok] at hk
    exact hk.elim

theorem body_providesAll {env : Env} {dir : CryptDirection} {skip : Bool} {top : Bool} {toks : List Token} {t t' : Term}
    {ms : List (Nat × Credential)} {thr : Option KeyThresholdType} (h : Body env dir skip top toks t ms thr t')
    (hk : ∀ tok ∈ toks, tok.IsKey) : ProvidesAll env dir skip toks t (ms.map (·.2)) t' := by
  induction h with
  | nil => exact .nil _
  | keys _ pre n tok rest _ _ _ cs ms _ hs _ hp _ _ ih =>
    cases hs with
    | default =>
      rw [List.map_append, List.map_map]
      have : cs.map ((fun m : Nat × Credential => m.2) ∘ fun x => (1, x)) = cs := by
        rw [show ((fun m : Nat × Credential => m.2) ∘ fun x => (1, x)) = id from rfl, List.map_id]
      rw [this]
      exact .cons _ _ _ _ _ _ _ hp (ih (fun tok htok => hk tok (by simp [htok])))
    | given n hn => exact (hk (.keyShares n) (by simp)).elim
  | group _ pre n inner rest _ _ _ ms' ms _ _ c hs _ hc _ ih1 ih2 => exact (hk .startGroup (by simp)).elim
  | allKeys _ _ _ _ _ _ ih => exact (hk .requireAllKeys (by simp)).elim
  | threshold _ k _ _ _ _ _ ih => exact (hk (.keyThreshold k) (by simp)).elim
  | oneShare _ _ _ _ _ _ _ ih => exact (hk (.keyShares 1) (by simp)).elim
  | danglingShares n => exact (hk (.keyShares n) (by simp)).elim

theorem body_of_providesAll {env : Env} {dir : CryptDirection} {skip : Bool} {top : Bool} {toks : List Token} {t t' : Term}
    {cs : List Credential} (h : ProvidesAll env dir skip toks t cs t') : Body env dir skip top toks t (cs.map (1, ·)) none t' := by
  induction h with
  | nil => exact .nil _ _
  | cons tok toks t t1 t2 cs cs' hp _ ih =>
    rw [List.map_append]
    exact .keys top [] 1 tok toks _ _ _ cs _ _ .default (provides_isKey hp) hp (provides_leaf hp).1 ih

theorem providesAll_keys {env : Env} {dir : CryptDirection} {skip : Bool} {toks : List Token} {t t' : Term}
    {cs : List Credential} (h : ProvidesAll env dir skip toks t cs t') : ∀ tok ∈ toks, tok.IsKey := by
  induction h with
  | nil => simp
  | cons tok toks t t1 t2 cs cs' hp _ ih =>
    intro tok' htok
    rcases List.mem_cons.mp htok with rfl | h
    · exact provides_isKey hp
    · exact ih _ h

theorem providesAll_ne {env : Env} {dir : CryptDirection} {skip : Bool} {toks : List Token} {t t' : Term}
    {cs : List Credential} (h : ProvidesAll env dir skip toks t cs t') (hne : toks ≠ []) : cs ≠ [] := by
  cases h with
  | nil => exact absurd rfl hne
  | cons tok toks t t1 t2 cs cs' hp _ =>
    have := (provides_leaf hp).1
    simp [this]

/-- On decryption: usable, with one share each, and threshold 1. -/
theorem body_usable {env : Env} {skip : Bool} {top : Bool} {toks : List Token} {t t' : Term} {ms : List (Nat × Credential)}
    {thr : Option KeyThresholdType} (h : Body env .decrypt skip top toks t ms thr t') (hk : ∀ tok ∈ toks, tok.IsKey) :
    thr = none ∧ ∀ m ∈ ms, m.1 = 1 ∧ Usable m.2 := by
  induction h with
  | nil => simp
  | keys _ pre n tok rest _ _ _ cs ms _ hs _ hp _ _ ih =>
    obtain ⟨h1, h2⟩ := ih (fun tok htok => hk tok (by simp [htok]))
    refine ⟨h1, fun m hm => ?_⟩
    rcases List.mem_append.mp hm with hm | hm
    · obtain ⟨c, hc, rfl⟩ := List.mem_map.mp hm
      refine ⟨?_, ((provides_leaf hp).2 c hc).2 rfl⟩
      cases hs with
      | default => rfl
      | given n hn => exact (hk (.keyShares n) (by simp)).elim
    · exact h2 m hm
  | group _ pre _ inner _ _ _ _ ms' ms _ _ c _ _ hc _ ih1 ih2 => exact (hk .startGroup (by simp)).elim
  | allKeys _ _ _ _ _ _ ih => exact (hk .requireAllKeys (by simp)).elim
  | threshold _ k _ _ _ _ _ ih => exact (hk (.keyThreshold k) (by simp)).elim
  | oneShare _ _ _ _ _ _ _ ih => exact (hk (.keyShares 1) (by simp)).elim
  | danglingShares n => exact (hk (.keyShares n) (by simp)).elim

/-- Every member has a share. -/
theorem body_shares_pos {env : Env} {dir : CryptDirection} {skip : Bool} {top : Bool} {toks : List Token} {t t' : Term}
    {ms : List (Nat × Credential)} {thr : Option KeyThresholdType} (h : Body env dir skip top toks t ms thr t') :
    ∀ m ∈ ms, 1 ≤ m.1 := by
  have hs' : ∀ {l n}, Shares l n → 1 ≤ n := fun h => by cases h with | default => exact Nat.le_refl _ | given _ h => exact h
  induction h with
  | nil => simp
  | keys _ _ _ _ _ _ _ _ cs ms _ hs _ hp _ _ ih =>
    intro m hm
    rcases List.mem_append.mp hm with hm | hm
    · obtain ⟨c, hc, rfl⟩ := List.mem_map.mp hm
      exact hs' hs
    · exact ih m hm
  | group _ _ _ _ _ _ _ _ ms' ms _ _ c hs _ hc _ ih1 ih2 =>
    intro m hm
    rcases List.mem_cons.mp hm with rfl | hm
    · exact hs' hs
    · exact ih2 m hm
  | allKeys _ _ _ _ _ _ ih => exact ih
  | threshold _ _ _ _ _ _ _ ih => exact ih
  | oneShare _ _ _ _ _ _ _ ih => exact ih
  | danglingShares => simp

theorem totalShares_eq (ms : List (Nat × Credential)) : totalShares ms = Rypt.totalShares ms := by
  induction ms with
  | nil => rfl
  | cons m ms ih => obtain ⟨n, c⟩ := m; simp only [Rypt.totalShares, ← ih]; simp [totalShares]

theorem membersWF_iff (ms : List (Nat × Credential)) : MembersWF ms ↔ ∀ m ∈ ms, 1 ≤ m.1 ∧ m.2.WF := by
  induction ms with
  | nil => simp [MembersWF]
  | cons m ms ih => obtain ⟨n, c⟩ := m; rw [MembersWF, ih]; simp [and_assoc]

theorem noWrap_members {ms : List (Nat × Credential)} : MembersNoWrap ms ↔ ∀ m ∈ ms, m.2.NoWrap := by
  induction ms with
  | nil => simp [MembersNoWrap]
  | cons m ms ih => obtain ⟨n, c⟩ := m; rw [MembersNoWrap, ih]; simp

/-- On encryption, unless share counts wrap, the credential is well-formed. -/
theorem body_wf {env : Env} {skip : Bool} {top : Bool} {toks : List Token} {t t' : Term} {ms : List (Nat × Credential)}
    {thr : Option KeyThresholdType} (h : Body env .encrypt skip top toks t ms thr t') (hw : ∀ m ∈ ms, m.2.NoWrap) :
    ∀ m ∈ ms, m.2.WF := by
  induction h with
  | nil => simp
  | keys _ _ _ _ _ _ _ _ cs ms _ _ _ hp _ _ ih =>
    intro m hm
    rcases List.mem_append.mp hm with hm | hm
    · obtain ⟨c, hc, rfl⟩ := List.mem_map.mp hm
      obtain ⟨b, hb⟩ := ((provides_leaf hp).2 c hc).1 rfl
      rcases hb with rfl | rfl | rfl <;> simp [Credential.WF]
    · exact ih (fun m hm => hw m (by simp [hm])) m hm
  | group _ _ _ _ _ _ _ _ ms' ms _ _ c _ hb hc _ ih1 ih2 =>
    intro m hm
    rcases List.mem_cons.mp hm with rfl | hm
    · have h1 := hw _ hm
      rw [Credential.NoWrap, hc.subCreds, noWrap_members] at h1
      rw [Credential.WF, membersWF_iff, hc.subCreds]
      refine ⟨?_, ?_, hc.threshold_pos, hc.threshold_le, fun m hm => ⟨body_shares_pos hb m hm, ih1 h1.2 m hm⟩⟩
      · rw [hc.numShares, Nat.mod_eq_of_lt h1.1, totalShares_eq]
      · rw [hc.numShares]; exact Nat.mod_lt _ (by norm_num)
    · exact ih2 (fun m hm => hw m (by simp [hm])) m hm
  | allKeys _ _ _ _ _ _ ih => exact ih hw
  | threshold _ _ _ _ _ _ _ ih => exact ih hw
  | oneShare _ _ _ _ _ _ _ ih => exact ih hw
  | danglingShares => simp

theorem describes_wf {env : Env} {skip : Bool} {toks : List Token} {t t' : Term} {c : ComplexCredential}
    (h : Describes env .encrypt skip toks t c t') (hw : c.NoWrap) : c.WF := by
  obtain ⟨ms, thr, hb, hc⟩ := h
  unfold ComplexCredential.NoWrap at hw
  rw [Credential.NoWrap, hc.subCreds, noWrap_members] at hw
  unfold ComplexCredential.WF
  rw [Credential.WF, membersWF_iff, hc.subCreds]
  refine ⟨?_, ?_, hc.threshold_pos, hc.threshold_le, fun m hm => ⟨body_shares_pos hb m hm, body_wf hb hw.2 m hm⟩⟩
  · rw [hc.numShares, Nat.mod_eq_of_lt hw.1, totalShares_eq]
  · rw [hc.numShares]; exact Nat.mod_lt _ (by norm_num)

/-! ### No panics while parsing -/

theorem readPasswordInteractively_no_panic (dir : CryptDirection) (t : Term) (name : Option (List Char)) :
    (readPasswordInteractively dir t name).1 ≠ .panic := by
  unfold readPasswordInteractively
  split
  · simp
  · exact (passwordLoop_frame dir t _).2.1

theorem passwordCred_no_panic {r : Res (List Char) × Term} (h : r.1 ≠ .panic) : (passwordCred r).1 ≠ .panic := by
  obtain ⟨r, t⟩ := r
  cases r <;> simp_all [passwordCred]

theorem readKeys_no_panic {env : Env} {dir : CryptDirection} {skip : Bool} {t : Term} {tok : Token} (hk : tok.IsKey)
    (hf : ∀ path, tok = .privateKeyFile path → dir = .decrypt → ∀ bytes text, env.readFile path = some bytes →
      fromUtf8 bytes = .ok text → ∀ line ∈ lines text, fromHex64PrivateKey env.sha512 (trim line) skip ≠ .panic) :
    (readKeys env dir skip t tok).1 ≠ .panic := by
  cases tok with
  | keyThreshold | requireAllKeys | keyShares | startGroup | endGroup => exact hk.elim
  | interactivePassword => exact passwordCred_no_panic (readPasswordInteractively_no_panic _ _ _)
  | namedInteractivePassword => exact passwordCred_no_panic (readPasswordInteractively_no_panic _ _ _)
  | passwordFile path =>
    exact readFileLines_no_panic (fun _ _ _ _ _ _ => by unfold passwordLine; simp)
  | symmetricKeyFile path =>
    refine readFileLines_no_panic (fun _ _ _ _ line _ h => ?_)
    unfold symmetricKeyLine at h
    rcases Res.bind_eq_panic.mp h with h | ⟨_, _, h⟩
    · exact fromHex32_no_panic _ _ _ h
    · cases h
  | publicKeyFile path =>
    rw [readKeys]
    split
    · simp
    refine readFileLines_no_panic (fun _ _ _ _ line _ h => ?_)
    unfold publicKeyLine at h
    rcases Res.bind_eq_panic.mp h with h | ⟨_, _, h⟩
    · exact fromHex32_no_panic _ _ _ h
    · cases h
  | publicKeyText s =>
    rw [readKeys]
    split
    · simp
    intro h
    rcases Res.bind_eq_panic.mp h with h | ⟨_, _, h⟩
    · exact fromHex32_no_panic _ _ _ h
    · cases h
  | privateKeyFile path =>
    rw [readKeys]
    split
    · simp
    rename_i hd
    refine readFileLines_no_panic (fun bytes text h1 h2 line hl h => ?_)
    unfold privateKeyLine at h
    rcases Res.bind_eq_panic.mp h with h | ⟨_, _, h⟩
    · exact hf path rfl (by cases dir <;> simp_all) bytes text h1 h2 line hl h
    · cases h

theorem Acc.finish_no_panic (acc : Acc) (level : Nat) (b : Bool) : acc.finish level b ≠ .panic := by
  unfold Acc.finish
  repeat' split
  all_goals simp

theorem Acc.add_no_panic (acc : Acc) (cs : List Credential) : acc.add cs ≠ .panic := by
  unfold Acc.add
  split <;> simp

/-- What makes the reading of private key files panic does not occur. -/
def FilesFine (env : Env) (dir : CryptDirection) (skip : Bool) (toks : List Token) : Prop :=
  ∀ path, .privateKeyFile path ∈ toks → dir = .decrypt → ∀ bytes text, env.readFile path = some bytes →
      fromUtf8 bytes = .ok text → ∀ line ∈ lines text, fromHex64PrivateKey env.sha512 (trim line) skip ≠ .panic

theorem parseLoop_no_panic (env : Env) (dir : CryptDirection) (skip : Bool) (fuel : Nat) :
    ∀ (level : Nat) (acc : Acc) (toks : List Token) (t : Term), acc.Good → toks.length ≤ fuel → FilesFine env dir skip toks →
      (parseLoop env dir skip fuel level acc toks t).1 ≠ .panic := by
  induction fuel with
  | zero =>
    intro level acc toks t hg hl hf
    have : toks = [] := List.length_eq_zero_iff.mp (by omega)
    subst this
    rw [parseLoop]
    have := acc.finish_no_panic level false
    split <;> simp_all
  | succ fuel ih =>
    intro level acc toks t hg hl hf
    cases toks with
    | nil =>
      rw [parseLoop]
      have := acc.finish_no_panic level false
      split <;> simp_all
    | cons tok toks =>
      have hlen : toks.length ≤ fuel := by simpa using hl
      have hf' : FilesFine env dir skip toks := fun path hp => hf path (by simp [hp])
      rcases isKey_cases tok with hk | rfl | rfl | rfl | ⟨n, rfl⟩ | ⟨n, rfl⟩
      · rw [parseLoop_key _ _ _ _ _ _ _ _ _ hk]
        have h1 := readKeys_no_panic (env := env) (dir := dir) (skip := skip) (t := t) hk
          (fun path hp => hf path (by simp [hp]))
        split
        · rename_i cs t1 hr
          have h2 := acc.add_no_panic cs
          split
          · rename_i acc' ha
            exact ih _ _ _ _ (Acc.add_ok ha hg).2.1 hlen hf'
          · simp
          · rename_i h3; exact absurd h3 h2
        · simp
        · rename_i hr; rw [hr] at h1; exact absurd rfl h1
      all_goals rw [parseLoop]; split; · simp
      all_goals split; · simp
      · -- group
        have h1 := ih (level + 1) Acc.init toks t Acc.good_init hlen hf'
        split
        · rename_i c rest t1 hr
          obtain ⟨body, ms, thr, htoks, -⟩ := parseLoop_sound _ _ _ _ _ _ _ _ _ _ _ Acc.good_init hr
          have h2 := acc.add_no_panic [.complex c.subCreds c.numShares c.threshold]
          split
          · rename_i acc' ha
            refine ih _ _ _ _ (Acc.add_ok ha hg).2.1 ?_ ?_
            · rw [htoks] at hlen
              simp [tail] at hlen
              omega
            · intro path hp
              exact hf' path (by rw [htoks]; simp [tail, hp])
          · simp
          · rename_i h3; exact absurd h3 h2
        · simp
        · rename_i hr; rw [hr] at h1; exact absurd rfl h1
      · have := acc.finish_no_panic level true
        split <;> simp_all
      · split
        · simp
        · exact ih _ { acc with threshold := some .allKeys } _ _ ⟨hg.1, hg.2⟩ hlen hf'
      · split
        · simp
        · exact ih _ { acc with nextKeyShares := n } _ _ ⟨hg.1, Classical.not_not.mp ‹_›⟩ hlen hf'
      · split
        · simp
        · exact ih _ { acc with threshold := some (.threshold n) } _ _ ⟨hg.1, hg.2⟩ hlen hf'

theorem parseComplexCredential_no_panic (env : Env) (dir : CryptDirection) (skip : Bool) (toks : List Token) (t : Term)
    (hf : FilesFine env dir skip toks) : (parseComplexCredential env toks dir skip t).1 ≠ .panic := by
  have := parseLoop_no_panic env dir skip toks.length 0 Acc.init toks t Acc.good_init (Nat.le_refl _) hf
  unfold parseComplexCredential
  split <;> simp_all

/-! ### No panics while encrypting the header -/

open HeaderCrypto

mutual

theorem encryptKeyData_no_panic (C : Crypto) (epk esk : Bytes) : ∀ (c : Credential), c.WF → ∀ (key : Bytes) (st : KeyState),
    encryptKeyData C epk esk c key st ≠ .panic
  | .password p, _, key, st => by rw [encryptKeyData]; simp [recipientSecretKey]
  | .symmetricKey p, _, key, st => by rw [encryptKeyData]; simp [recipientSecretKey]
  | .publicKey pk, _, key, st => by
    rw [encryptKeyData]
    intro h
    rcases Res.bind_eq_panic.mp h with h | ⟨_, _, h⟩
    · unfold Crypto.boxEncryptEasy at h
      split at h <;> cases h
    · cases h
  | .privateKey _, h, _, _ => by rw [Credential.WF] at h; exact h.elim
  | .complex ms n k, h, key, st => by
    rw [Credential.WF] at h
    obtain ⟨h1, h2, h3, h4, h5⟩ := h
    rw [encryptKeyData]
    intro h
    rcases Res.bind_eq_panic.mp h with h | ⟨_, _, h⟩
    · unfold compositeWith at h
      rcases Res.bind_eq_panic.mp h with h | ⟨⟨parts, tape⟩, hs, h⟩
      · exact (Props.split_key_outcome _ _ _ _).2 h
      rcases Res.bind_eq_panic.mp h with h | ⟨_, _, h⟩
      · exact encryptSubs_no_panic C epk esk ms h5 parts _
          (by rw [(Props.split_key_loses_nothing hs).1, h1]) h
      · cases h
    · cases h

theorem encryptSubs_no_panic (C : Crypto) (epk esk : Bytes) : ∀ (ms : List (Nat × Credential)), MembersWF ms →
    ∀ (parts : List Bytes) (st : KeyState), Rypt.totalShares ms ≤ parts.length → encryptSubs C epk esk ms parts st ≠ .panic
  | [], _, _, _, _ => by rw [encryptSubs]; simp
  | (n, c) :: rest, h, parts, st, hl => by
    rw [MembersWF] at h
    obtain ⟨h1, h2, h3⟩ := h
    rw [Rypt.totalShares] at hl
    rw [encryptSubs, if_neg (by omega)]
    intro h
    rcases Res.bind_eq_panic.mp h with h | ⟨_, _, h⟩
    · exact encryptKeyData_no_panic C epk esk c h2 _ _ h
    rcases Res.bind_eq_panic.mp h with h | ⟨_, _, h⟩
    · exact encryptSubs_no_panic C epk esk rest h3 _ _ (by rw [List.length_drop]; omega) h
    · cases h

end

theorem encryptHeader_no_panic {L : CryptoLib} (hL : ∀ alg, L.instantiate alg ≠ .panic) {opts : EncryptOptions} (hw : opts.credential.WF)
    (draw : Nat) (tape : Tape) : encryptHeader L opts draw tape ≠ .panic := by
  unfold encryptHeader
  intro h
  rcases Res.bind_eq_panic.mp h with h | ⟨C, _, h⟩
  · unfold cryptosysFromProto at h
    split at h
    · exact hL _ h
    · exact hL _ h
    · cases h
    · cases h
  rcases Res.bind_eq_panic.mp h with h | ⟨_, _, h⟩
  · unfold checkChunkSize at h
    split at h
    · cases h
    split at h <;> cases h
  dsimp only at h
  rcases Res.bind_eq_panic.mp h with h | ⟨_, _, h⟩
  · have := encryptKeyData_no_panic C (C.keypair ((tape.fill AEAD_KEY_LEN).2.fill 32).1).1
      (C.keypair ((tape.fill AEAD_KEY_LEN).2.fill 32).1).2 _ hw (tape.fill AEAD_KEY_LEN).1
      ⟨0, ((tape.fill AEAD_KEY_LEN).2.fill 32).2⟩
    rw [encryptKeyData] at this
    unfold encryptCompositeKey at h
    rw [h] at this
    exact this rfl
  · cases h

/-! ### Headers are made only if share counts do not wrap -/

mutual

/-- The recorded numbers of shares are 64-bit numbers. -/
def Small : Credential → Prop
  | .complex ms n _ => n < 2 ^ 64 ∧ MembersSmall ms
  | _ => True

def MembersSmall : List (Nat × Credential) → Prop
  | [] => True
  | (_, c) :: rest => Small c ∧ MembersSmall rest

end

theorem membersSmall_iff (ms : List (Nat × Credential)) : MembersSmall ms ↔ ∀ m ∈ ms, Small m.2 := by
  induction ms with
  | nil => simp [MembersSmall]
  | cons m ms ih => obtain ⟨n, c⟩ := m; rw [MembersSmall, ih]; simp

theorem body_small {env : Env} {skip : Bool} {top : Bool} {toks : List Token} {t t' : Term} {ms : List (Nat × Credential)}
    {thr : Option KeyThresholdType} (h : Body env .encrypt skip top toks t ms thr t') : ∀ m ∈ ms, Small m.2 := by
  induction h with
  | nil => simp
  | keys _ _ _ _ _ _ _ _ cs ms _ _ _ hp _ _ ih =>
    intro m hm
    rcases List.mem_append.mp hm with hm | hm
    · obtain ⟨c, hc, rfl⟩ := List.mem_map.mp hm
      obtain ⟨b, hb⟩ := ((provides_leaf hp).2 c hc).1 rfl
      rcases hb with rfl | rfl | rfl <;> simp [Small]
    · exact ih m hm
  | group _ _ _ _ _ _ _ _ ms' ms _ _ c _ hb hc _ ih1 ih2 =>
    intro m hm
    rcases List.mem_cons.mp hm with rfl | hm
    · rw [Small, membersSmall_iff, hc.subCreds, hc.numShares]
      exact ⟨Nat.mod_lt _ (by norm_num), ih1⟩
    · exact ih2 m hm
  | allKeys _ _ _ _ _ _ ih => exact ih
  | threshold _ _ _ _ _ _ _ ih => exact ih
  | oneShare _ _ _ _ _ _ _ ih => exact ih
  | danglingShares => simp

mutual

theorem encryptKeyData_noWrap (C : Crypto) (epk esk : Bytes) : ∀ (c : Credential), Small c → ∀ (key : Bytes) (st : KeyState) r,
    encryptKeyData C epk esk c key st = .ok r → c.NoWrap
  | .password p, _, _, _, _, _ => by simp [Credential.NoWrap]
  | .symmetricKey p, _, _, _, _, _ => by simp [Credential.NoWrap]
  | .publicKey pk, _, _, _, _, _ => by simp [Credential.NoWrap]
  | .privateKey _, _, _, _, _, _ => by simp [Credential.NoWrap]
  | .complex ms n k, hs, key, st, r, h => by
    rw [Small] at hs
    rw [encryptKeyData] at h
    obtain ⟨r1, h, -⟩ := Res.bind_eq_ok.mp h
    unfold compositeWith at h
    obtain ⟨⟨parts, tape⟩, h1, h⟩ := Res.bind_eq_ok.mp h
    obtain ⟨r2, h, -⟩ := Res.bind_eq_ok.mp h
    obtain ⟨h2, h3⟩ := encryptSubs_noWrap C epk esk ms hs.2 parts _ _ h
    rw [(Props.split_key_loses_nothing h1).1] at h2
    rw [Credential.NoWrap, totalShares_eq]
    exact ⟨by omega, h3⟩

theorem encryptSubs_noWrap (C : Crypto) (epk esk : Bytes) : ∀ (ms : List (Nat × Credential)), MembersSmall ms →
    ∀ (parts : List Bytes) (st : KeyState) r, encryptSubs C epk esk ms parts st = .ok r →
      Rypt.totalShares ms ≤ parts.length ∧ MembersNoWrap ms
  | [], _, _, _, _, _ => by simp [Rypt.totalShares, MembersNoWrap]
  | (n, c) :: rest, hs, parts, st, r, h => by
    rw [MembersSmall] at hs
    rw [encryptSubs] at h
    split at h
    · cases h
    obtain ⟨r1, h1, h⟩ := Res.bind_eq_ok.mp h
    obtain ⟨r2, h2, -⟩ := Res.bind_eq_ok.mp h
    obtain ⟨h3, h4⟩ := encryptSubs_noWrap C epk esk rest hs.2 _ _ _ h2
    rw [Rypt.totalShares, MembersNoWrap]
    rw [List.length_drop] at h3
    exact ⟨by omega, encryptKeyData_noWrap C epk esk c hs.1 _ _ _ h1, h4⟩

end

theorem encryptHeader_noWrap {env : Env} {skip : Bool} {toks : List Token} {t t' : Term} {c : ComplexCredential}
    (h : Describes env .encrypt skip toks t c t') {L : CryptoLib} {fast : Bool} {draw : Nat} {tape : Tape} {r : Bytes × Codec × Nat}
    (he : encryptHeader L ⟨c, fast⟩ draw tape = .ok r) : c.NoWrap := by
  obtain ⟨ms, thr, hb, hc⟩ := h
  have hs : Small (.complex c.subCreds c.numShares c.threshold) := by
    rw [Small, membersSmall_iff, hc.subCreds, hc.numShares]
    exact ⟨Nat.mod_lt _ (by norm_num), body_small hb⟩
  unfold encryptHeader at he
  obtain ⟨C, -, he⟩ := Res.bind_eq_ok.mp he
  obtain ⟨_, -, he⟩ := Res.bind_eq_ok.mp he
  dsimp only at he
  obtain ⟨r1, he, -⟩ := Res.bind_eq_ok.mp he
  refine encryptKeyData_noWrap C (C.keypair ((tape.fill AEAD_KEY_LEN).2.fill 32).1).1
    (C.keypair ((tape.fill AEAD_KEY_LEN).2.fill 32).1).2 _ hs (tape.fill AEAD_KEY_LEN).1
    ⟨0, ((tape.fill AEAD_KEY_LEN).2.fill 32).2⟩ (.composite r1.1, r1.2) ?_
  rw [encryptKeyData]
  unfold encryptCompositeKey at he
  rw [he]
  rfl

end Rypt.Cli
