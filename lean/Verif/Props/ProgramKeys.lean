import Verif.Props.Program
import Verif.Props.KeyText
import Verif.Props.UI

/-! Property C85: keys made by the program, and round trips with the keys of the user. -/

namespace Rypt.Props

open Getopts Cli UI Filesystem CryptStreams HeaderCrypto Program

theorem instantiated_of_encrypt {L : CryptoLib} {opts : EncryptOptions} {draw : Nat} {tape : Tape} {hdr : Bytes} {codec : Codec}
    {cs : Nat} (henc : encryptHeader L opts draw tape = .ok (hdr, codec, cs)) : ∃ alg, L.instantiate alg = .ok codec.crypto := by
  obtain ⟨C, ck, st', h1, -, -, -, -, h6⟩ := encryptHeader_ok henc
  rw [h6]
  unfold cryptosysFromProto at h1
  repeat' split at h1
  all_goals first | exact ⟨_, h1⟩ | cases h1

/-- The keys that the command line gives when it gives one. -/
theorem asked_encrypt_single {p : Start} {occs : List Occ} {typed : List Token} {tok : Token} (ht : TypedTokens occs typed)
    (htok : (if typed = [] then [Token.interactivePassword] else typed) = [tok]) (hk : tok.IsKey) {t : Term} {c : ComplexCredential}
    {fast : Bool} {k : Credential} (h : Asked p occs t (.encrypt c fast))
    (hp : ∀ v skip cs t', Provides p.env .encrypt skip tok { p.ui.term with verbosity := v } cs t' → cs = [k]) :
    c = ⟨[(1, k)], 1, 1⟩ := by
  obtain ⟨typed', v, force, ht', -, -, hd⟩ := h
  rw [typedTokens_unique ht' ht, htok] at hd
  exact describes_single hk hd (hp v force)

theorem asked_decrypt_single {p : Start} {occs : List Occ} {typed : List Token} {tok : Token} (ht : TypedTokens occs typed)
    (htok : (if typed = [] then [Token.interactivePassword] else typed) = [tok]) {t : Term} {S : List Credential} {k : Credential}
    (h : Asked p occs t (.decrypt S))
    (hp : ∀ v skip cs t', Provides p.env .decrypt skip tok { p.ui.term with verbosity := v } cs t' → cs = [k]) : S = [k] := by
  obtain ⟨typed', v, force, ht', -, hd⟩ := h
  rw [typedTokens_unique ht' ht, htok] at hd
  exact hp v force _ _ (providesAll_single hd)

/-- With one key that fits, nothing depends on wrong keys being noticed. -/
theorem single_opens {C : Crypto} {k k' : Credential} (ho : Opens C k' k) (hdr : Bytes) :
    (⟨[(1, k)], 1, 1⟩ : ComplexCredential).NoWrap ∧ HeaderDetectsWrongCredentials C hdr ⟨[(1, k)], 1, 1⟩ [k'] ∧
      (⟨[(1, k)], 1, 1⟩ : ComplexCredential).satisfied (heldBy C [k']) = true := by
  have hheld : heldBy C [k'] k = true := by simp [heldBy, ho]
  cases k with
  | complex => exact ho.elim
  | privateKey => exact ho.elim
  | _ =>
    refine ⟨by simp [ComplexCredential.NoWrap, Credential.NoWrap, MembersNoWrap, Cli.totalShares], ?_, ?_⟩
    · intro hd ck _ _ i leaf blob hi _ c hc hno
      simp only [leavesOf, Credential.leaves, List.append_nil] at hi
      obtain rfl := List.mem_singleton.mp (List.mem_of_getElem? hi)
      rw [List.mem_singleton.mp hc] at hno
      exact absurd ho hno
    · simp [ComplexCredential.satisfied, satisfiedShares, Credential.satisfied, hheld]

/-- A run that encrypts to one key and a run that decrypts with one key that fits. -/
private theorem single_key_round_trip (p1 p2 : Start) (hL : p1.lib.Lawful) (hlib : p2.lib = p1.lib) (hwf1 : p1.fs.WF)
    (hwf2 : p2.fs.WF) (occs1 occs2 : List Occ) (free1 free2 : List Arg)
    (hc1 : ConvertsFiles p1 .encrypt occs1 free1) (hf1 : ¬ Given occs1 .force) (hun1 : NoChain p1 .encrypt occs1 free1)
    (hc2 : ConvertsFiles p2 .decrypt occs2 free2) (hf2 : ¬ Given occs2 .force) (hun2 : NoChain p2 .decrypt occs2 free2)
    (m1 m2 : Moment) (h1 : Reaches p1 m1) (hx1 : m1.exit = some 0) (h2 : Reaches p2 m2) (hx2 : m2.exit = some 0)
    (k1 k2 : Credential) (hk1 : ∀ t c fast, Asked p1 occs1 t (.encrypt c fast) → c = ⟨[(1, k1)], 1, 1⟩)
    (hk2 : ∀ t S, Asked p2 occs2 t (.decrypt S) → S = [k2])
    (ho : ∀ alg C, p1.lib.instantiate alg = .ok C → Opens C k2 k1) (a : Arg) (ha : a ∈ free1) (b : Bytes) (hb : p1.fs.holds a b) :
    ∃ ext1 q F, SuffixOf occs1 ext1 ∧ OutputName false ext1 a .encrypt (some q) ∧ m1.fs.holds q F ∧
      ∀ q' ∈ free2, p2.fs.holds q' F →
        ∃ ext2 r, SuffixOf occs2 ext2 ∧ OutputName false ext2 q' .decrypt (some r) ∧ m2.fs.holds r b := by
  obtain ⟨c, fast, t1, ext1, q, F, draw, tape, hdr, codec, cs, hA1, hs1, hq, hF, he, hall⟩ :=
    program_round_trip p1 p2 hL hlib hwf1 hwf2 occs1 occs2 free1 free2 hc1 hf1 hun1 hc2 hf2 hun2 m1 m2 h1 hx1 h2 hx2 a ha b hb
  refine ⟨ext1, q, F, hs1, hq, hF, fun q' hq' hh => ?_⟩
  obtain ⟨S, t2, ext2, r, hA2, hs2, hr, himp⟩ := hall q' hq' hh
  obtain rfl := hk1 _ _ _ hA1
  obtain rfl := hk2 _ _ hA2
  obtain ⟨alg, hinst⟩ := instantiated_of_encrypt he
  obtain ⟨h3, h4, h5⟩ := single_opens (ho alg _ hinst) hdr
  exact ⟨ext2, r, hs2, hr, himp h4 h5⟩

/-! ## C85 -/

private theorem readFile_of_holds {p : Start} {a : Arg} {b : Bytes} (h : p.fs.holds a b) (hu : p.unreadable a = false) :
    p.env.readFile a = some b := by
  obtain ⟨ino, h1, h2⟩ := h
  have hfol : p.fs.follow 40 (p.fs.loc a) = some (p.fs.loc a) := by
    rw [FS.follow, h1]
  simp [Start.env, hu, FS.openRead, hfol, h1, h2]

/-- C85: after a run of key generation without `--force` that exits with status 0, for every path given except `-` there are two
files with the keys of one pair, made from some random choice. Wherever these files are copied to, `--private-key` and
`--public-key` read the keys from them. -/
theorem generated_keys_work (p : Start) (hL : p.lib.Lawful) (hwf : p.fs.WF) (occs : List Occ) (free : List Arg)
    (ht : Typed 0 p.args occs free) (hl : LastMode occs .generateKeypair) (hf : ¬ Given occs .force) (m : Moment) (h : Reaches p m)
    (hx : m.exit = some 0) (a : Arg) (ha : a ∈ free) (hd : a ≠ ['-']) :
    ∃ C seed pub T T', p.lib.instantiate .chaCha20Poly1305Ietf = .ok C ∧ PairFor a ⟨some (.file pub), .file a⟩ ∧
      m.fs.holds a T ∧ m.fs.holds pub T' ∧ ∀ p2 : Start, p2.sha512 = p.sha512 →
        (∀ a', p2.fs.holds a' T → p2.unreadable a' = false → ∀ skip t,
          Provides p2.env .decrypt skip (.privateKeyFile a') t [.privateKey (C.keypair seed).2] t) ∧
        (∀ a', p2.fs.holds a' T' → p2.unreadable a' = false → ∀ skip t,
          Provides p2.env .encrypt skip (.publicKeyFile a') t [.publicKey (C.keypair seed).1] t) := by
  have hne : ¬ (p.args = [] ∧ p.ttys.stdout = true) := by
    rintro ⟨h0, -⟩
    rw [h0] at ht
    cases ht
    cases ha
  have hmode : ∀ {cmd ui}, p.parse = (.ok cmd, ui) → cmd.mode = .generateKeypair := by
    intro cmd ui hp
    have := last_mode_wins p.env p.args p.ttys p.ui ui occs free ht cmd hp
    rw [if_neg hne] at this
    exact last_mode_unique _ _ _ this hl
  cases h with
  | start => cases hx
  | refused => cases hx
  | parsePanic => cases hx
  | keygenFails => cases hx
  | keygenDuring => cases hx
  | crypt streams policy force d ui ls st hp => have := hmode hp; cases d <;> cases this
  | help ui m hp => have := hmode hp; cases this
  | version ui m hp => have := hmode hp; cases this
  | keygen streams force ui C seeds hp hC hlen =>
    obtain ⟨hall, hforce⟩ := keypair_paths _ _ _ _ _ _ _ ht _ _ hp
    obtain rfl : force = false := by rw [← Bool.not_eq_true, hforce]; exact hf
    obtain ⟨s, hs, hpf⟩ := forall₂_left hall ha
    obtain ⟨i, hi, his⟩ := List.getElem_of_mem hs
    have hget : (streams.zip (seeds.map C.keypair))[i]? = some (s, (C.keypair (seeds[i]'(hlen ▸ hi))).1, (C.keypair (seeds[i]'(hlen ▸ hi))).2) := by
      rw [List.getElem?_eq_getElem (by simp [hlen, hi])]
      simp [his]
    obtain ⟨h1, h2, -⟩ := keygenEnd_zero hx
    obtain ⟨priv, hpriv, hpubw, hprivw⟩ := keygen_written p.sha512 _ ⟨ui.term, p.fs, [], p.fates, []⟩ _ hwf [] (Prod.ext h1 rfl) i s _ _ hget (by simp)
    rcases hpf with ⟨hbad, -⟩ | ⟨-, hps, pub, hpub, hname⟩
    · exact absurd hbad hd
    refine ⟨C, seeds[i]'(hlen ▸ hi), pub, _, _, hC, .inr ⟨hd, rfl, pub, rfl, hname⟩, by rw [h2]; exact hprivw a hps,
      by rw [h2]; exact hpubw pub hpub, fun p2 hsha => ⟨fun a' hh hu skip t => ?_, fun a' hh hu skip t => ?_⟩⟩
    · refine (readKeys_provides _ _ _ _ _ _ _ ?_).2
      have hsk := (hL _ _ hC).sk_len (seeds[i]'(hlen ▸ hi))
      have hdrop : (C.keypair (seeds[i]'(hlen ▸ hi))).2.drop 32 = (C.keypair (seeds[i]'(hlen ▸ hi))).1 := by
        unfold KeyText.privateKeyText at hpriv
        split at hpriv
        · rename_i h; exact h.symm
        · cases hpriv
      have := private_key_files_read_back p.sha512 p.sha512_length [C.keypair (seeds[i]'(hlen ▸ hi))] (by simp)
        (by intro q hq; rw [List.mem_singleton.mp hq]; exact ⟨hsk, hdrop⟩) [priv] (by simp [hpriv]) skip
      simp only [List.flatten_cons, List.flatten_nil, List.append_nil, List.map_cons, List.map_nil] at this
      rw [readKeys, if_neg (by simp), readFile_of_holds hh hu, show p2.env.sha512 = p.sha512 from hsha, this]
    · refine (readKeys_provides _ _ _ _ _ _ _ ?_).2
      have hpk := (hL _ _ hC).pk_len (seeds[i]'(hlen ▸ hi))
      have := public_key_files_read_back p.sha512 p.sha512_length [(C.keypair (seeds[i]'(hlen ▸ hi))).1] (by simp)
        (by intro q hq; rw [List.mem_singleton.mp hq]; exact hpk) skip
      simp only [List.flatMap_cons, List.flatMap_nil, List.append_nil, List.map_cons, List.map_nil] at this
      rw [readKeys, if_neg (by simp), readFile_of_holds hh hu, show p2.env.sha512 = p.sha512 from hsha, this]

/-- C85: make a key pair, encrypt with the public key file, decrypt with the private key file, each in a run with exit status 0:
the content is restored. The files may have been copied elsewhere between the runs. -/
theorem generated_pair_round_trip (p : Start) (hL : p.lib.Lawful) (hsame : SameKeys p.lib) (hwf : p.fs.WF) (occs : List Occ)
    (free : List Arg) (ht : Typed 0 p.args occs free) (hl : LastMode occs .generateKeypair) (hf : ¬ Given occs .force) (m : Moment)
    (h : Reaches p m) (hx : m.exit = some 0) (key : Arg) (hkey : key ∈ free) (hd : key ≠ ['-']) :
    ∃ pub T T', PairFor key ⟨some (.file pub), .file key⟩ ∧ m.fs.holds key T ∧ m.fs.holds pub T' ∧
      ∀ (p1 p2 : Start) (occs1 occs2 : List Occ) (free1 free2 : List Arg) (m1 m2 : Moment) (key1 key2 a : Arg) (b : Bytes),
        p1.lib = p.lib → p2.lib = p.lib → p1.sha512 = p.sha512 → p2.sha512 = p.sha512 → p1.fs.WF → p2.fs.WF →
        ConvertsFiles p1 .encrypt occs1 free1 → ¬ Given occs1 .force → NoChain p1 .encrypt occs1 free1 →
        ConvertsFiles p2 .decrypt occs2 free2 → ¬ Given occs2 .force → NoChain p2 .decrypt occs2 free2 →
        TypedTokens occs1 [.publicKeyFile key1] → p1.fs.holds key1 T' → p1.unreadable key1 = false →
        TypedTokens occs2 [.privateKeyFile key2] → p2.fs.holds key2 T → p2.unreadable key2 = false →
        Reaches p1 m1 → m1.exit = some 0 → Reaches p2 m2 → m2.exit = some 0 → a ∈ free1 → p1.fs.holds a b →
        ∃ ext1 q F, SuffixOf occs1 ext1 ∧ OutputName false ext1 a .encrypt (some q) ∧ m1.fs.holds q F ∧
          ∀ q' ∈ free2, p2.fs.holds q' F →
            ∃ ext2 r, SuffixOf occs2 ext2 ∧ OutputName false ext2 q' .decrypt (some r) ∧ m2.fs.holds r b := by
  obtain ⟨C, seed, pub, T, T', hC, hpf, hT, hT', hread⟩ := generated_keys_work p hL hwf occs free ht hl hf m h hx key hkey hd
  refine ⟨pub, T, T', hpf, hT, hT', ?_⟩
  intro p1 p2 occs1 occs2 free1 free2 m1 m2 key1 key2 a b hl1 hl2 hs1 hs2 hwf1 hwf2 hc1 hf1 hun1 hc2 hf2 hun2 htk1 hh1 hu1 htk2 hh2 hu2
    h1 hx1 h2 hx2 ha hb
  refine single_key_round_trip p1 p2 (hl1 ▸ hL) (hl2.trans hl1.symm) hwf1 hwf2 occs1 occs2 free1 free2 hc1 hf1 hun1 hc2 hf2 hun2 m1 m2
    h1 hx1 h2 hx2 (.publicKey (C.keypair seed).1) (.privateKey (C.keypair seed).2) ?_ ?_ ?_ a ha b hb
  · intro t c fast hA
    refine asked_encrypt_single htk1 (if_neg (by simp)) trivial hA fun v skip cs t' hp => ?_
    exact (provides_unique hp ((hread p1 hs1).2 key1 hh1 hu1 skip _)).1
  · intro t S hA
    refine asked_decrypt_single htk2 (if_neg (by simp)) hA fun v skip cs t' hp => ?_
    exact (provides_unique hp ((hread p2 hs2).1 key2 hh2 hu2 skip _)).1
  · intro alg C' hC'
    rw [hl1] at hC'
    rw [hsame _ _ _ _ hC hC']
    exact ⟨seed, rfl, rfl⟩

/-- The password that comes out of a prompt is the one entered properly. -/
theorem provides_entered {env : Env} {dir : CryptDirection} {skip : Bool} {t t' : Term} {cs : List Credential}
    (h : Provides env dir skip .interactivePassword t cs t') (hw : Spec.WritesWork t) {pw : List Char} (hne : pw ≠ [])
    {pre l rest : List UI.Input} (hpre : Spec.Attempts dir pre) (hl : Spec.Entered dir pw l) (hst : t.stdin = pre ++ l ++ rest) :
    cs = [.password (Spec.utf8 pw)] := by
  cases h with
  | password _ _ q hq =>
    have hc : Spec.CanPrompt t := by
      rw [← canRead_iff]
      unfold readPasswordInteractively at hq
      by_contra hno
      rw [if_pos (by simpa using hno)] at hq
      cases hq
    obtain ⟨t2, h2, -⟩ := password_confirmed_is_used dir t none pw pre l rest hc hw hpre hne hl hst
    rw [h2] at hq
    cases hq
    rfl

/-- C85: without options for keys, the user is asked for a password. If it is the same password at encryption (where it is entered
twice) and decryption, the content is restored. -/
theorem same_password_round_trip (p1 p2 : Start) (hL : p1.lib.Lawful) (hlib : p2.lib = p1.lib) (hwf1 : p1.fs.WF)
    (hwf2 : p2.fs.WF) (occs1 occs2 : List Occ) (free1 free2 : List Arg)
    (hc1 : ConvertsFiles p1 .encrypt occs1 free1) (hf1 : ¬ Given occs1 .force) (hun1 : NoChain p1 .encrypt occs1 free1)
    (hc2 : ConvertsFiles p2 .decrypt occs2 free2) (hf2 : ¬ Given occs2 .force) (hun2 : NoChain p2 .decrypt occs2 free2)
    (htk1 : TypedTokens occs1 []) (htk2 : TypedTokens occs2 [])
    (pw : List Char) (hne : pw ≠ []) (pre1 l1 rest1 pre2 l2 rest2 : List UI.Input)
    (hst1 : p1.stdin = pre1 ++ l1 ++ rest1) (hpre1 : Spec.Attempts .encrypt pre1) (hl1 : Spec.Entered .encrypt pw l1)
    (hst2 : p2.stdin = pre2 ++ l2 ++ rest2) (hpre2 : Spec.Attempts .decrypt pre2) (hl2 : Spec.Entered .decrypt pw l2)
    (hw1 : ∀ w ∈ p1.writes, w = none) (hw2 : ∀ w ∈ p2.writes, w = none)
    (m1 m2 : Moment) (h1 : Reaches p1 m1) (hx1 : m1.exit = some 0) (h2 : Reaches p2 m2) (hx2 : m2.exit = some 0)
    (a : Arg) (ha : a ∈ free1) (b : Bytes) (hb : p1.fs.holds a b) :
    ∃ ext1 q F, SuffixOf occs1 ext1 ∧ OutputName false ext1 a .encrypt (some q) ∧ m1.fs.holds q F ∧
      ∀ q' ∈ free2, p2.fs.holds q' F →
        ∃ ext2 r, SuffixOf occs2 ext2 ∧ OutputName false ext2 q' .decrypt (some r) ∧ m2.fs.holds r b := by
  refine single_key_round_trip p1 p2 hL hlib hwf1 hwf2 occs1 occs2 free1 free2 hc1 hf1 hun1 hc2 hf2 hun2 m1 m2
    h1 hx1 h2 hx2 (.password (Spec.utf8 pw)) (.password (Spec.utf8 pw)) ?_ ?_ ?_ a ha b hb
  · intro t c fast hA
    exact asked_encrypt_single htk1 (if_pos rfl) trivial hA fun v skip cs t' hp =>
      provides_entered hp hw1 hne hpre1 hl1 hst1
  · intro t S hA
    exact asked_decrypt_single htk2 (if_pos rfl) hA fun v skip cs t' hp =>
      provides_entered hp hw2 hne hpre2 hl2 hst2
  · intro alg C _
    exact rfl

/-- The key files with one line. -/
private theorem provides_line {env : Env} {skip : Bool} {dir : CryptDirection} {t t' : Term} {f : Arg} {B : Bytes} {s : List Char}
    (hfile : env.readFile f = some B) (hs : Spec.KeyLines (some B) [s]) {cs : List Credential} :
    (Provides env dir skip (.passwordFile f) t cs t' → cs = [.password (Spec.utf8 s)]) ∧
    (∀ k, Spec.IsKeyText env.sha512 false s k → Provides env dir skip (.symmetricKeyFile f) t cs t' → cs = [.symmetricKey k]) := by
  rw [← hfile] at hs
  exact ⟨fun h => (provides_unique h (.passwordFile f t [s] hs (by simp))).1,
    fun k hk h => (provides_unique h (.symmetricKeyFile f t [s] [k] hs (by simp) (.cons hk .nil))).1⟩

/-- C85: a file with one password, or with one symmetric key, given at encryption and (it or a copy of it) at decryption restores
the content. -/
theorem same_key_file_round_trip (p1 p2 : Start) (hL : p1.lib.Lawful) (hlib : p2.lib = p1.lib) (hsha : p2.sha512 = p1.sha512)
    (hwf1 : p1.fs.WF) (hwf2 : p2.fs.WF) (occs1 occs2 : List Occ) (free1 free2 : List Arg)
    (hc1 : ConvertsFiles p1 .encrypt occs1 free1) (hf1 : ¬ Given occs1 .force) (hun1 : NoChain p1 .encrypt occs1 free1)
    (hc2 : ConvertsFiles p2 .decrypt occs2 free2) (hf2 : ¬ Given occs2 .force) (hun2 : NoChain p2 .decrypt occs2 free2)
    (key1 key2 : Arg) (B : Bytes) (s : List Char) (hline : Spec.KeyLines (some B) [s])
    (hk1 : p1.fs.holds key1 B) (hu1 : p1.unreadable key1 = false) (hk2 : p2.fs.holds key2 B) (hu2 : p2.unreadable key2 = false)
    (hkind : (TypedTokens occs1 [.passwordFile key1] ∧ TypedTokens occs2 [.passwordFile key2]) ∨
      (TypedTokens occs1 [.symmetricKeyFile key1] ∧ TypedTokens occs2 [.symmetricKeyFile key2] ∧
        ∃ k, Spec.IsKeyText p1.sha512 false s k))
    (m1 m2 : Moment) (h1 : Reaches p1 m1) (hx1 : m1.exit = some 0) (h2 : Reaches p2 m2) (hx2 : m2.exit = some 0)
    (a : Arg) (ha : a ∈ free1) (b : Bytes) (hb : p1.fs.holds a b) :
    ∃ ext1 q F, SuffixOf occs1 ext1 ∧ OutputName false ext1 a .encrypt (some q) ∧ m1.fs.holds q F ∧
      ∀ q' ∈ free2, p2.fs.holds q' F →
        ∃ ext2 r, SuffixOf occs2 ext2 ∧ OutputName false ext2 q' .decrypt (some r) ∧ m2.fs.holds r b := by
  have hr1 := readFile_of_holds hk1 hu1
  have hr2 := readFile_of_holds hk2 hu2
  rcases hkind with ⟨htk1, htk2⟩ | ⟨htk1, htk2, k, hk⟩
  · refine single_key_round_trip p1 p2 hL hlib hwf1 hwf2 occs1 occs2 free1 free2 hc1 hf1 hun1 hc2 hf2 hun2 m1 m2
      h1 hx1 h2 hx2 (.password (Spec.utf8 s)) (.password (Spec.utf8 s)) ?_ ?_ (fun _ _ _ => rfl) a ha b hb
    · exact fun t c fast hA => asked_encrypt_single htk1 (if_neg (by simp)) trivial hA fun v skip cs t' hp =>
        (provides_line hr1 hline).1 hp
    · exact fun t S hA => asked_decrypt_single htk2 (if_neg (by simp)) hA fun v skip cs t' hp => (provides_line hr2 hline).1 hp
  · refine single_key_round_trip p1 p2 hL hlib hwf1 hwf2 occs1 occs2 free1 free2 hc1 hf1 hun1 hc2 hf2 hun2 m1 m2
      h1 hx1 h2 hx2 (.symmetricKey k) (.symmetricKey k) ?_ ?_ (fun _ _ _ => rfl) a ha b hb
    · exact fun t c fast hA => asked_encrypt_single htk1 (if_neg (by simp)) trivial hA fun v skip cs t' hp =>
        (provides_line hr1 hline).2 k hk hp
    · exact fun t S hA => asked_decrypt_single htk2 (if_neg (by simp)) hA fun v skip cs t' hp =>
        (provides_line hr2 hline).2 k (by rw [show p2.env.sha512 = p1.sha512 from hsha]; exact hk) hp

end Rypt.Props
