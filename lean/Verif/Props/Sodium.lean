import Verif.Spec.Sodium
import Verif.Spec.Toy
import Verif.Props.ProgramFailures
import Verif.Props.ProgramFailureSamples

/-!
Properties C93-C96: the primitives as they are got from libsodium, when they are available, and what `--version` says about it.
-/

namespace Rypt.Props

open Sodium Spec Getopts Cli Program HeaderCrypto

variable {F : Ffi}

/-! ## C93 -/

/-- C93: what the rest of the program relies on follows from what libsodium documents. -/
theorem sodium_lawful (hF : Documented F) : (lib F).Lawful := by
  intro alg C h
  have hC : C = crypto F alg ∧ (alg = .aes256Gcm → F.aesAvailable ≠ 0) := by
    unfold lib Sodium.new at h
    simp only at h
    split_ifs at h with h1 h2
    · cases h
      refine ⟨rfl, fun ha h0 => h2 ⟨ha, h0⟩⟩
  obtain ⟨rfl, haes⟩ := hC
  constructor
  · intro m
    simp [crypto, Sodium.hash, HASH_OUTPUT_LEN, hF.hash_len]
  · exact hF.auth_len
  · exact hF.pwhash_len
  · intro k n ad m
    cases alg
    · exact (hF.chacha_len m ad n k).1
    · exact (hF.aes_len (haes rfl) m ad n k).1
  · intro k n ad m
    cases alg
    · exact (hF.chacha_len m ad n k).2
    · exact (hF.aes_len (haes rfl) m ad n k).2
  · intro k n ad m
    cases alg
    · simp [crypto, aeadEncrypt, aeadDecrypt, hF.chacha_inverse]
    · simp [crypto, aeadEncrypt, aeadDecrypt, hF.aes_inverse (haes rfl)]
  · intro k n ad ct mac m h
    cases alg <;> simp only [crypto, aeadDecrypt] at h <;> split_ifs at h <;> cases h
    · exact hF.chacha_len' _ _ _ _ _
    · exact hF.aes_len' (haes rfl) _ _ _ _ _
  · intro k n m
    exact (hF.box_len m n k).1
  · intro k n m
    exact (hF.box_len m n k).2
  · intro k n m
    simp [crypto, boxSeal, boxOpen, hF.box_inverse]
  · intro k n ct mac m h
    simp only [crypto, boxOpen] at h
    split_ifs at h
    cases h
    exact hF.box_len' _ _ _ _
  · intro r
    exact (hF.keypair_len r).1
  · intro r
    exact (hF.keypair_len r).2
  · intro r r'
    simp only [crypto, boxBeforenm, generateKeypair, (hF.convertible _).1, (hF.convertible _).2, hF.agreement r r']

/-- C93: key pairs do not depend on the AEAD algorithm. -/
theorem sodium_same_keys : SameKeys (lib F) := by
  intro alg alg' C C' h h'
  unfold lib Sodium.new at h h'
  simp only at h h'
  split_ifs at h with h1 h2
  split_ifs at h' with h3
  cases h; cases h'
  rfl

/-- C93: the primitives for the default algorithm and the size limit do not depend on the functions for AES, so files made without `--fast` can be
exchanged between machines whatever their hardware. -/
theorem default_needs_no_aes (F F' : Ffi) (h : ∃ av enc dec mx,
    F' = { F with aesAvailable := av, aesEncrypt := enc, aesDecrypt := dec, aesMax := mx }) :
    (lib F').instantiate .chaCha20Poly1305Ietf = (lib F).instantiate .chaCha20Poly1305Ietf ∧
      aeadMaxMessageSize F' .chaCha20Poly1305Ietf = aeadMaxMessageSize F .chaCha20Poly1305Ietf := by
  obtain ⟨av, enc, dec, mx, rfl⟩ := h
  refine ⟨?_, rfl⟩
  simp only [lib, Sodium.new, reduceCtorEq, false_and, if_false]
  split_ifs <;> rfl

/-- C93: the primitives for `--fast` and the size limit do not use the functions for ChaCha20-Poly1305. -/
theorem fast_uses_aes (F F' : Ffi) (h : ∃ enc dec mx, F' = { F with chachaEncrypt := enc, chachaDecrypt := dec, chachaMax := mx }) :
    (lib F').instantiate .aes256Gcm = (lib F).instantiate .aes256Gcm ∧
      aeadMaxMessageSize F' .aes256Gcm = aeadMaxMessageSize F .aes256Gcm := by
  obtain ⟨enc, dec, mx, rfl⟩ := h
  refine ⟨?_, rfl⟩
  simp only [lib, Sodium.new]
  split_ifs <;> rfl

/-- C93: decryption is refused exactly if the function for the algorithm says so, otherwise its result is passed on. -/
theorem decryption_code_is_checked (alg : AeadAlgorithm) (C : Crypto) (h : (lib F).instantiate alg = .ok C)
    (key nonce ad ct mac m : Bytes) : C.aeadDecrypt key nonce ad ct mac = some m ↔
      (alg = .chaCha20Poly1305Ietf ∧ F.chachaDecrypt ct mac ad nonce key = (0, m)) ∨
      (alg = .aes256Gcm ∧ F.aesDecrypt ct mac ad nonce key = (0, m)) := by
  have hC : C = crypto F alg := by
    unfold lib Sodium.new at h
    simp only at h
    split_ifs at h
    cases h; rfl
  subst hC
  cases alg <;> simp only [crypto, aeadDecrypt] <;> split_ifs with h1 <;> simp_all [Prod.ext_iff]

/-- C93: a box is opened exactly if both keys can be converted, a shared key can be had and the box is accepted. -/
theorem box_codes_are_checked (message publicKey privateKey nonce mac m : Bytes) :
    boxDecrypt F message publicKey privateKey nonce mac = some m ↔
      ∃ pk sk k, F.pkToCurve publicKey = (0, pk) ∧ F.skToCurve privateKey = (0, sk) ∧ F.beforenm pk sk = (0, k) ∧
        F.boxOpenDetached message mac nonce k = (0, m) := by
  constructor
  · intro h
    simp only [boxDecrypt, boxBeforenm] at h
    split_ifs at h with h1 h2 h3
    · cases h
    · cases h
    · cases h
    · simp only [Option.bind_some, boxOpen] at h
      split_ifs at h with h4
      cases h
      exact ⟨_, _, _, Prod.ext (by simpa using h1) rfl, Prod.ext (by simpa using h2) rfl, Prod.ext (by simpa using h3) rfl,
        Prod.ext (by simpa using h4) rfl⟩
  · rintro ⟨pk, sk, k, h1, h2, h3, h4⟩
    simp [boxDecrypt, boxBeforenm, boxOpen, h1, h2, h3, h4]

/-- C93: a box is made exactly if both keys can be converted and a shared key can be had, and with this key. -/
theorem box_made_iff (message publicKey privateKey nonce : Bytes) (r : Bytes × Bytes) :
    boxEncrypt F message publicKey privateKey nonce = some r ↔
      ∃ pk sk k, F.pkToCurve publicKey = (0, pk) ∧ F.skToCurve privateKey = (0, sk) ∧ F.beforenm pk sk = (0, k) ∧
        F.boxDetached message nonce k = r := by
  constructor
  · intro h
    simp only [boxEncrypt, boxBeforenm] at h
    split_ifs at h with h1 h2 h3
    · cases h
    · cases h
    · cases h
    · cases h
      exact ⟨_, _, _, Prod.ext (by simpa using h1) rfl, Prod.ext (by simpa using h2) rfl, Prod.ext (by simpa using h3) rfl, rfl⟩
  · rintro ⟨pk, sk, k, h1, h2, h3, h4⟩
    simp [boxEncrypt, boxBeforenm, boxSeal, h1, h2, h3, h4]

/-- C93: which function of libsodium is called for which primitive, and which argument is which. Swapping the roles in the same way
for encryption and decryption would go unnoticed by one version of rypt, but files could not be exchanged with another. -/
theorem primitives_called (alg : AeadAlgorithm) (C : Crypto) (h : (lib F).instantiate alg = .ok C) :
    (∀ message, C.hash message <+: F.hash message ∧ (32 ≤ (F.hash message).length → (C.hash message).length = 32)) ∧
    (∀ message key, C.hmac message key = F.auth message key) ∧
    (∀ password salt k, F.pwhash password salt = (0, k) → C.keyDerivation password salt = k) ∧
    (∀ key nonce ad message, alg = .chaCha20Poly1305Ietf →
      C.aeadEncrypt key nonce ad message = F.chachaEncrypt message ad nonce key) ∧
    (∀ key nonce ad message, alg = .aes256Gcm → C.aeadEncrypt key nonce ad message = F.aesEncrypt message ad nonce key) ∧
    (∀ random, C.keypair random = F.signKeypair random) ∧
    (∀ publicKey privateKey k, C.boxBeforenm publicKey privateKey = some k ↔
      ∃ pk sk, F.pkToCurve publicKey = (0, pk) ∧ F.skToCurve privateKey = (0, sk) ∧ F.beforenm pk sk = (0, k)) ∧
    (∀ k nonce message, C.boxSeal k nonce message = F.boxDetached message nonce k) ∧
    ∀ k nonce ct mac m, C.boxOpen k nonce ct mac = some m ↔ F.boxOpenDetached ct mac nonce k = (0, m) := by
  have hC : C = crypto F alg := by
    unfold lib Sodium.new at h
    simp only at h
    split_ifs at h
    cases h; rfl
  subst hC
  refine ⟨fun m => ⟨List.take_prefix _ _, fun hl => ?_⟩, fun _ _ => rfl, ?_, ?_, ?_, fun _ => rfl, ?_, fun _ _ _ => rfl, ?_⟩
  · simp only [crypto, Sodium.hash, HASH_OUTPUT_LEN, List.length_take]
    omega
  · intro p s k hk
    simp [crypto, hk]
  · rintro key nonce ad message rfl
    rfl
  · rintro key nonce ad message rfl
    rfl
  · intro pub priv k
    constructor
    · intro hk
      simp only [crypto, boxBeforenm] at hk
      split_ifs at hk with h1 h2 h3
      cases hk
      exact ⟨_, _, Prod.ext (by simpa using h1) rfl, Prod.ext (by simpa using h2) rfl, Prod.ext (by simpa using h3) rfl⟩
    · rintro ⟨pk, sk, h1, h2, h3⟩
      simp [crypto, boxBeforenm, h1, h2, h3]
  · intro k nonce ct mac m
    simp only [crypto, boxOpen]
    split_ifs with h1 <;> simp_all [Prod.ext_iff]

/-! ## C94 -/

/-- C94: the primitives can be had exactly if the library can be initialised and, for AES, if the hardware supports it. -/
theorem available_iff (alg : AeadAlgorithm) :
    (∃ C, (lib F).instantiate alg = .ok C) ↔ F.init ≠ -1 ∧ (alg = .aes256Gcm → F.aesAvailable ≠ 0) := by
  unfold lib Sodium.new
  simp only
  split_ifs with h1 h2
  · simp [h1]
  · simp [h1, h2]
  · exact ⟨fun _ => ⟨h1, fun ha h0 => h2 ⟨ha, h0⟩⟩, fun _ => ⟨_, rfl⟩⟩

/-- C94: the reason of a failure. -/
theorem unavailable_reason (alg : AeadAlgorithm) :
    (Sodium.new F alg = .error .initializationError ↔ F.init = -1) ∧
    (Sodium.new F alg = .error .hardwareUnsupported ↔ F.init ≠ -1 ∧ alg = .aes256Gcm ∧ F.aesAvailable = 0) := by
  unfold Sodium.new
  split_ifs with h1 h2 <;> simp_all

/-- C94: the numbers of algorithms in headers are those of the library. -/
theorem algorithm_numbers (L : CryptoLib) (n : Nat) :
    cryptosysFromProto L (some n) =
      match tryFrom n with
      | some alg => L.instantiate alg
      | none => .err .unknownAlgorithm := by
  unfold cryptosysFromProto tryFrom allAlgorithms
  split
  · rename_i h; cases h; rfl
  · rename_i h; cases h; rfl
  · rename_i n' h1 h2 h; cases h
    have e1 : algNumber .chaCha20Poly1305Ietf ≠ n := fun h => h1 (by rw [← h]; rfl)
    have e2 : algNumber .aes256Gcm ≠ n := fun h => h2 (by rw [← h]; rfl)
    simp [e1, e2]
  · rename_i h; cases h

/-- C94: a number stands for one algorithm. -/
theorem algorithm_number_iff (n : Nat) (alg : AeadAlgorithm) : tryFrom n = some alg ↔ algNumber alg = n := by
  unfold tryFrom allAlgorithms
  constructor
  · intro h
    simpa using List.find?_some h
  · rintro rfl
    cases alg <;> rfl

private theorem text_ends (v s s' : List Char) (hs : s = s' ∨ ¬ s <:+ s' ∧ ¬ s' <:+ s) : s <:+ v ++ s' ↔ s = s' := by
  constructor
  · intro h
    rcases hs with hs | hs
    · exact hs
    · rcases List.suffix_or_suffix_of_suffix h (List.suffix_append v s') with h | h
      · exact absurd h hs.1
      · exact absurd h hs.2
  · rintro rfl
    exact List.suffix_append _ _

/-- C94: `rypt --version` (as the help for `--fast` advises) tells whether AES is available: with exit status 0 no file has
changed, and the last line says that AES is supported exactly if it can be had, and that it is not supported exactly if the other
algorithm can be had but not AES. (The version of libsodium has to be UTF-8, otherwise there is a panic.) -/
theorem version_tells_fast (p : Start) (hlib : p.lib = lib F) (hv : Sodium.versionText F "rypt".toList "0.8.0".toList = .ok p.versionText)
    (m : Moment) (h : Reaches p m) (occs : List Occ) (free : List Arg) (ht : Typed 0 p.args occs free)
    (hl : LastMode occs .version) (hne : ¬ (p.args = [] ∧ p.ttys.stdout = true)) (hx : m.exit = some 0) :
    m.fs = p.fs ∧ ∃ t, m.stdout = Text.encode t ∧
      (" [AES256-GCM is supported]\n".toList <:+ t ↔ ∃ C, p.lib.instantiate .aes256Gcm = .ok C) ∧
      (" [AES256-GCM is NOT supported]\n".toList <:+ t ↔
        (∃ C, p.lib.instantiate .chaCha20Poly1305Ietf = .ok C) ∧ ∀ C, p.lib.instantiate .aes256Gcm ≠ .ok C) := by
  have key : m.fs = p.fs ∧ m.stdout = Text.encode p.versionText := by
    have hno : ∀ {cmd ui}, p.parse = (.ok cmd, ui) → cmd.mode = .version := fun h => by
      have := last_mode_wins _ _ _ _ _ _ _ ht _ h
      rw [if_neg hne] at this
      exact last_mode_unique _ _ _ this hl
    cases h with
    | start => cases hx
    | refused => cases hx
    | parsePanic => cases hx
    | keygenFails => cases hx
    | crypt streams policy force d ui ls st h => cases d <;> cases hno h
    | keygen streams force ui C seeds h => cases hno h
    | keygenDuring streams force ui C seeds _ _ h => cases hno h
    | help ui m h hm => cases hno h
    | version ui m h hm =>
      cases hm with
      | all => exact ⟨rfl, rfl⟩
      | part => cases hx
  refine ⟨key.1, p.versionText, key.2, ?_⟩
  rw [hlib, available_iff, available_iff]
  unfold Sodium.versionText version at hv
  have hall : (∀ C, (lib F).instantiate .aes256Gcm ≠ .ok C) ↔ ¬ (F.init ≠ -1 ∧ (AeadAlgorithm.aes256Gcm = .aes256Gcm → F.aesAvailable ≠ 0)) := by
    rw [← available_iff]; simp
  rw [hall]
  cases hd : Text.fromUtf8 F.versionString with
  | err => rw [hd] at hv; cases hv
  | ok v =>
    rw [hd] at hv
    simp only at hv
    have hend : ∀ s : String, Res.ok ("rypt".toList ++ " ".toList ++ "0.8.0".toList ++ "\nlibsodium ".toList ++ (v ++ " [".toList ++ s.toList ++ "]".toList) ++
        "\n".toList) = Res.ok p.versionText →
        p.versionText = ("rypt".toList ++ " ".toList ++ "0.8.0".toList ++ "\nlibsodium ".toList ++ v) ++ (" [".toList ++ s.toList ++ "]\n".toList) := by
      intro s h
      rw [← Res.ok.inj h]
      simp
    unfold Sodium.new at hv
    split_ifs at hv with h1 h2
    · rw [hend _ hv, text_ends _ _ _ (by decide), text_ends _ _ _ (by decide)]
      simp [h1]
    · rw [hend _ hv, text_ends _ _ _ (by decide), text_ends _ _ _ (by decide)]
      simp [h1, h2]
    · rw [hend _ hv, text_ends _ _ _ (by decide), text_ends _ _ _ (by decide)]
      simp at h2
      simp [h1, h2]

/-- C94: if `rypt --version` did not say that AES is supported, `--fast` does not work on this machine: see `fast_unsupported`. -/
theorem version_warns (p p' : Start) (hlib : p.lib = lib F) (hF : Documented F)
    (hv : Sodium.versionText F "rypt".toList "0.8.0".toList = .ok p.versionText)
    (m : Moment) (h : Reaches p m) (occs : List Occ) (free : List Arg) (ht : Typed 0 p.args occs free)
    (hl : LastMode occs .version) (hne : ¬ (p.args = [] ∧ p.ttys.stdout = true)) (hx : m.exit = some 0)
    (hsays : ∀ t, m.stdout = Text.encode t → ¬ " [AES256-GCM is supported]\n".toList <:+ t)
    (hlib' : p'.lib = p.lib) (hwf : p'.fs.WF) (occs' : List Occ) (free' : List Arg) (hc : ConvertsFiles p' .encrypt occs' free')
    (hf : ¬ Given occs' .force) (hun : NoChain p' .encrypt occs' free') (hfast : Given occs' .fast) (m' : Moment) (h' : Reaches p' m') :
    (∀ a ∈ free', ∀ b, p'.fs.holds a b → m'.exit ≠ some 0) ∧ (∀ a b, p'.fs.holds a b → m'.fs.holds a b) := by
  obtain ⟨-, t, ht1, ht2, -⟩ := version_tells_fast p hlib hv m h occs free ht hl hne hx
  obtain ⟨h1, h2, -⟩ := fast_unsupported p' (by rw [hlib', hlib]; exact sodium_lawful hF) hwf occs' free' hc hf hun m' h' hfast
    (fun C hC => hsays t ht1 (ht2.mpr ⟨C, by rw [← hlib', hC]⟩))
  exact ⟨h1, h2⟩

/-- C94: if `rypt --version` said that AES is supported, `--fast` works, for instance with a password (see C87). -/
theorem version_promises (p p' : Start) (hlib : p.lib = lib F) (hF : Documented F)
    (hv : Sodium.versionText F "rypt".toList "0.8.0".toList = .ok p.versionText)
    (m : Moment) (h : Reaches p m) (occs : List Occ) (free : List Arg) (ht : Typed 0 p.args occs free)
    (hl : LastMode occs .version) (hne : ¬ (p.args = [] ∧ p.ttys.stdout = true)) (hx : m.exit = some 0) (t : List Char)
    (hsays : m.stdout = Text.encode t) (hsays' : " [AES256-GCM is supported]\n".toList <:+ t)
    (hlib' : p'.lib = p.lib) (hwf : p'.fs.WF) (occs' : List Occ) (free' : List Arg)
    (hp : Proper p' .encrypt occs' free' [.interactivePassword]) (hr : FilesReady p' .encrypt occs' free')
    (hfast : Given occs' .fast) (htty : p'.ttys.stdin = true ∧ p'.ttys.stderr = true) (hq : -1 ≤ askedVerbosity occs')
    (hw : ∀ w ∈ p'.writes, w = none) (pw : List Char) (hpw : pw ≠ []) (pre l rest : List UI.Input) (hst : p'.stdin = pre ++ l ++ rest)
    (hpre : Spec.Attempts .encrypt pre) (hl' : Spec.Entered .encrypt pw l) : ∃ m', Reaches p' m' ∧ m'.exit = some 0 := by
  obtain ⟨-, t', ht1, ht2, -⟩ := version_tells_fast p hlib hv m h occs free ht hl hne hx
  obtain rfl : t' = t := by
    exact Text.encode_injective (ht1.symm.trans hsays)
  obtain ⟨C, hC⟩ := ht2.mp hsays'
  refine password_encryption_can_succeed p' (by rw [hlib', hlib]; exact sodium_lawful hF) hwf occs' free' hp hr C (fun alg ha => ?_)
    htty hq hw pw hpw pre l rest hst hpre hl'
  rw [ha.mpr hfast, hlib', hC]

/-! ## C95 -/

/-- C95: what is boxed with one's private key for somebody's public key can be opened with the other two keys, and with the same two
keys, if the pairs come from the program. -/
theorem box_round_trip (hF : Documented F) (r r' message nonce c mac : Bytes)
    (h : boxEncrypt F message (generateKeypair F r').1 (generateKeypair F r).2 nonce = some (c, mac)) :
    boxDecrypt F c (generateKeypair F r).1 (generateKeypair F r').2 nonce mac = some message ∧
    boxDecrypt F c (generateKeypair F r').1 (generateKeypair F r).2 nonce mac = some message ∧ c.length = message.length ∧
      mac.length = 16 := by
  unfold boxEncrypt at h
  rw [Option.map_eq_some_iff] at h
  obtain ⟨k, hk, hs⟩ := h
  have hshared : boxBeforenm F (generateKeypair F r).1 (generateKeypair F r').2 = some k := by
    rw [← hk]
    simp only [boxBeforenm, generateKeypair, (hF.convertible _).1, (hF.convertible _).2, hF.agreement r r']
    rfl
  have hopen : boxOpen F k nonce c mac = some message := by
    unfold boxSeal at hs
    unfold boxOpen
    rw [show c = (F.boxDetached message nonce k).1 by rw [hs], show mac = (F.boxDetached message nonce k).2 by rw [hs],
      hF.box_inverse]
    simp
  obtain ⟨h1, h2⟩ := hF.box_len message nonce k
  unfold boxSeal at hs
  rw [hs] at h1 h2
  exact ⟨by rw [boxDecrypt, hshared]; exact hopen, by rw [boxDecrypt, hk]; exact hopen, h1, h2⟩

/-- C95: a signature made with a private key of the program is accepted with its public key. -/
theorem sign_round_trip (hF : Documented F) (r message : Bytes) :
    verify F message (generateKeypair F r).1 (sign F message (generateKeypair F r).2) = true ∧
      (sign F message (generateKeypair F r).2).length = 64 := by
  refine ⟨?_, hF.sign_len _ _⟩
  simp [verify, sign, generateKeypair, hF.sign_verify]

/-- C95: a signature is accepted exactly if libsodium accepts it. -/
theorem verify_iff (message publicKey signature : Bytes) :
    verify F message publicKey signature = true ↔ F.verifyDetached signature message publicKey = 0 := by
  simp [verify]

/-- C95: the derivation of a key from a password is a panic, not an error, exactly if libsodium reports that it could not finish
(usually for want of memory); otherwise its result is used. -/
theorem key_derivation_panics_iff (password salt : Bytes) :
    (keyDerivation F password salt = .panic ↔ (F.pwhash password salt).1 ≠ 0) ∧
    (∀ k, keyDerivation F password salt = .ok k ↔ F.pwhash password salt = (0, k)) ∧
    (∀ alg C, (lib F).instantiate alg = .ok C → (F.pwhash password salt).1 = 0 →
      keyDerivation F password salt = .ok (C.keyDerivation password salt)) := by
  simp only [keyDerivation]
  refine ⟨by split_ifs <;> simp_all, fun k => by split_ifs <;> simp_all [Prod.ext_iff], ?_⟩
  intro alg C h h0
  unfold lib Sodium.new at h
  simp only at h
  split_ifs at h
  cases h
  rw [if_pos h0]
  rfl

/-! ## C96 -/

private theorem fill_of (b : Bytes) : (Tape.fill (fun i => b.getD i 0) b.length).1 = b := by
  apply List.ext_getElem
  · simp [Tape.fill]
  · intro i h1 h2
    simp [Tape.fill, h2]

private theorem one_string (n : Nat) (f : Tape → Nat) (hf : ∀ t, f t = leNat (t.fill n).1) (v : Nat) (hv : v < 256 ^ n) :
    ∃! b : Bytes, b.length = n ∧ ∀ t : Tape, (t.fill n).1 = b → f t = v := by
  refine ⟨leBytes n v, ⟨leBytes_length _ _, fun t ht => by rw [hf, ht, leNat_leBytes_of_lt hv]⟩, ?_⟩
  rintro b ⟨rfl, hb⟩
  have := hb _ (fill_of b)
  rw [hf, fill_of] at this
  rw [← this, leBytes_leNat]

/-- C96: random integers take each value from exactly one string of random bytes, and use no byte twice: they are as random as the
bytes. -/
theorem random_integers (t : Tape) :
    (nextU32 t).1 < 2 ^ 32 ∧ (nextU64 t).1 < 2 ^ 64 ∧
    (∀ v < 2 ^ 32, ∃! b : Bytes, b.length = 4 ∧ ∀ t : Tape, (t.fill 4).1 = b → (nextU32 t).1 = v) ∧
    (∀ v < 2 ^ 64, ∃! b : Bytes, b.length = 8 ∧ ∀ t : Tape, (t.fill 8).1 = b → (nextU64 t).1 = v) ∧
    (nextU32 t).2 = (fun i => t (4 + i)) ∧ (nextU64 t).2 = (fun i => t (8 + i)) := by
  refine ⟨?_, ?_, fun v hv => one_string 4 (fun t => (nextU32 t).1) (fun _ => rfl) v (by norm_num; exact hv),
    fun v hv => one_string 8 (fun t => (nextU64 t).1) (fun _ => rfl) v (by norm_num; exact hv), rfl, rfl⟩
  · have := leNat_lt (t.fill 4).1
    simpa [Tape.fill, nextU32] using this
  · have := leNat_lt (t.fill 8).1
    simpa [Tape.fill, nextU64] using this

/-! ## A toy libsodium, without AES unless it is asked for -/

namespace SodiumSample

open Toy

/-- Detached decryption with return codes. -/
def codes (r : Option Bytes) (c : Bytes) : Int × Bytes := match r with
  | some m => (0, m)
  | none => (-1, List.replicate c.length 0)

def toy (aes : Bool) : Ffi where
  init := 1
  aesAvailable := if aes then 1 else 0
  versionString := Text.encode "1.0.18".toList
  hash m := digest m ++ digest (1 :: m)
  auth m k := digest (k ++ m)
  chachaEncrypt m ad n k := Toy.crypto.aeadEncrypt k n ad m
  aesEncrypt m ad n k := if aes then Toy.crypto.aeadEncrypt k n (1 :: ad) m else ([], [])
  chachaDecrypt c mac ad n k := codes (Toy.crypto.aeadDecrypt k n ad c mac) c
  aesDecrypt c mac ad n k := if aes then codes (Toy.crypto.aeadDecrypt k n (1 :: ad) c mac) c else (-1, [])
  chachaMax := 2 ^ 32
  aesMax := 2 ^ 31
  signKeypair := Toy.crypto.keypair
  pkToCurve pk := if pk.length = 32 then (0, pk) else (-1, [])
  skToCurve sk := (0, pad32 sk)
  beforenm pk sk :=
    let k := List.zipWith (· ^^^ ·) (pad32 pk) (pad32 sk)
    if k = List.replicate 32 0 then (-1, []) else (0, k)
  boxDetached m n k := Toy.crypto.boxSeal k n m
  boxOpenDetached c mac n k := codes (Toy.crypto.boxOpen k n c mac) c
  signDetached m sk := digest (pad32 sk ++ m) ++ digest (m ++ pad32 sk)
  verifyDetached s m pk := if s = digest (pad32 pk ++ m) ++ digest (m ++ pad32 pk) then 0 else -1
  pwhash p s := if p.length < 2 ^ 32 then (0, digest (s ++ p)) else (-1, List.replicate 32 0)

theorem toy_documented (aes : Bool) : Documented (toy aes) where
  hash_len m := by simp [toy, digest_length]
  auth_len m k := digest_length _
  pwhash_len p s := by simp only [toy]; split_ifs <;> simp [digest_length]
  chacha_len m ad n k := ⟨lawful.aead_ct_len _ _ _ _, lawful.aead_mac_len _ _ _ _⟩
  chacha_len' c mac ad n k := by
    simp only [toy, codes]
    split
    · rename_i m h; exact lawful.aead_dec_len _ _ _ _ _ _ h
    · simp
  chacha_inverse m ad n k := by simp only [toy, lawful.aead_dec_enc, codes]
  aes_len h m ad n k := by
    cases aes
    · exact absurd rfl h
    · exact ⟨lawful.aead_ct_len _ _ _ _, lawful.aead_mac_len _ _ _ _⟩
  aes_len' h c mac ad n k := by
    cases aes
    · exact absurd rfl h
    · simp only [toy, codes, if_true]
      split
      · rename_i m h; exact lawful.aead_dec_len _ _ _ _ _ _ h
      · simp
  aes_inverse h m ad n k := by
    cases aes
    · exact absurd rfl h
    · simp only [toy, if_true, lawful.aead_dec_enc, codes]
  keypair_len r := ⟨lawful.pk_len r, lawful.sk_len r⟩
  convertible r := by
    refine ⟨?_, rfl⟩
    simp only [toy, lawful.pk_len r, if_true]
  agreement r r' := by
    have hp : ∀ r, ((toy aes).pkToCurve ((toy aes).signKeypair r).1).2 = pad32 r := fun r => by
      simp only [toy, lawful.pk_len r, if_true]; rfl
    have hs : ∀ r, ((toy aes).skToCurve ((toy aes).signKeypair r).2).2 = pad32 r := fun r => pad32_append r _
    rw [hp, hs, hp, hs]
    have : List.zipWith (· ^^^ ·) (pad32 (pad32 r)) (pad32 (pad32 r')) = List.zipWith (· ^^^ ·) (pad32 (pad32 r')) (pad32 (pad32 r)) := by
      rw [List.zipWith_comm]
      congr 1
      funext a b
      exact UInt8.xor_comm _ _
    simp only [toy, this]
  box_len m n k := ⟨lawful.box_ct_len _ _ _, lawful.box_mac_len _ _ _⟩
  box_len' c mac n k := by
    simp only [toy, codes]
    split
    · rename_i m h; exact lawful.box_dec_len _ _ _ _ _ h
    · simp
  box_inverse m n k := by simp only [toy, lawful.box_open_seal, codes]
  sign_len m sk := by simp [toy, digest_length]
  sign_verify m r := by
    have hs : pad32 (Toy.crypto.keypair r).2 = pad32 r := pad32_append r _
    have hp : pad32 (Toy.crypto.keypair r).1 = pad32 r := by
      have := pad32_append r []
      rwa [List.append_nil] at this
    simp only [toy, hs, hp, if_true]

/-- C93, C94: with and without AES. -/
example : (lib (toy false)).Lawful ∧ (∀ C, (lib (toy false)).instantiate .aes256Gcm ≠ .ok C) ∧
    (∃ C, (lib (toy false)).instantiate .chaCha20Poly1305Ietf = .ok C) ∧ ∃ C, (lib (toy true)).instantiate .aes256Gcm = .ok C := by
  refine ⟨sodium_lawful (toy_documented false), ?_, (available_iff _).mpr (by decide), (available_iff _).mpr (by decide)⟩
  intro C h
  exact absurd ((available_iff _).mp ⟨C, h⟩) (by decide)

/-- C95: the box of the round trip exists. -/
example : (boxEncrypt (toy true) [1, 2, 3] (generateKeypair (toy true) [5]).1 (generateKeypair (toy true) [6]).2 []).isSome = true := by
  decide +kernel

/-- C95: the panic. -/
example : keyDerivation { toy true with pwhash := fun _ _ => (-1, List.replicate 32 0) } [1] [2] = .panic ∧
    Documented { toy true with pwhash := fun _ _ => (-1, List.replicate 32 0) } :=
  ⟨rfl, { toy_documented true with pwhash_len := fun _ _ => by simp }⟩

/-! ### C94: `rypt -V`, then `rypt --fast f` -/

def versionStart (aes : Bool) : Start :=
  { ProgramSample.start ["-V".toList] [] (ProgramSample.fs none none none none) with
    lib := lib (toy aes)
    versionText := ("rypt 0.8.0\nlibsodium 1.0.18 [AES256-GCM is " ++ (if aes then "" else "NOT ") ++ "supported]\n").toList }

theorem version_text (aes : Bool) : Sodium.versionText (toy aes) "rypt".toList "0.8.0".toList = .ok (versionStart aes).versionText := by
  cases aes <;> decide +kernel

theorem version_runs (aes : Bool) : ∃ m, Reaches (versionStart aes) m ∧ m.exit = some 0 := by
  have h : (match (versionStart aes).parse.1 with | .ok .version => true | _ => false) = true := by
    cases aes <;> decide +kernel
  have h : (versionStart aes).parse.1 = .ok .version := by
    split at h
    · assumption
    · cases h
  exact ⟨_, .version _ _ (Prod.ext h rfl) .all, rfl⟩

theorem version_typed (aes : Bool) : Typed 0 (versionStart aes).args [⟨.version, 0, none⟩] [] := by
  have h : parse ["-V".toList] = .ok ⟨[⟨.version, 0, none⟩], []⟩ := by decide +kernel
  exact ((Getopts.parse_iff _ _).mp h).1

theorem version_mode : LastMode [⟨.version, 0, none⟩] .version :=
  .inr ⟨⟨.version, 0, none⟩, by simp, rfl, by simp [modeOf]⟩

/-- Without AES, `rypt -V` says so, and `rypt --fast f` does not succeed. -/
example : (∃ m t, Reaches (versionStart false) m ∧ m.exit = some 0 ∧ m.stdout = Text.encode t ∧
      " [AES256-GCM is NOT supported]\n".toList <:+ t) ∧
    ∀ m', Reaches { ProgramSample.fastStart with lib := lib (toy false) } m' → m'.exit ≠ some 0 := by
  obtain ⟨m, h, hx⟩ := version_runs false
  obtain ⟨-, t, h1, h2, h3⟩ := version_tells_fast (versionStart false) rfl (version_text false) m h _ _ (version_typed false) version_mode
    (by rintro ⟨h, -⟩; cases h) hx
  have hno : ∀ C, (lib (toy false)).instantiate .aes256Gcm ≠ .ok C := fun C h => absurd ((available_iff _).mp ⟨C, h⟩) (by decide)
  refine ⟨⟨m, t, h, hx, h1, h3.mpr ⟨(available_iff _).mpr (by decide), hno⟩⟩, fun m' h' => ?_⟩
  refine (version_warns (versionStart false) { ProgramSample.fastStart with lib := lib (toy false) } rfl (toy_documented false)
    (version_text false) m h _ _ (version_typed false) version_mode (by rintro ⟨h, -⟩; cases h) hx ?_ rfl (ProgramSample.fs_wf _ _ _ _)
    ProgramSample.fastOccs ProgramSample.encArgs
    ⟨ProgramSample.fastTyped.1, .inl ⟨by simp [ProgramSample.fastOccs, modeOf], rfl⟩, by simp [Given, ProgramSample.fastOccs], by decide,
      by decide⟩ (by simp [Given, ProgramSample.fastOccs]) ?_ ⟨⟨.fast, 0, none⟩, by simp [ProgramSample.fastOccs], rfl⟩ m' h').1
    "f".toList (by simp [ProgramSample.encArgs]) [1, 2, 3] ⟨0, rfl, rfl⟩
  · intro t' ht' hs
    obtain rfl := Text.encode_injective (h1.symm.trans ht')
    obtain ⟨C, hC⟩ := h2.mp hs
    exact hno C hC
  · intro a ha a' ha' force ext q he ho
    exact ProgramSample.encNoChain a ha a' ha' force ext q
      (.inl ⟨by simp [Given], ProgramSample.suffix_default (by simp [Given, ProgramSample.fastOccs]) he⟩) ho

/-- With AES, `rypt -V` says so, and `rypt --fast f` can succeed. -/
example : ∃ m', Reaches { ProgramSample.fastStart with lib := lib (toy true) } m' ∧ m'.exit = some 0 := by
  obtain ⟨m, h, hx⟩ := version_runs true
  obtain ⟨-, t, h1, h2, -⟩ := version_tells_fast (versionStart true) rfl (version_text true) m h _ _ (version_typed true) version_mode
    (by rintro ⟨h, -⟩; cases h) hx
  refine version_promises (versionStart true) { ProgramSample.fastStart with lib := lib (toy true) } rfl (toy_documented true)
    (version_text true) m h _ _ (version_typed true) version_mode (by rintro ⟨h, -⟩; cases h) hx t h1
    (h2.mpr ((available_iff _).mpr (by decide))) rfl (ProgramSample.fs_wf _ _ _ _)
    ProgramSample.fastOccs ProgramSample.encArgs ?_ ?_ ⟨⟨.fast, 0, none⟩, by simp [ProgramSample.fastOccs], rfl⟩ ⟨rfl, rfl⟩ (by decide)
    (by intro w hw; cases hw) "pw".toList (by decide) [] ProgramSample.pwTwice []
    (by simp [ProgramSample.fastStart, ProgramSample.start]) .nil ProgramSample.entered_twice
  · exact {
      files := ⟨ProgramSample.fastTyped.1, .inl ⟨by simp [ProgramSample.fastOccs, modeOf], rfl⟩, by simp [Given, ProgramSample.fastOccs],
        by decide, by decide⟩
      duplicates := ProgramSample.fastTyped.2
      verbosity := by decide
      noDash := ProgramSample.encProper.noDash
      policy := by simp [Given, ProgramSample.fastOccs]
      separate := List.pairwise_singleton _ _
      force := by simp [Given, ProgramSample.fastOccs]
      tokens := ⟨[], TypedTokens.skip _ _ _ rfl .nil, rfl⟩ }
  · have he : ∀ {ext}, SuffixOf ProgramSample.fastOccs ext → SuffixOf [] ext := fun he =>
      .inl ⟨by simp [Given], ProgramSample.suffix_default (by simp [Given, ProgramSample.fastOccs]) he⟩
    exact ⟨ProgramSample.encReady.plain, fun ext h => ProgramSample.encReady.unused ext (he h),
      fun ext h => ProgramSample.encReady.different ext (he h)⟩

end SodiumSample

end Rypt.Props
