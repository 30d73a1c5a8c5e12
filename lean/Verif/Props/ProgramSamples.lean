import Verif.Props.Possible

/-! Cases that meet the hypotheses of the theorems about the whole program (C82 to C88). -/

namespace Rypt.Props.ProgramSample

open Getopts Cli UI Filesystem CryptStreams HeaderCrypto Program

/-- Paths are `f`, `f.rypt`, `k`, `k.pub`, others. Those with a content exist. -/
def fs (f r k u : Option Bytes) : FS where
  loc p := if p = "f".toList then 0 else if p = "f.rypt".toList then 1 else if p = "k".toList then 2 else if p = "k.pub".toList then 3 else 4
  entry n := match n with
    | 0 => f.map fun _ => .file 0
    | 1 => r.map fun _ => .file 1
    | 2 => k.map fun _ => .file 2
    | 3 => u.map fun _ => .file 3
    | _ => none
  content i := match i with
    | 0 => f.getD []
    | 1 => r.getD []
    | 2 => k.getD []
    | 3 => u.getD []
    | _ => []
  nlink _ := 1
  nextIno := 4
  linkSize _ := 0

theorem fs_wf (f r k u : Option Bytes) : (fs f r k u).WF := by
  intro n ino h
  simp only [fs] at h ⊢
  split at h <;> simp at h <;> omega

/-- At a terminal, with the toy cryptography. -/
def start (args : List Arg) (stdin : List UI.Input) (d : FS) : Start where
  lib := Toy.lib
  sha512 := sampleEnv.sha512
  sha512_length := sampleEnv.sha512_length
  name := "rypt".toList
  args := args
  ttys := allTtys
  fs := d
  stdin := stdin
  tty := Spec.sampleTty
  tcs := []
  histories _ _ := True
  writes := []
  fates := []
  unreadable _ := false
  device _ := none
  versionText := "version".toList

/-! ### Encryption with a password: `rypt f` -/

def encArgs : List Arg := ["f".toList]

def pwTwice : List UI.Input := Spec.typed "pw\npw\n".toList

def encStart : Start := start encArgs pwTwice (fs (some [1, 2, 3]) none none none)

theorem encTyped : Typed 0 encStart.args [] encArgs ∧ NoDuplicates [] := by
  have h : parse encArgs = .ok ⟨[], encArgs⟩ := by decide +kernel
  exact (Getopts.parse_iff _ _).mp h

theorem suffix_default {occs : List Occ} (h : ¬ Given occs .suffix) {ext : Arg} (hs : SuffixOf occs ext) : ext = "rypt".toList := by
  rcases hs with ⟨-, h⟩ | ⟨x, hx, ho, -⟩
  · exact h
  · exact absurd ⟨x, hx, ho⟩ h

theorem outName : OutputName false "rypt".toList "f".toList .encrypt (some "f.rypt".toList) :=
  .added [] "f".toList ⟨[], rfl, .inl rfl, by unfold Spec.FileName; decide, .nil⟩ (by decide) (.inl (by decide)) (.inr (by
    rintro ⟨s, hs, h, -⟩
    cases s with
    | nil => exact hs rfl
    | cons a s =>
      have := congrArg List.length h
      simp at this))

theorem encConverts : ConvertsFiles encStart .encrypt [] encArgs :=
  ⟨encTyped.1, .inl ⟨by simp, rfl⟩, by simp [Given], by decide, by decide⟩

theorem encProper : Proper encStart .encrypt [] encArgs [.interactivePassword] where
  files := encConverts
  duplicates := encTyped.2
  verbosity := by decide
  noDash a ha := by rw [List.mem_singleton.mp ha, ← Text.trim_iff]; decide +kernel
  policy := by simp [Given]
  separate := .nil
  force := by simp [Given]
  tokens := ⟨[], .nil, rfl⟩

theorem encReady : FilesReady encStart .encrypt [] encArgs where
  plain a ha := by rw [List.mem_singleton.mp ha]; exact ⟨0, by decide +kernel, rfl⟩
  unused ext he a ha := by
    rw [List.mem_singleton.mp ha, suffix_default (by simp [Given]) he]
    exact ⟨_, outName, by decide +kernel⟩
  different _ _ := List.pairwise_singleton _ _

theorem encNoChain : NoChain encStart .encrypt [] encArgs := by
  intro a ha a' ha' force ext q he ho
  rw [List.mem_singleton.mp ha'] at ho
  rw [List.mem_singleton.mp ha]
  rw [suffix_default (by simp [Given]) he] at ho
  have h2 : q = "f.rypt".toList := by
    cases force with
    | false => exact Option.some.inj (output_name_unique _ _ _ _ _ _ ho outName)
    | true =>
      have : OutputName true "rypt".toList "f".toList .encrypt (some "f.rypt".toList) :=
        .added [] "f".toList ⟨[], rfl, .inl rfl, by unfold Spec.FileName; decide, .nil⟩ (by decide) (.inl (by decide)) (.inl rfl)
      exact Option.some.inj (output_name_unique _ _ _ _ _ _ ho this)
  rw [h2]
  decide +kernel

theorem entered_twice : Spec.Entered .encrypt "pw".toList pwTwice :=
  ⟨Spec.typed "pw\n".toList, Spec.typed "pw\n".toList, rfl, .lf "pw".toList (by decide) (by decide), .lf "pw".toList (by decide) (by decide)⟩

/-- There is such a run (C87), to which C83, C84, C85 and C86 apply. -/
theorem encryption_runs : ∃ m, Reaches encStart m ∧ m.exit = some 0 :=
  password_encryption_can_succeed encStart Toy.lib_lawful (fs_wf _ _ _ _) [] encArgs encProper encReady Toy.crypto (fun _ _ => rfl)
    ⟨rfl, rfl⟩ (by decide) (by intro w hw; cases hw) "pw".toList (by decide) [] pwTwice [] (by simp [encStart, start]) .nil entered_twice

/-- The content of `f.rypt` afterwards. -/
theorem encryption_result : ∃ F, EncryptionOf Toy.lib ⟨⟨[(1, .password (Spec.utf8 "pw".toList))], 1, 1⟩, false⟩ [1, 2, 3] F := by
  obtain ⟨m, h, hx⟩ := encryption_runs
  obtain ⟨d, t, ext, hd, ha, he, hall⟩ := files_are_converted encStart Toy.lib_lawful (fs_wf _ _ _ _) _ _ _ encConverts (by simp [Given])
    encNoChain m h hx
  obtain ⟨q, F, hq, hF, hres⟩ := hall "f".toList (by simp [encArgs]) [1, 2, 3] ⟨0, by decide +kernel, rfl⟩
  cases d with
  | decrypt => cases hd
  | encrypt c fast =>
    refine ⟨F, ?_⟩
    have hfast : fast = false := by
      obtain ⟨_, _, _, -, -, h, -⟩ := ha
      simpa [Given] using h
    have hc := asked_encrypt_single (k := .password (Spec.utf8 "pw".toList)) .nil (if_pos rfl) trivial ha (fun v skip cs t' hp =>
      provides_entered (pre := []) (l := pwTwice) (rest := []) hp (by intro w hw; cases hw) (by decide) .nil entered_twice
        (by simp [encStart, start, Start.ui]))
    subst hfast hc
    exact hres

/-! ### Decryption with the password: `rypt -d f.rypt` -/

def decArgs : List Arg := ["-d".toList, "f.rypt".toList]

def pwOnce : List UI.Input := Spec.typed "pw\n".toList

def decStart (F : Bytes) : Start := start decArgs pwOnce (fs none (some F) none none)

def decOccs : List Occ := [⟨.decrypt, 0, none⟩]

theorem decTyped (F : Bytes) : Typed 0 (decStart F).args decOccs ["f.rypt".toList] ∧ NoDuplicates decOccs := by
  have h : parse decArgs = .ok ⟨decOccs, ["f.rypt".toList]⟩ := by decide +kernel
  exact (Getopts.parse_iff _ _).mp h

theorem decConverts (F : Bytes) : ConvertsFiles (decStart F) .decrypt decOccs ["f.rypt".toList] :=
  ⟨(decTyped F).1, .inr ⟨⟨.decrypt, 0, none⟩, by simp [decOccs], rfl, by simp [decOccs, modeOf]⟩, by simp [Given, decOccs], by decide, by decide⟩

theorem decName (force : Bool) : OutputName force "rypt".toList "f.rypt".toList .decrypt (some "f".toList) :=
  .removed [] "f".toList ⟨[], rfl, .inl rfl, by unfold Spec.FileName; decide, .nil⟩ (by decide) (by decide)

theorem decProper (F : Bytes) : Proper (decStart F) .decrypt decOccs ["f.rypt".toList] [.interactivePassword] where
  files := decConverts F
  duplicates := (decTyped F).2
  verbosity := by decide
  noDash a ha := by rw [List.mem_singleton.mp ha, ← Text.trim_iff]; decide +kernel
  policy := by simp [Given, decOccs]
  separate := List.pairwise_singleton _ _
  force := by simp [Given, decOccs]
  tokens := ⟨[], TypedTokens.skip _ _ _ rfl .nil, rfl⟩

theorem decReady (F : Bytes) : FilesReady (decStart F) .decrypt decOccs ["f.rypt".toList] where
  plain a ha := by rw [List.mem_singleton.mp ha]; exact ⟨1, rfl, rfl⟩
  unused ext he a ha := by
    rw [List.mem_singleton.mp ha, suffix_default (by simp [Given, decOccs]) he]
    exact ⟨_, decName false, rfl⟩
  different _ _ := List.pairwise_singleton _ _

theorem decNoChain (F : Bytes) : NoChain (decStart F) .decrypt decOccs ["f.rypt".toList] := by
  intro a ha a' ha' force ext q he ho
  rw [List.mem_singleton.mp ha'] at ho
  rw [List.mem_singleton.mp ha]
  rw [suffix_default (by simp [Given, decOccs]) he] at ho
  rw [Option.some.inj (output_name_unique _ _ _ _ _ _ ho (decName force))]
  have : (1 : Nat) ≠ 0 := by omega
  exact this

/-- There is such a run (C87), after the encryption; by C85 it restores the content. -/
theorem decryption_runs : ∃ F m, EncryptionOf Toy.lib ⟨⟨[(1, .password (Spec.utf8 "pw".toList))], 1, 1⟩, false⟩ [1, 2, 3] F ∧
    Reaches (decStart F) m ∧ m.exit = some 0 := by
  obtain ⟨F, hF⟩ := encryption_result
  obtain ⟨m, h, hx⟩ := password_decryption_can_succeed (decStart F) Toy.lib_lawful (fs_wf _ _ _ _) decOccs _ (decProper F) (decReady F)
    ⟨rfl, rfl⟩ (by decide) (by intro w hw; cases hw) "pw".toList (by decide) [] pwOnce [] (by simp [decStart, start]) .nil
    (show Spec.LineOf _ _ from .lf "pw".toList (by decide) (by decide)) (by
      intro a ha b hb
      rw [List.mem_singleton.mp ha] at hb
      obtain ⟨ino, he, hc⟩ := hb
      have : (Node.file 1) = .file ino := Option.some.inj he
      cases this
      rw [← hc]
      exact ⟨_, _, hF⟩)
  exact ⟨F, m, hF, h, hx⟩

/-! ### Key generation: `rypt -g k` -/

def keyArgs : List Arg := ["-g".toList, "k".toList]

def keyOccs : List Occ := [⟨.genKeypair, 0, none⟩]

def keyStart : Start := start keyArgs [] (fs none none none none)

def isKeygen (streams : List KeyPairOutputStreams) (force : Bool) : Res Command → Bool
  | .ok (.generateKeyPair s f) => decide (s = streams ∧ f = force)
  | _ => false

theorem isKeygen_eq {streams : List KeyPairOutputStreams} {force : Bool} {r : Res Command} (h : isKeygen streams force r = true) :
    r = .ok (.generateKeyPair streams force) := by
  unfold isKeygen at h
  split at h
  · obtain ⟨rfl, rfl⟩ := of_decide_eq_true h; rfl
  · cases h

theorem keyTyped : Typed 0 keyStart.args keyOccs ["k".toList] ∧ NoDuplicates keyOccs := by
  have h : parse keyArgs = .ok ⟨keyOccs, ["k".toList]⟩ := by decide +kernel
  exact (Getopts.parse_iff _ _).mp h

theorem keyMode : LastMode keyOccs .generateKeypair :=
  .inr ⟨⟨.genKeypair, 0, none⟩, by simp [keyOccs], rfl, by simp [keyOccs, modeOf]⟩

theorem keygen_runs : ∃ m, Reaches keyStart m ∧ m.exit = some 0 := by
  have hp : isKeygen [⟨some (.file "k.pub".toList), .file "k".toList⟩] false keyStart.parse.1 = true := by decide +kernel
  have := Reaches.keygen (p := keyStart) _ _ keyStart.parse.2 Toy.crypto [[7]] (Prod.ext (isKeygen_eq hp) rfl) rfl rfl
  exact ⟨_, this, by decide +kernel⟩

/-- The library accepts its own key pairs. -/
theorem toy_pairs (alg : AeadAlgorithm) (C : Crypto) (s s' : Bytes) (h : Toy.lib.instantiate alg = .ok C) :
    C.boxBeforenm (C.keypair s).1 (C.keypair s').2 ≠ none := by
  cases h
  simp [Toy.crypto]

theorem toy_same : SameKeys Toy.lib := by
  intro alg alg' C C' h h'
  cases h; cases h'; rfl

/-! ### Encryption with the public key: `rypt --public-key k.pub f` -/

def pubArgs : List Arg := ["--public-key".toList, "k.pub".toList, "f".toList]

def pubOccs : List Occ := [⟨.publicKey, 0, some "k.pub".toList⟩]

def pubStart (T' : Bytes) : Start := start pubArgs [] (fs (some [1, 2, 3]) none none (some T'))

theorem pubTyped (T' : Bytes) : Typed 0 (pubStart T').args pubOccs ["f".toList] ∧ NoDuplicates pubOccs := by
  have h : parse pubArgs = .ok ⟨pubOccs, ["f".toList]⟩ := by decide +kernel
  exact (Getopts.parse_iff _ _).mp h

theorem pubProper (T' : Bytes) : Proper (pubStart T') .encrypt pubOccs ["f".toList] [.publicKeyFile "k.pub".toList] where
  files := ⟨(pubTyped T').1, .inl ⟨by simp [pubOccs, modeOf], rfl⟩, by simp [Given, pubOccs], by decide, by decide⟩
  duplicates := (pubTyped T').2
  verbosity := by decide
  noDash a ha := by rw [List.mem_singleton.mp ha, ← Text.trim_iff]; decide +kernel
  policy := by simp [Given, pubOccs]
  separate := List.pairwise_singleton _ _
  force := by simp [Given, pubOccs]
  tokens := ⟨[.publicKeyFile "k.pub".toList], .cons _ _ _ _ (.publicKey _ _) .nil, rfl⟩

theorem pubReady (T' : Bytes) : FilesReady (pubStart T') .encrypt pubOccs ["f".toList] where
  plain a ha := by rw [List.mem_singleton.mp ha]; exact ⟨0, rfl, rfl⟩
  unused ext he a ha := by
    rw [List.mem_singleton.mp ha, suffix_default (by simp [Given, pubOccs]) he]
    exact ⟨_, outName, rfl⟩
  different _ _ := List.pairwise_singleton _ _

/-! ### Decryption with the private key: `rypt -d --private-key k f.rypt` -/

def privArgs : List Arg := ["-d".toList, "--private-key".toList, "k".toList, "f.rypt".toList]

def privOccs : List Occ := [⟨.decrypt, 0, none⟩, ⟨.privateKey, 1, some "k".toList⟩]

def privStart (T F : Bytes) : Start := start privArgs [] (fs none (some F) (some T) none)

theorem privTyped (T F : Bytes) : Typed 0 (privStart T F).args privOccs ["f.rypt".toList] ∧ NoDuplicates privOccs := by
  have h : parse privArgs = .ok ⟨privOccs, ["f.rypt".toList]⟩ := by decide +kernel
  exact (Getopts.parse_iff _ _).mp h

theorem privProper (T F : Bytes) : Proper (privStart T F) .decrypt privOccs ["f.rypt".toList] [.privateKeyFile "k".toList] where
  files := ⟨(privTyped T F).1, .inr ⟨⟨.decrypt, 0, none⟩, by simp [privOccs], rfl, by simp [privOccs, modeOf]⟩,
    by simp [Given, privOccs], by decide, by decide⟩
  duplicates := (privTyped T F).2
  verbosity := by decide
  noDash a ha := by rw [List.mem_singleton.mp ha, ← Text.trim_iff]; decide +kernel
  policy := by simp [Given, privOccs]
  separate := by simp [privOccs]
  force := by simp [Given, privOccs]
  tokens := ⟨[.privateKeyFile "k".toList], .skip _ _ _ rfl (.cons _ _ _ _ (.privateKey _ _) .nil), rfl⟩

theorem privReady (T F : Bytes) : FilesReady (privStart T F) .decrypt privOccs ["f.rypt".toList] where
  plain a ha := by rw [List.mem_singleton.mp ha]; exact ⟨1, rfl, rfl⟩
  unused ext he a ha := by
    rw [List.mem_singleton.mp ha, suffix_default (by simp [Given, privOccs]) he]
    exact ⟨_, decName false, rfl⟩
  different _ _ := List.pairwise_singleton _ _

/-- All three runs exist: C85 and C87 for generated keys apply. -/
example : ∃ T T' F m m1 m2, Reaches keyStart m ∧ m.exit = some 0 ∧ m.fs.holds "k".toList T ∧
    Reaches (pubStart T') m1 ∧ m1.exit = some 0 ∧ Reaches (privStart T F) m2 ∧ m2.exit = some 0 := by
  obtain ⟨m, h, hx⟩ := keygen_runs
  obtain ⟨pub, T, T', pk, -, hT, -, h1, h2⟩ := generated_keys_can_be_used keyStart Toy.lib_lawful toy_same (fs_wf _ _ _ _) keyOccs _
    keyTyped.1 keyMode (by simp [Given, keyOccs]) m h hx "k".toList (by simp) (by decide) toy_pairs
  obtain ⟨m1, hm1, hx1⟩ := h1 (pubStart T') pubOccs _ "k.pub".toList Toy.crypto rfl rfl (fs_wf _ _ _ _) (pubProper T') (pubReady T')
    (fun _ _ => rfl) ⟨3, rfl, rfl⟩ rfl
  obtain ⟨F, hF⟩ : ∃ F, EncryptionOf Toy.lib ⟨⟨[(1, .publicKey pk)], 1, 1⟩, false⟩ [1, 2, 3] F := by
    have hw : (⟨[(1, .publicKey pk)], 1, 1⟩ : ComplexCredential).WF := by
      simp [ComplexCredential.WF, Credential.WF, MembersWF, Rypt.totalShares]
    obtain ⟨hdr, codec, cs, he⟩ := (header_possible_iff Toy.lib (by simp [Toy.lib]) ⟨⟨[(1, .publicKey pk)], 1, 1⟩, false⟩ hw 0
      (by omega) (fun _ => 0)).1.mpr ⟨Toy.crypto, rfl, by simp [Credential.Encryptable, MembersEncryptable, Toy.crypto]⟩
    have := header_size_bound _ Toy.lib_lawful _ hw _ _ _ _ _ he
    simp only [membersCost, Credential.cost] at this
    exact ⟨_, 0, fun _ => 0, hdr, codec, cs, by omega, he, rfl, by unfold Spec.maxHeader; omega⟩
  obtain ⟨m2, hm2, hx2⟩ := h2 (privStart T F) privOccs _ "k".toList rfl rfl (fs_wf _ _ _ _) (privProper T F) (privReady T F)
    ⟨2, rfl, rfl⟩ rfl (by
      intro a ha b hb
      rw [List.mem_singleton.mp ha] at hb
      obtain ⟨ino, he, hc⟩ := hb
      have : (Node.file 1) = .file ino := Option.some.inj he
      cases this
      rw [← hc]
      exact ⟨_, _, hF⟩)
  exact ⟨T, T', F, m, m1, m2, h, hx, hT, hm1, hx1, hm2, hx2⟩

/-! ### Refusals -/

/-- `rypt -x`: not an option. -/
example : Refusable (start ["-x".toList] [] (fs none none none none)) := by
  refine .unreadable ?_
  rintro ⟨occs, free, h1, h2⟩
  have h := (Getopts.parse_iff _ ⟨occs, free⟩).mpr ⟨h1, h2⟩
  have h' : (match parse ["-x".toList] with | .ok _ => true | _ => false) = false := by decide +kernel
  rw [show parse ["-x".toList] = .ok ⟨occs, free⟩ from h] at h'
  cases h'

/-- `rypt -s f` at a terminal. -/
example : Refusable (start ["-s".toList, "f".toList] [] (fs none none none none)) := by
  have h : parse ["-s".toList, "f".toList] = .ok ⟨[⟨.stream, 0, none⟩], ["f".toList]⟩ := by decide +kernel
  exact .terminal _ _ .encrypt ((Getopts.parse_iff _ _).mp h).1 (.inl ⟨by simp [modeOf], rfl⟩) (by simp [start])
    (by simp [Given]) (.inr ⟨rfl, .inl ⟨⟨.stream, 0, none⟩, by simp, rfl⟩, rfl⟩)

/-- `rypt -g`. -/
example : Refusable (start ["-g".toList] [] (fs none none none none)) := by
  have h : parse ["-g".toList] = .ok ⟨[⟨.genKeypair, 0, none⟩], []⟩ := by decide +kernel
  exact .keyPaths _ _ ((Getopts.parse_iff _ _).mp h).1 keyMode (.inl rfl)

/-- `rypt --public-key k.pub f` without the file. -/
example : Refusable (start pubArgs [] (fs (some [1]) none none none)) :=
  .keyFile pubOccs _ .encrypt .publicKey 0 "k.pub".toList (pubTyped []).1 (.inl ⟨by simp [pubOccs, modeOf], rfl⟩) (by simp)
    (by simp [pubOccs]) (.inl rfl)

/-- `rypt` at a terminal shows the help. -/
example : Reaches (start [] [] (fs none none none none)) ⟨fs none none none none, Text.encode (Help.text "rypt".toList), some 0,
    some (start [] [] (fs none none none none)).parse.2.term⟩ := by
  refine .help _ _ (Prod.ext ?_ rfl) .all
  rfl

/-- C97: the usual terminal; after the dialogue for two equal passwords it is as before. -/
example : (∀ f ∈ encStart.tcs, f.get = true ∧ f.set = true) ∧ encStart.tty.echoes = true ∧
    encStart.parse.2.term.stdin = [] ∧ encStart.parse.2.term.tty = Spec.sampleTty :=
  ⟨(by intro f hf; cases hf), by decide, by decide +kernel, by decide +kernel⟩

/-! ### Headers -/

/-- 2 of 3: possible. -/
example : (Credential.complex [(1, .password [1]), (1, .symmetricKey [2]), (1, .complex [(2, .password [3])] 2 2)] 3 2).Encryptable
    (fun _ => True) 32 := by simp [Credential.Encryptable, MembersEncryptable]

/-- 2 of 300: not possible. -/
example : ¬ (Credential.complex [(1, .password [1]), (299, .symmetricKey [2])] 300 2).Encryptable (fun _ => True) 32 := by
  simp [Credential.Encryptable, MembersEncryptable]

end Rypt.Props.ProgramSample
